import Verif.Amount.Spec

/-! C71: a job does as much I/O as was asked for. -/

namespace Fio.Amount

theorem w_small {x : Nat} (h : x < 18446744073709551616) : w x = x := Nat.mod_eq_of_lt h

theorem limit_loops (c : Cfg) : c.limit * c.tdLoops = want c := rfl

/-- Invariant, whatever the environment does. -/
structure Inv (c : Cfg) (s : St) : Prop where
  upper : s.cnt < want c + c.maxBs ∨ s.cnt = 0
  ios : c.trimwrite = false → c.numberIos ≠ 0 → s.ios ≤ c.numberIos * c.tdLoops
  num : c.trimwrite = false → s.num = c.numberIos
  all : s.all = s.cnt
  callLe : s.call ≤ s.cnt

theorem inv_init (c : Cfg) : Inv c (init c) where
  upper := Or.inr rfl
  ios := fun _ _ => Nat.zero_le _
  num := fun _ => rfl
  all := rfl
  callLe := Nat.le_refl _

theorem inv_leave {c : Cfg} {s : St} (h : Inv c s) : Inv c (leave s) :=
  ⟨h.upper, h.ios, h.num, h.all, h.callLe⟩

theorem inv_enter {c : Cfg} {s : St} (h : Inv c s) (n : Nat) : Inv c (enter c { s with loops := n }) where
  upper := h.upper
  ios := h.ios
  num := fun ht => by simp only [enter]; rw [if_neg (by simp [ht])]; exact h.num ht
  all := h.all
  callLe := Nat.zero_le _

theorem inv_keep {c : Cfg} {s : St} (h : Inv c s) (f : Bool) : Inv c (keepStep c s f) := by
  unfold keepStep
  split
  · exact inv_enter h _
  · have hd : Inv c { s with pc := .done } := ⟨h.upper, h.ios, h.num, h.all, h.callLe⟩
    split
    · exact hd
    · split
      · split
        · exact hd
        · split
          · exact hd
          · exact inv_enter h s.loops
      · exact hd

theorem inv_io {c : Cfg} {s : St} (hf : Fits c) (h : Inv c s) {io : Option Io}
    (hp : ∀ i, io = some i → 0 < i.len ∧ i.len ≤ c.maxBs ∧ i.counted = true) : Inv c (ioStep c s io) := by
  unfold ioStep
  split
  · exact inv_leave h
  · rename_i he
    split
    · exact inv_leave h
    · cases io with
      | none => exact inv_leave h
      | some i =>
        obtain ⟨h1, h2, h3⟩ := hp i rfl
        unfold exceeded exceedsIos at he
        rw [limit_loops, w_small hf.1] at he
        simp only [Bool.or_eq_true, decide_eq_true_eq, not_or] at he
        have hc := h.callLe
        have ha := h.all
        refine ⟨?_, ?_, h.num, ?_, ?_⟩
        · dsimp only; rw [h3, if_pos rfl]; omega
        · intro ht hn
          have hnum := h.num ht
          rw [hnum] at he
          have : ¬ s.ios ≥ w (c.numberIos * c.tdLoops) := fun hx => he.2 ⟨hn, hx⟩
          rw [w_small hf.2.2] at this
          dsimp only; omega
        · dsimp only; rw [h3, if_pos rfl]; omega
        · dsimp only; rw [h3, if_pos rfl]; omega

theorem inv_runs {c : Cfg} (hf : Fits c) : ∀ {as : List Ans} {s t : St}, Inv c s → Plain c as → runs c s as = some t →
    Inv c t
  | [], s, t, h, _, hr => by cases hr; exact h
  | a :: as, s, t, h, hp, hr => by
    unfold runs at hr
    split at hr
    · cases hr
    · rename_i s' hs
      refine inv_runs hf ?_ (fun x hx => hp x (List.mem_cons_of_mem _ hx)) hr
      unfold step at hs
      split at hs
      · cases hs; exact inv_keep h _
      · cases hs; exact inv_io hf h (hp a (List.mem_cons_self ..))
      · cases hs

/-- **C71** A job never does more than asked for, but for the last block: less than one block above the amount, and not
more I/Os than `number_ios` in each loop. -/
theorem C71_not_more_partial {c : Cfg} {as : List Ans} {t : St} (hf : Fits c) (hp : Plain c as)
    (hr : runs c (init c) as = some t) (h0 : 0 < want c) :
    t.cnt < want c + c.maxBs ∧
    (c.trimwrite = false → c.numberIos ≠ 0 → t.ios ≤ c.numberIos * (if c.loops = 0 then 1 else c.loops)) := by
  have h := inv_runs hf (inv_init c) hp hr
  refine ⟨?_, h.ios⟩
  rcases h.upper with h | h <;> omega

/-- Invariant for the lower bound: how many loops have been gone through. -/
structure Low (c : Cfg) (s : St) : Prop where
  all : s.all = s.cnt
  num : s.num = 0
  loops : s.loops ≤ c.loops
  keep : s.pc = .keep → (c.loops - s.loops) * min c.size c.limit ≤ s.cnt ∨ want c ≤ s.cnt
  io : s.pc = .io → ∃ b, b + s.call = s.cnt ∧ s.bi ≤ s.call ∧
    ((c.loops - s.loops) * min c.size c.limit ≤ b + min c.size c.limit ∨ want c ≤ b)
  done : s.pc = .done → (c.loops * min c.size c.limit ≤ s.cnt ∨ want c ≤ s.cnt) ∧
    (c.limit < s.cnt + c.maxBs ∨ c.limit ≤ s.cnt ∨ c.ioSize = 0 ∨ want c ≤ s.cnt)

theorem low_init {c : Cfg} (hn : c.numberIos = 0) : Low c (init c) where
  all := rfl
  num := hn
  loops := Nat.le_refl _
  keep := fun _ => Or.inl (by simp [init])
  io := fun h => by cases h
  done := fun h => by cases h

theorem total_ge {c : Cfg} (ht : c.trimwrite = false) : c.size ≤ c.total := by
  unfold Cfg.total
  simp only [ht, Bool.false_eq_true, if_false]
  split <;> split <;> omega

/-- Leaving do_io with `size` covered or the limit reached. -/
theorem low_leave {c : Cfg} {s : St} (h : Low c s) (hpc : s.pc = .io) (hs : 0 < c.size)
    (hr : c.size ≤ s.call ∨ want c ≤ s.cnt) : Low c (leave s) := by
  obtain ⟨b, h1, h2, h3⟩ := h.io hpc
  have hm : min c.size c.limit ≤ c.size := Nat.min_le_left _ _
  refine ⟨h.all, h.num, h.loops, ?_, ?_, ?_⟩
  · intro _
    show (c.loops - s.loops) * min c.size c.limit ≤ s.cnt ∨ want c ≤ s.cnt
    generalize (c.loops - s.loops) * min c.size c.limit = q at *
    omega
  · intro hx
    unfold leave at hx
    dsimp only at hx
    split at hx <;> cases hx
  · intro hx
    unfold leave at hx
    dsimp only at hx
    split at hx
    · have : want c ≤ s.cnt := by omega
      exact ⟨Or.inr this, Or.inr (Or.inr (Or.inr this))⟩
    · cases hx

theorem low_step {c : Cfg} {s s' : St} {a : Ans} (hf : Fits c) (ht : c.trimwrite = false) (hs : 0 < c.size)
    (h : Low c s) (hp : ∀ i, a.io = some i → 0 < i.len ∧ i.len ≤ c.maxBs ∧ i.counted = true)
    (hd : s.pc = .io → a.io = none → c.size ≤ s.call) (hst : step c s a = some s') : Low c s' := by
  unfold step at hst
  split at hst
  · rename_i hpc
    cases hst
    have hk := h.keep hpc
    have hl := h.loops
    have hall := h.all
    have henter : ∀ n, n ≤ c.loops → ((c.loops - n) * min c.size c.limit ≤ s.cnt + min c.size c.limit ∨
        want c ≤ s.cnt) → Low c (enter c { s with loops := n }) := by
      intro n hn hx
      refine ⟨h.all, ?_, hn, (fun h => by cases h), fun _ => ⟨s.cnt, rfl, Nat.le_refl _, hx⟩, (fun h => by cases h)⟩
      simp only [enter]; rw [if_neg (by simp [ht])]; exact h.num
    have hdone : s.loops = 0 → (c.limit < s.cnt + c.maxBs ∨ c.limit ≤ s.cnt ∨ c.ioSize = 0 ∨ want c ≤ s.cnt) →
        Low c { s with pc := .done } := by
      intro h0 hx
      refine ⟨h.all, h.num, h.loops, (fun h => by cases h), (fun h => by cases h), fun _ => ⟨?_, hx⟩⟩
      rw [h0, Nat.sub_zero] at hk
      exact hk
    unfold keepStep
    split
    · rename_i hz
      apply henter _ (by omega)
      have he : c.loops - (s.loops - 1) = (c.loops - s.loops) + 1 := by omega
      rw [he, Nat.succ_mul]
      generalize (c.loops - s.loops) * min c.size c.limit = q at *
      omega
    · rename_i hz
      have hz : s.loops = 0 := by omega
      have hex : exceedsIos c s = false := by simp [exceedsIos, h.num]
      rw [hex, if_neg (by simp)]
      have hlim := hf.2.1
      split
      · split
        · apply hdone hz; omega
        · split
          · rename_i hfd; exact hdone hz (Or.inr (Or.inr (Or.inl hfd.2)))
          · have := henter s.loops hl (by
              rcases hk with hk | hk
              · left
                generalize (c.loops - s.loops) * min c.size c.limit = q at *
                omega
              · exact Or.inr hk)
            exact this
      · apply hdone hz; omega
  · rename_i hpc
    cases hst
    unfold ioStep
    split
    · rename_i he
      apply low_leave h hpc hs
      right
      unfold exceeded exceedsIos at he
      rw [limit_loops, w_small hf.1] at he
      simpa [h.num] using he
    · rename_i he
      obtain ⟨b, h1, h2, h3⟩ := h.io hpc
      split
      · rename_i hb
        apply low_leave h hpc hs
        have := total_ge ht
        left; omega
      · cases hio : a.io with
        | none => exact low_leave h hpc hs (Or.inl (hd hpc hio))
        | some i =>
          obtain ⟨p1, p2, p3⟩ := hp i hio
          have hall := h.all
          refine ⟨?_, h.num, h.loops, ?_, ?_, ?_⟩
          · dsimp only; rw [p3, if_pos rfl]; omega
          · intro hx; rw [show s.pc = .keep from hx] at hpc; cases hpc
          · intro _
            refine ⟨b, ?_, ?_, h3⟩
            · dsimp only; rw [p3, if_pos rfl]; omega
            · dsimp only; split <;> omega
          · intro hx; rw [show s.pc = .done from hx] at hpc; cases hpc
  · cases hst

theorem low_runs {c : Cfg} (hf : Fits c) (ht : c.trimwrite = false) (hs : 0 < c.size) :
    ∀ {as : List Ans} {s t : St}, Low c s → Plain c as → Delivers c s as → runs c s as = some t → Low c t
  | [], s, t, h, _, _, hr => by cases hr; exact h
  | a :: as, s, t, h, hp, hd, hr => by
    unfold runs at hr
    split at hr
    · cases hr
    · rename_i s' hst
      refine low_runs hf ht hs (low_step hf ht hs h (hp a (List.mem_cons_self ..)) ?_ hst)
        (fun x hx => hp x (List.mem_cons_of_mem _ hx)) ?_ hr
      · intro h1 h2; exact hd [] a as s rfl rfl h1 h2
      · intro pre b post u he hru
        refine hd (a :: pre) b post u (by rw [he]; rfl) ?_
        unfold runs; rw [hst]; exact hru

/-- **C71** A job that is over has done what was asked for, if `io_size` is not given or not more than `size`. -/
theorem C71_not_less_partial {c : Cfg} {as : List Ans} {t : St} (hf : Fits c) (hp : Plain c as)
    (hd : Delivers c (init c) as) (hr : runs c (init c) as = some t) (hover : t.pc = .done)
    (ht : c.trimwrite = false) (hn : c.numberIos = 0) (hs : 0 < c.size) (hl : 0 < c.loops) (hio : c.ioSize ≤ c.size) :
    want c ≤ t.cnt := by
  have h := (low_runs hf ht hs (low_init hn) hp hd hr).done hover
  rcases h.1 with h | h
  · have hm : min c.size c.limit = c.limit := by
      unfold Cfg.limit; split <;> omega
    rw [hm] at h
    have : want c = c.loops * c.limit := by
      rw [← limit_loops, Nat.mul_comm]; unfold Cfg.tdLoops; rw [if_neg (by omega)]
    omega
  · exact h

/-- **C71** With `io_size` larger than `size` and one loop, a job that is over has done `io_size`, but for less than a
block. -/
theorem C71_io_size_partial {c : Cfg} {as : List Ans} {t : St} (hf : Fits c) (hp : Plain c as)
    (hd : Delivers c (init c) as) (hr : runs c (init c) as = some t) (hover : t.pc = .done)
    (ht : c.trimwrite = false) (hn : c.numberIos = 0) (hs : 0 < c.size) (hl : c.loops = 1) (hio : 0 < c.ioSize)
    (hb : 0 < c.maxBs) : c.ioSize < t.cnt + c.maxBs := by
  have h := (low_runs hf ht hs (low_init hn) hp hd hr).done hover
  have hlim : c.limit = c.ioSize := by unfold Cfg.limit; rw [if_pos (by omega)]
  have hw : want c = c.ioSize := by rw [← limit_loops, hlim]; unfold Cfg.tdLoops; rw [hl]; simp
  rw [hlim, hw] at h
  omega

/-- What a job can still do. -/
def measure (c : Cfg) (s : St) : Nat :=
  3 * (want c - s.cnt) + (match s.pc with | .keep => 2 | .io => (if s.call = 0 then 1 else 3) | .done => 0)

theorem measure_step {c : Cfg} {s s' : St} {a : Ans} (hf : Fits c)
    (hp : ∀ i, a.io = some i → 0 < i.len ∧ i.len ≤ c.maxBs ∧ i.counted = true)
    (hst : step c s a = some s') : measure c s' < measure c s := by
  unfold step at hst
  split at hst
  · rename_i hpc
    cases hst
    have h1 : ∀ n, measure c (enter c { s with loops := n }) < measure c s := by
      intro n
      unfold measure
      rw [hpc]
      show 3 * (want c - s.cnt) + 1 < 3 * (want c - s.cnt) + 2
      omega
    have h2 : measure c { s with pc := .done } < measure c s := by
      unfold measure
      rw [hpc]
      show 3 * (want c - s.cnt) + 0 < 3 * (want c - s.cnt) + 2
      omega
    unfold keepStep
    split
    · exact h1 _
    · split
      · exact h2
      · split
        · split
          · exact h2
          · split
            · exact h2
            · exact h1 s.loops
        · exact h2
  · rename_i hpc
    cases hst
    have hleave : measure c (leave s) < measure c s := by
      unfold measure leave
      rw [hpc]
      dsimp only
      by_cases h0 : s.call = 0
      · rw [if_pos h0, if_pos h0]; dsimp only; omega
      · rw [if_neg h0, if_neg h0]; dsimp only; omega
    unfold ioStep
    split
    · exact hleave
    · rename_i he
      split
      · exact hleave
      · cases hio : a.io with
        | none => exact hleave
        | some i =>
          obtain ⟨p1, p2, p3⟩ := hp i hio
          unfold exceeded at he
          rw [limit_loops, w_small hf.1] at he
          simp only [Bool.or_eq_true, decide_eq_true_eq, not_or] at he
          unfold measure
          dsimp only
          rw [hpc, p3, if_pos rfl]
          dsimp only
          rw [if_neg (show ¬ s.call + i.len = 0 by omega)]
          split <;> omega
  · cases hst

/-- **C71** A job ends: after as many steps as given by the amount asked for it is over. -/
theorem C71_ends_partial {c : Cfg} (hf : Fits c) : ∀ {as : List Ans} {s t : St}, Plain c as → runs c s as = some t →
    as.length + measure c t ≤ measure c s
  | [], s, t, _, hr => by cases hr; simp
  | a :: as, s, t, hp, hr => by
    unfold runs at hr
    split at hr
    · cases hr
    · rename_i s' hst
      have h1 := measure_step hf (hp a (List.mem_cons_self ..)) hst
      have h2 := C71_ends_partial hf (fun x hx => hp x (List.mem_cons_of_mem _ hx)) hr
      simp only [List.length_cons]
      omega

/-- A step is possible unless the job is over. -/
theorem C71_goes_on {c : Cfg} {s : St} (a : Ans) : step c s a = none ↔ s.pc = .done := by
  unfold step
  cases s.pc <;> simp

/-- A job: two loops of 3 blocks of 4 bytes, asynchronous engine. -/
def exCfg : Cfg :=
  { size := 12, ioSize := 0, loops := 2, numberIos := 0, maxBs := 4, sync := false, write := true, random := false,
    norandommap := false, trimwrite := false }

/-- The answers: blocks of 4 bytes, nothing more after each three. -/
def exAns (n : Nat) : List Ans := List.replicate n ⟨false, some ⟨true, 4⟩⟩

example : (runs exCfg (init exCfg) (exAns 11)).map (fun s => (s.cnt, s.ios, s.pc)) = some (24, 6, .done) := by
  decide +kernel

/-- The hypotheses of `C71_not_less_partial` are met by this. -/
example : Fits exCfg ∧ Plain exCfg (exAns 11) ∧ Delivers exCfg (init exCfg) (exAns 11) := by
  refine ⟨by unfold Fits; decide, ?_, ?_⟩
  · intro a ha i hi
    rw [List.eq_of_mem_replicate ha] at hi
    cases hi
    decide
  · intro pre a post t he _ _ hn
    have : a ∈ exAns 11 := by rw [he]; simp
    rw [List.eq_of_mem_replicate this] at hn
    cases hn

/-- **C71** is false for `io_size` larger than `size` and more than one loop (`size=12 io_size=24 loops=2`, reads): 24 of
48 bytes are read. -/
theorem C71_io_size_loops_counterexample :
    let c : Cfg := { exCfg with ioSize := 24, write := false }
    Fits c ∧ Plain c (exAns 11) ∧ Delivers c (init c) (exAns 11) ∧ want c = 48 ∧
    (runs c (init c) (exAns 11)).map (fun s => (s.cnt, s.pc)) = some (24, .done) := by
  refine ⟨by unfold Fits; decide, ?_, ?_, by decide, by decide +kernel⟩
  · intro a ha i hi
    rw [List.eq_of_mem_replicate ha] at hi
    cases hi
    decide
  · intro pre a post t he _ _ hn
    have : a ∈ exAns 11 := by rw [he]; simp
    rw [List.eq_of_mem_replicate this] at hn
    cases hn

/-- **C71** is false for trimwrite with `number_ios` and loops: do_io doubles the number each time it is entered, so with
`number_ios=1 loops=2` there are 8 I/Os (4 trims, 4 writes) instead of 4. -/
theorem C71_number_ios_counterexample :
    let c : Cfg := { exCfg with size := 1000, numberIos := 1, trimwrite := true }
    Fits c ∧
    (runs c (init c) ((List.replicate 12 [(⟨false, some ⟨false, 4⟩⟩ : Ans), ⟨false, some ⟨true, 4⟩⟩]).flatten.take 13)).map
      (fun s => (s.ios, s.pc)) = some (8, .done) := by
  refine ⟨by unfold Fits; decide, by decide +kernel⟩

end Fio.Amount
