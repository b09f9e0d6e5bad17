import Verif.Ddir.Spec

/-! # C77: syncs between writes, and the mix of reads and writes -/

namespace Fio.Ddir

/-- Inputs as they occur: no verification in between, rate_ddir gives a direction or a timeout, only
directions of data are set by zonemode=zbd and trimwrite. -/
structure Usual (i : In) : Prop where
  ver : i.ver = false
  rate : ∀ d, isData (i.rate d) = true ∨ i.rate d = .timeout
  adj : ∀ d, i.adj = some d → isData d = true

theorem rw_iff (d : Dd) : d.rw = isData d := by cases d <;> rfl

theorem data_not_sync {d : Dd} (h : isData d = true) : d.isSync = false := by
  cases d <;> first | rfl | cases h

theorem syncDue_last {c : Cfg} {s : S} (h : s.last ≠ .write) : syncDue c s = none := by
  unfold syncDue
  rw [if_neg (fun h' => h h'.2)]

theorem syncDue_zero {c : Cfg} {s : S} (h : s.wr = 0) : syncDue c s = none := by
  unfold syncDue
  simp [h]

theorem syncDue_due {c : Cfg} {s : S} (hc : c.tdW = true ∨ c.overrideSync = true) (h : s.last = .write)
    (hw : s.wr ≠ 0) : syncDue c s = due c.fsync c.fdatasync c.sfr s.wr := by
  unfold syncDue due
  have hs : shouldFsync c s = true := by
    unfold shouldFsync
    rw [h]
    rcases hc with h | h <;> simp [h, Dd.isSync]
  rw [if_pos ⟨hs, h⟩]
  simp only [Nat.pos_iff_ne_zero, Nat.dvd_iff_mod_eq_zero, hw, ne_eq, not_false_eq_true, true_and]

theorem due_sync {f d r n : Nat} {k : Dd} (h : due f d r n = some k) : k.isSync = true ∧ isData k = false := by
  unfold due at h
  split at h
  · obtain rfl := Option.some.inj h; exact ⟨rfl, rfl⟩
  split at h
  · obtain rfl := Option.some.inj h; exact ⟨rfl, rfl⟩
  split at h
  · obtain rfl := Option.some.inj h; exact ⟨rfl, rfl⟩
  · cases h

theorem pickData_spec {c : Cfg} {s s1 : S} {v : Nat} {d : Dd} (h : pickData c s v = some (s1, d)) :
    s1.last = s.last ∧ s1.rd = s.rd ∧ s1.wr = s.wr ∧ s1.tr = s.tr ∧ s1.req = s.req ∧
    (isData d = true ∨ d = .inval) := by
  unfold pickData at h
  split at h
  · unfold pickMix at h
    cases hi : issues s s.mixDir with
    | none => rw [hi] at h; cases h
    | some n =>
      rw [hi] at h
      simp only [Option.bind_some] at h
      have hm : isData s.mixDir = true := by
        unfold issues at hi
        split at hi <;> simp_all [isData]
      have hr : isData (randDdir c v) = true := by unfold randDdir; split <;> rfl
      split at h
      · split at h
        · simp only [Option.some.injEq, Prod.mk.injEq] at h
          obtain ⟨rfl, rfl⟩ := h
          exact ⟨rfl, rfl, rfl, rfl, rfl, .inl hr⟩
        · simp only [Option.some.injEq, Prod.mk.injEq] at h
          obtain ⟨rfl, rfl⟩ := h
          exact ⟨rfl, rfl, rfl, rfl, rfl, .inl hr⟩
      · simp only [Option.some.injEq, Prod.mk.injEq] at h
        obtain ⟨rfl, rfl⟩ := h
        exact ⟨rfl, rfl, rfl, rfl, rfl, .inl hm⟩
  · split at h
    · simp only [Option.some.injEq, Prod.mk.injEq] at h
      obtain ⟨rfl, rfl⟩ := h
      exact ⟨rfl, rfl, rfl, rfl, rfl, .inl rfl⟩
    split at h
    · simp only [Option.some.injEq, Prod.mk.injEq] at h
      obtain ⟨rfl, rfl⟩ := h
      exact ⟨rfl, rfl, rfl, rfl, rfl, .inl rfl⟩
    split at h
    · simp only [Option.some.injEq, Prod.mk.injEq] at h
      obtain ⟨rfl, rfl⟩ := h
      exact ⟨rfl, rfl, rfl, rfl, rfl, .inl rfl⟩
    · simp only [Option.some.injEq, Prod.mk.injEq] at h
      obtain ⟨rfl, rfl⟩ := h
      exact ⟨rfl, rfl, rfl, rfl, rfl, .inr rfl⟩

theorem getRwDdir_spec {c : Cfg} {s s1 : S} {v : Nat} {rate : Dd → Dd} {d : Dd}
    (hr : ∀ d, isData (rate d) = true ∨ rate d = .timeout)
    (h : getRwDdir c s v rate = some (s1, d)) :
    s1.last = s.last ∧ s1.rd = s.rd ∧ s1.wr = s.wr ∧ s1.tr = s.tr ∧ s1.req = s.req ∧
    (syncDue c s = some d ∨ (syncDue c s = none ∧ (isData d = true ∨ d = .inval ∨ d = .timeout))) := by
  unfold getRwDdir at h
  cases hs : syncDue c s with
  | some k =>
    rw [hs] at h
    simp only [Option.some.injEq, Prod.mk.injEq] at h
    obtain ⟨rfl, rfl⟩ := h
    exact ⟨rfl, rfl, rfl, rfl, rfl, .inl rfl⟩
  | none =>
    rw [hs] at h
    simp only at h
    cases hp : pickData c s v with
    | none => rw [hp] at h; cases h
    | some q =>
      obtain ⟨s2, d2⟩ := q
      rw [hp] at h
      simp only [Option.some.injEq, Prod.mk.injEq] at h
      obtain ⟨rfl, rfl⟩ := h
      obtain ⟨a1, a2, a3, a4, a5, a6⟩ := pickData_spec hp
      refine ⟨a1, a2, a3, a4, a5, .inr ⟨rfl, ?_⟩⟩
      split
      · rcases hr d2 with h | h
        · exact .inl h
        · exact .inr (.inr h)
      · rcases a6 with h | h
        · exact .inl h
        · exact .inr (.inl h)

theorem weave_snoc (f d r : Nat) : ∀ (l : List Dd) (n : Nat) (x : Dd),
    weave f d r n (l ++ [x]) = weave f d r n l ++
      (if x = .write then .write :: (due f d r (n + l.count .write + 1)).toList else [x])
  | [], n, x => by
    cases x <;> simp [weave]
  | y :: l, n, x => by
    have ih := fun m => weave_snoc f d r l m x
    cases y <;> simp only [List.cons_append, weave, ih] <;> simp <;> split <;> simp <;> congr 2 <;> omega

theorem filter_snoc (t : List Dd) (x : Dd) :
    (t ++ [x]).filter isData = t.filter isData ++ (if isData x then [x] else []) := by
  rw [List.filter_append]
  congr 1
  by_cases h : isData x <;> simp [h]

theorem count_filter (t : List Dd) : (t.filter isData).count .write = t.count .write := by
  rw [List.count_filter rfl]

/-- State of a run with the I/Os `t` so far. -/
structure J (c : Cfg) (t : List Dd) (s : S) : Prop where
  wr : s.wr = t.count .write
  req : ∀ p, s.req = some p → p.2 = false
  trace : (t = weave c.fsync c.fdatasync c.sfr 0 (t.filter isData) ∧
      (s.req = none → s.last = .write → t.count .write ≠ 0 →
        due c.fsync c.fdatasync c.sfr (t.count .write) = none) ∧
      (∀ p, s.req = some p → isData p.1 = true)) ∨
    (∃ k, due c.fsync c.fdatasync c.sfr (t.count .write) = some k ∧
      t ++ [k] = weave c.fsync c.fdatasync c.sfr 0 (t.filter isData) ∧ s.last = .write ∧
      t.count .write ≠ 0 ∧ (s.req = none ∨ s.req = some (k, false)))

theorem inc64_eq {x : Nat} (h : x < 2 ^ 64 - 1) : inc64 x = x + 1 := by
  unfold inc64
  rw [if_pos h]

theorem dec_inc64 {x : Nat} (h : x < 2 ^ 64 - 1) : dec64 (inc64 x) = x := by
  rw [inc64_eq h]
  unfold dec64
  rw [if_neg (by omega), Nat.add_sub_cancel]

theorem inc_dec_wr {s : S} {d : Dd} (h : s.wr < 2 ^ 64 - 1) : (dec (inc s d) d).wr = s.wr := by
  cases d with
  | write => exact dec_inc64 h
  | _ => rfl

theorem inc_wr {s : S} {d : Dd} (h : s.wr < 2 ^ 64 - 1) :
    (inc s d).wr = s.wr + if d = .write then 1 else 0 := by
  cases d with
  | write => exact inc64_eq h
  | _ => rfl


/-- Data I/O issued in a state where no sync is due. -/
theorem issue_data {c : Cfg} {t : List Dd} {s : S} {d : Dd} {r : Reply} (hd : isData d = true)
    (hw : s.wr = t.count .write) (hb : s.wr < 2 ^ 64 - 1)
    (ht : t = weave c.fsync c.fdatasync c.sfr 0 (t.filter isData))  :
    J c (t ++ ((issue s d false r).2.toList.map (·.1))) (issue s d false r).1 := by
  have hrw : d.rw = true := by rw [rw_iff]; exact hd
  unfold issue
  simp only [hrw, and_self, if_true]
  cases r with
  | busy =>
    refine ⟨?_, ?_, .inl ⟨?_, ?_, ?_⟩⟩
    · simp [inc_dec_wr hb, hw]
    · simp
    · simpa using ht
    · simp
    · simp [hd]
  | short =>
    refine ⟨?_, ?_, .inl ⟨?_, ?_, ?_⟩⟩
    · simp [inc_dec_wr hb, hw]
    · simp
    · simpa using ht
    · simp
    · simp [hd]
  | done =>
    simp only [Option.toList_some, List.map_cons, List.map_nil]
    have hfs : (t ++ [d]).filter isData = t.filter isData ++ [d] := by rw [filter_snoc, if_pos hd]
    have hcnt : (t ++ [d]).count .write = t.count .write + if d = .write then 1 else 0 := by
      rw [List.count_append]
      cases d <;> simp
    have hws := weave_snoc c.fsync c.fdatasync c.sfr (t.filter isData) 0 d
    rw [count_filter, Nat.zero_add, ← ht] at hws
    refine ⟨?_, by simp, ?_⟩
    · simp only [inc_wr hb, hcnt, hw]
    · rw [hfs, hcnt, hws]
      by_cases hwr : d = .write
      · subst hwr
        simp only [if_true]
        cases hdue : due c.fsync c.fdatasync c.sfr (t.count .write + 1) with
        | none => left; simp
        | some k => right; exact ⟨k, by simp, by simp, by simp, by simp, by simp⟩
      · rw [if_neg hwr]
        left
        exact ⟨rfl, fun _ h => absurd h hwr, by simp⟩

/-- A sync issued where it is due. -/
theorem issue_sync {c : Cfg} {t : List Dd} {s : S} {k : Dd} {r : Reply}
    (hw : s.wr = t.count .write) (hdue : due c.fsync c.fdatasync c.sfr (t.count .write) = some k)
    (ht : t ++ [k] = weave c.fsync c.fdatasync c.sfr 0 (t.filter isData)) (hl : s.last = .write)
    (hne : t.count .write ≠ 0) :
    J c (t ++ ((issue s k false r).2.toList.map (·.1))) (issue s k false r).1 := by
  obtain ⟨h1, h2⟩ := due_sync hdue
  have hrw : k.rw = false := by rw [rw_iff]; exact h2
  have hk : k ≠ .write := by rintro rfl; cases h1
  have hfs : (t ++ [k]).filter isData = t.filter isData := by rw [filter_snoc, h2]; simp
  have hcnt : (t ++ [k]).count .write = t.count .write := by
    rw [List.count_append, List.count_singleton]
    simp [hk]
  have fin : J c (t ++ [k]) { s with last := k, req := none } :=
    ⟨by rw [hcnt]; exact hw, by simp, .inl ⟨by rw [hfs]; exact ht, fun _ h => absurd h hk, by simp⟩⟩
  unfold issue
  simp only [hrw, Bool.false_eq_true, false_and, if_false]
  cases r with
  | busy =>
    refine ⟨by simpa using hw, by simp, .inr ⟨k, ?_, ?_, hl, ?_, .inr rfl⟩⟩
    · simpa using hdue
    · simpa using ht
    · simpa using hne
  | short => exact fin
  | done => exact fin

theorem step_J {c : Cfg} {t : List Dd} {s s' : S} {i : In} {o : Option (Dd × Bool)}
    (hc : c.tdW = true ∨ c.overrideSync = true) (hi : Usual i) (hJ : J c t s)
    (hb : t.count .write < 2 ^ 64 - 1) (h : step c s i = some (s', o)) :
    J c (t ++ o.toList.map (·.1)) s' := by
  obtain ⟨hw, hreq, htr⟩ := hJ
  unfold step at h
  split at h
  · rename_i d ver hq
    have hv : ver = false := hreq _ hq
    subst hv
    simp only [Option.some.injEq] at h
    have e1 : s' = (issue s d false i.reply).1 := by rw [h]
    have e2 : o = (issue s d false i.reply).2 := by rw [h]
    rw [e1, e2]
    rcases htr with ⟨a1, -, a3⟩ | ⟨k, b1, b2, b3, b4, b5⟩
    · exact issue_data (a3 _ hq) hw (by omega) a1
    · rcases b5 with b5 | b5
      · rw [b5] at hq; cases hq
      · rw [b5] at hq
        simp only [Option.some.injEq, Prod.mk.injEq] at hq
        obtain ⟨rfl, -⟩ := hq
        exact issue_sync hw b1 b2 b3 b4
  · rename_i hq
    rw [hi.ver] at h
    simp only [Bool.false_eq_true, if_false] at h
    split at h
    · cases h
    rename_i s1 d hg
    obtain ⟨g1, -, g3, -, g5, g6⟩ := getRwDdir_spec hi.rate hg
    have hw1 : s1.wr = t.count .write := by rw [g3, hw]
    have hreq1 : s1.req = none := by rw [g5, hq]
    rcases htr with ⟨a1, a2, a3⟩ | ⟨k, b1, b2, b3, b4, -⟩
    · have hnone : syncDue c s = none := by
        by_cases hl : s.last = .write
        · by_cases h0 : s.wr = 0
          · exact syncDue_zero h0
          · rw [syncDue_due hc hl h0, hw]
            exact a2 hq hl (by omega)
        · exact syncDue_last hl
      rcases g6 with g6 | ⟨-, g6⟩
      · rw [hnone] at g6; cases g6
      have hns : d.isSync = false := by
        rcases g6 with h | rfl | rfl
        · exact data_not_sync h
        · rfl
        · rfl
      split at h
      · simp only [Option.some.injEq, Prod.mk.injEq] at h
        obtain ⟨rfl, rfl⟩ := h
        refine ⟨by simpa using hw1, by simp [hreq1], .inl ⟨by simpa using a1, ?_, by simp [hreq1]⟩⟩
        intro _ hl hne
        have := a2 hq (by rw [← g1]; exact hl)
        simp only [Option.toList_none, List.map_nil, List.append_nil] at hne ⊢
        exact this hne
      · rename_i hadj
        have hd' : isData (adjust d i.adj) = true := by
          have e : adjust d i.adj = i.adj.getD d := by unfold adjust; rw [hns]; rfl
          rw [e] at hadj ⊢
          cases ha : i.adj with
          | some x => exact hi.adj x ha
          | none =>
            rw [ha] at hadj
            simp only [Option.getD_none, not_or] at hadj ⊢
            rcases g6 with h | h | h
            · exact h
            · exact absurd h hadj.1
            · exact absurd h hadj.2
        simp only [Option.some.injEq] at h
        have e1 : s' = (issue s1 (adjust d i.adj) false i.reply).1 := by rw [h]
        have e2 : o = (issue s1 (adjust d i.adj) false i.reply).2 := by rw [h]
        rw [e1, e2]
        exact issue_data hd' hw1 (by omega) a1
    · have hsome : syncDue c s = some k := by
        rw [syncDue_due hc b3 (by omega), hw, b1]
      rcases g6 with g6 | ⟨g6, -⟩
      · rw [hsome] at g6
        obtain rfl := Option.some.inj g6
        have hk := (due_sync b1).1
        have ha : adjust k i.adj = k := by unfold adjust; rw [if_pos hk]
        rw [ha] at h
        rw [if_neg (by rintro (rfl | rfl) <;> cases hk)] at h
        simp only [Option.some.injEq] at h
        have e1 : s' = (issue s1 k false i.reply).1 := by rw [h]
        have e2 : o = (issue s1 k false i.reply).2 := by rw [h]
        rw [e1, e2]
        exact issue_sync hw1 b1 b2 (by rw [g1]; exact b3) b4
      · rw [hsome] at g6; cases g6

theorem count_toList_le (o : Option (Dd × Bool)) : (o.toList.map (·.1)).count .write ≤ 1 := by
  refine Nat.le_trans List.count_le_length ?_
  cases o <;> simp

theorem run_J {c : Cfg} (hc : c.tdW = true ∨ c.overrideSync = true) : ∀ (ins : List In) (t : List Dd)
    (s s' : S) (out : List (Dd × Bool)), (∀ i ∈ ins, Usual i) → J c t s →
    t.count .write + ins.length < 2 ^ 64 → run c s ins = some (s', out) → J c (t ++ out.map (·.1)) s'
  | [], t, s, s', out, _, hJ, _, h => by
    simp only [run, Option.some.injEq, Prod.mk.injEq] at h
    obtain ⟨rfl, rfl⟩ := h
    simpa using hJ
  | i :: ins, t, s, s', out, hu, hJ, hb, h => by
    unfold run at h
    split at h
    · cases h
    rename_i s1 o h1
    split at h
    · cases h
    rename_i s2 out2 h2
    simp only [Option.some.injEq, Prod.mk.injEq] at h
    obtain ⟨rfl, rfl⟩ := h
    simp only [List.length_cons] at hb
    have hJ1 := step_J hc (hu i List.mem_cons_self) hJ (by omega) h1
    have := run_J hc ins _ _ _ _ (fun j hj => hu j (List.mem_cons_of_mem _ hj)) hJ1
      (by rw [List.count_append]; have := count_toList_le o; omega) h2
    rw [List.map_append, ← List.append_assoc]
    exact this

/-- C77: whatever the engine answers and whatever directions are chosen, the I/Os of a job are its data
I/Os with a sync directly after each write whose number is a multiple of the option (fsync goes before
fdatasync, fdatasync before sync_file_range), and no other syncs; at most the sync after the last write
is still missing. -/
theorem C77_sync_partial {c : Cfg} (hc : c.tdW = true ∨ c.overrideSync = true) {ins : List In} {s : S}
    {out : List (Dd × Bool)} (hu : ∀ i ∈ ins, Usual i) (hn : ins.length < 2 ^ 64)
    (h : run c init ins = some (s, out)) :
    let t := out.map (·.1)
    t = weave c.fsync c.fdatasync c.sfr 0 (t.filter isData) ∨
    ∃ k, t ++ [k] = weave c.fsync c.fdatasync c.sfr 0 (t.filter isData) := by
  have hJ0 : J c [] init := ⟨rfl, by simp [init], .inl ⟨rfl, by simp, by simp [init]⟩⟩
  have := (run_J hc ins [] init s out hu hJ0 (by simpa using hn) h).trace
  simp only [List.nil_append] at this
  rcases this with h | ⟨k, _, h, _⟩
  · exact .inl h.1
  · exact .inr ⟨k, h⟩

/-! ## Rounds go on -/

theorem issue_mix (s : S) (d : Dd) (ver : Bool) (r : Reply) :
    (issue s d ver r).1.mixDir = s.mixDir ∧ (issue s d ver r).1.mixIssues = s.mixIssues := by
  unfold issue
  cases d <;> cases ver <;> cases r <;> exact ⟨rfl, rfl⟩

theorem issue_done (s : S) (d : Dd) (ver : Bool) : (issue s d ver .done).2 = some (d, ver) := rfl

/-- C77: as long as rate_ddir gives no timeout, every round of a job gets a direction; if the engine
takes every I/O, every round does one. -/
theorem C77_goes_on {c : Cfg} (hdir : c.tdR = true ∨ c.tdW = true ∨ c.tdT = true) {ins : List In}
    (hu : ∀ i ∈ ins, Usual i ∧ ∀ d, i.rate d ≠ .timeout) :
    ∃ s out, run c init ins = some (s, out) ∧
      ((∀ i ∈ ins, i.reply = .done) → out.length = ins.length) := by
  have key : ∀ (ins : List In) (s : S), (∀ i ∈ ins, Usual i ∧ ∀ d, i.rate d ≠ .timeout) →
      isData s.mixDir = true →
      ∃ s' out, run c s ins = some (s', out) ∧ ((∀ i ∈ ins, i.reply = .done) → out.length = ins.length) := by
    intro ins
    induction ins with
    | nil => intro s _ _; exact ⟨s, [], rfl, fun _ => rfl⟩
    | cons i ins ih =>
      intro s hu hm
      have hi := hu i List.mem_cons_self
      have hstep : ∃ s1 o, step c s i = some (s1, o) ∧ isData s1.mixDir = true ∧
          (i.reply = .done → o.isSome = true) := by
        unfold step
        cases hq : s.req with
        | some p =>
          obtain ⟨d, ver⟩ := p
          refine ⟨(issue s d ver i.reply).1, (issue s d ver i.reply).2, rfl,
            by rw [(issue_mix _ _ _ _).1]; exact hm, fun h => ?_⟩
          rw [h, issue_done]; rfl
        | none =>
          simp only [hi.1.ver, Bool.false_eq_true, if_false]
          have hp : ∃ s1 d, pickData c s i.v = some (s1, d) ∧ isData d = true := by
            unfold pickData
            split
            · unfold pickMix
              have : ∃ n, issues s s.mixDir = some n := by
                revert hm
                cases s.mixDir <;> intro hm <;> first | exact ⟨_, rfl⟩ | cases hm
              obtain ⟨n, hn⟩ := this
              rw [hn]
              have hr : isData (randDdir c i.v) = true := by unfold randDdir; split <;> rfl
              simp only [Option.bind_some]
              split
              · split
                · exact ⟨_, _, rfl, hr⟩
                · exact ⟨_, _, rfl, hr⟩
              · exact ⟨_, _, rfl, hm⟩
            split
            · exact ⟨_, _, rfl, rfl⟩
            split
            · exact ⟨_, _, rfl, rfl⟩
            split
            · exact ⟨_, _, rfl, rfl⟩
            · simp_all
          have hg : ∃ s1 d, getRwDdir c s i.v i.rate = some (s1, d) ∧ isData s1.mixDir = true ∧
              (d.isSync = true ∨ isData d = true) := by
            unfold getRwDdir
            cases hs : syncDue c s with
            | some k =>
              refine ⟨s, k, rfl, hm, .inl ?_⟩
              unfold syncDue at hs
              repeat' split at hs
              all_goals first | cases hs; rfl | cases hs
            | none =>
              obtain ⟨s1, d, h1, h2⟩ := hp
              rw [h1]
              have : isData (if c.checkRate = true then i.rate d else d) = true := by
                split
                · exact (hi.1.rate d).resolve_right (hi.2 d)
                · exact h2
              exact ⟨_, _, rfl, this, .inr this⟩
          obtain ⟨s1, d, h1, h2, h3⟩ := hg
          rw [h1]
          simp only
          have hne : ¬ (adjust d i.adj = .inval ∨ adjust d i.adj = .timeout) := by
            unfold adjust
            split
            · rename_i h; rintro (rfl | rfl) <;> cases h
            · rename_i h
              have hd := h3.resolve_left h
              cases ha : i.adj with
              | none =>
                simp only [Option.getD_none]
                rintro (rfl | rfl) <;> cases hd
              | some x =>
                have := hi.1.adj x ha
                simp only [Option.getD_some]
                rintro (rfl | rfl) <;> cases this
          rw [if_neg hne]
          refine ⟨(issue s1 (adjust d i.adj) false i.reply).1, (issue s1 (adjust d i.adj) false i.reply).2,
            rfl, by rw [(issue_mix _ _ _ _).1]; exact h2, fun h => ?_⟩
          rw [h, issue_done]; rfl
      obtain ⟨s1, o, h1, h2, h3⟩ := hstep
      obtain ⟨s2, out, h4, h5⟩ := ih s1 (fun j hj => hu j (List.mem_cons_of_mem _ hj)) h2
      refine ⟨s2, o.toList ++ out, ?_, ?_⟩
      · unfold run
        rw [h1]
        simp only
        rw [h4]
      · intro hd
        have := h3 (hd i List.mem_cons_self)
        obtain ⟨x, rfl⟩ := Option.isSome_iff_exists.1 this
        simp [h5 (fun j hj => hd j (List.mem_cons_of_mem _ hj))]
  exact key ins init hu rfl

/-! ## Reads and writes -/

/-- The limit is a share of what was done in the other direction. -/
structure M (c : Cfg) (s : S) : Prop where
  dir : s.mixDir = .read ∨ s.mixDir = .write
  lim : ∀ n, issues s (other s.mixDir) = some n → 100 * s.mixIssues ≤ n * mix c s.mixDir
  small : s.rd + s.wr + s.tr < 2 ^ 57

/-- How many I/Os were issued. -/
def tot (s : S) : Nat := s.rd + s.wr + s.tr

theorem dec64_le (x : Nat) (h : x ≠ 0) : dec64 x = x - 1 := by unfold dec64; rw [if_neg h]

theorem issue_counts {s : S} {d : Dd} {r : Reply} (h : tot s < 2 ^ 57) :
    s.rd ≤ (issue s d false r).1.rd ∧ s.wr ≤ (issue s d false r).1.wr ∧ s.tr ≤ (issue s d false r).1.tr ∧
    tot (issue s d false r).1 ≤ tot s + 1 := by
  unfold tot at *
  have e1 : inc64 s.rd = s.rd + 1 := inc64_eq (by omega)
  have e2 : inc64 s.wr = s.wr + 1 := inc64_eq (by omega)
  have e3 : inc64 s.tr = s.tr + 1 := inc64_eq (by omega)
  have f1 := dec64_le (s.rd + 1) (by omega)
  have f2 := dec64_le (s.wr + 1) (by omega)
  have f3 := dec64_le (s.tr + 1) (by omega)
  unfold issue
  cases d <;> cases r <;>
    simp only [Dd.rw, inc, dec, e1, e2, e3, f1, f2, f3, and_self, if_true, Bool.false_eq_true, false_and,
      if_false] <;> omega

theorem M_mono {c : Cfg} {s t : S} (h : M c s) (h1 : t.mixDir = s.mixDir) (h2 : t.mixIssues = s.mixIssues)
    (h3 : s.rd ≤ t.rd) (h4 : s.wr ≤ t.wr) (h5 : tot t < 2 ^ 57) : M c t := by
  refine ⟨by rw [h1]; exact h.dir, ?_, h5⟩
  intro n hn
  rw [h1] at hn ⊢
  rw [h2]
  rcases h.dir with hd | hd
  · have := h.lim s.wr (by rw [hd]; rfl)
    rw [hd] at hn this ⊢
    simp only [other, issues, Option.some.injEq] at hn
    subst hn
    exact Nat.le_trans this (Nat.mul_le_mul_right _ h4)
  · have := h.lim s.rd (by rw [hd]; rfl)
    rw [hd] at hn this ⊢
    simp only [other, issues, Option.some.injEq] at hn
    subst hn
    exact Nat.le_trans this (Nat.mul_le_mul_right _ h3)

/-- The choice of a direction keeps the invariant, and follows the random number or the share. -/
theorem pickMix_M {c : Cfg} {s s1 : S} {v : Nat} {d : Dd} (hM : M c s)
    (h : pickMix c s v = some (s1, d)) :
    M c s1 ∧ s1.mixDir = d ∧ tot s1 = tot s ∧
    (d = randDdir c v ∨ ∀ n m, issues s d = some n → issues s (other d) = some m →
      100 * n < m * mix c d) := by
  unfold pickMix at h
  cases hi : issues s s.mixDir with
  | none => rw [hi] at h; cases h
  | some n =>
    rw [hi] at h
    simp only [Option.bind_some] at h
    split at h
    · split at h
      · rename_i hne
        simp only [Option.some.injEq, Prod.mk.injEq] at h
        obtain ⟨rfl, rfl⟩ := h
        refine ⟨⟨?_, ?_, hM.small⟩, rfl, rfl, .inl rfl⟩
        · show randDdir c v = .read ∨ randDdir c v = .write
          unfold randDdir; split
          · left; rfl
          · right; rfl
        · intro m hm
          have ho : other (randDdir c v) = s.mixDir ∧ other s.mixDir = randDdir c v := by
            rcases hM.dir with hd | hd <;> rw [hd] at hne ⊢ <;> revert hne <;>
              cases hr : randDdir c v <;> intro hne <;>
                first | exact ⟨rfl, rfl⟩ | (exact absurd rfl hne) | (exfalso; unfold randDdir at hr; split at hr <;> cases hr)
          have hm' : issues s (other (randDdir c v)) = some m := hm
          rw [ho.1, hi] at hm'
          obtain rfl := Option.some.inj hm'
          show 100 * (n * mix c (other s.mixDir) % 2 ^ 64 / 100) ≤ n * mix c (randDdir c v)
          rw [ho.2]
          have h1 := Nat.mul_div_le (n * mix c (randDdir c v) % 2 ^ 64) 100
          have h2 := Nat.mod_le (n * mix c (randDdir c v)) (2 ^ 64)
          omega
      · simp only [Option.some.injEq, Prod.mk.injEq] at h
        obtain ⟨rfl, rfl⟩ := h
        rename_i hne
        have he : randDdir c v = s.mixDir := Decidable.byContradiction hne
        exact ⟨hM, he.symm, rfl, .inl rfl⟩
    · rename_i hlt
      simp only [Option.some.injEq, Prod.mk.injEq] at h
      obtain ⟨rfl, rfl⟩ := h
      refine ⟨hM, rfl, rfl, .inr ?_⟩
      intro a m ha hm
      rw [hi] at ha
      obtain rfl := Option.some.inj ha
      have := hM.lim m hm
      omega

theorem step_M {c : Cfg} (hrw : c.tdR = true ∧ c.tdW = true) (hr : c.checkRate = false)
    {s s' : S} {i : In} {o : Option (Dd × Bool)}
    (hi : i.ver = false) (hq : ∀ p, s.req = some p → p.2 = false) (hM : M c s) (hb : tot s + 1 < 2 ^ 57)
    (h : step c s i = some (s', o)) :
    M c s' ∧ tot s' ≤ tot s + 1 ∧ ∀ p, s'.req = some p → p.2 = false := by
  have hreq : ∀ (s : S) (d : Dd) (r : Reply) p, (issue s d false r).1.req = some p → p.2 = false := by
    intro s d r p hp
    unfold issue at hp
    cases d <;> cases r <;> simp [Dd.rw] at hp <;> rw [← hp]
  unfold step at h
  split at h
  · rename_i d ver hs
    have := hq _ hs
    simp only at this
    subst this
    simp only [Option.some.injEq] at h
    have e1 : s' = (issue s d false i.reply).1 := by rw [h]
    have hc := issue_counts (s := s) (d := d) (r := i.reply) (by omega)
    have hm := issue_mix s d false i.reply
    rw [e1]
    exact ⟨M_mono hM hm.1 hm.2 hc.1 hc.2.1 (by omega), hc.2.2.2, hreq _ _ _⟩
  · rename_i hs
    rw [hi] at h
    simp only [Bool.false_eq_true, if_false] at h
    split at h
    · cases h
    rename_i s1 d hg
    have hM1 : M c s1 ∧ tot s1 = tot s ∧ s1.req = s.req := by
      unfold getRwDdir at hg
      split at hg
      · simp only [Option.some.injEq, Prod.mk.injEq] at hg
        obtain ⟨rfl, rfl⟩ := hg
        exact ⟨hM, rfl, rfl⟩
      · split at hg
        · cases hg
        rename_i s2 d2 hp
        have hps := pickData_spec hp
        simp only [hr, Bool.false_eq_true, if_false, Option.some.injEq, Prod.mk.injEq] at hg
        obtain ⟨rfl, rfl⟩ := hg
        unfold pickData at hp
        rw [if_pos (by simp [hrw.1, hrw.2])] at hp
        obtain ⟨k1, k2, k3, -⟩ := pickMix_M hM hp
        refine ⟨?_, k3, hps.2.2.2.2.1⟩
        exact M_mono k1 k2.symm rfl (Nat.le_refl _) (Nat.le_refl _) k1.small
    obtain ⟨hM1, ht1, hr1⟩ := hM1
    split at h
    · simp only [Option.some.injEq, Prod.mk.injEq] at h
      obtain ⟨rfl, rfl⟩ := h
      exact ⟨hM1, by omega, by rw [hr1, hs]; simp⟩
    · simp only [Option.some.injEq] at h
      have e1 : s' = (issue s1 (adjust d i.adj) false i.reply).1 := by rw [h]
      have hc := issue_counts (s := s1) (d := adjust d i.adj) (r := i.reply) (by omega)
      have hm := issue_mix s1 (adjust d i.adj) false i.reply
      rw [e1]
      exact ⟨M_mono hM1 hm.1 hm.2 hc.1 hc.2.1 (by omega), by omega, hreq _ _ _⟩

theorem run_M {c : Cfg} (hrw : c.tdR = true ∧ c.tdW = true) (hr : c.checkRate = false) :
    ∀ (ins : List In) (s s' : S) (out : List (Dd × Bool)),
    (∀ i ∈ ins, i.ver = false) → (∀ p, s.req = some p → p.2 = false) → M c s →
    tot s + ins.length < 2 ^ 57 → run c s ins = some (s', out) → M c s'
  | [], s, s', out, _, _, hM, _, h => by
    simp only [run, Option.some.injEq, Prod.mk.injEq] at h
    obtain ⟨rfl, rfl⟩ := h
    exact hM
  | i :: ins, s, s', out, hu, hq, hM, hb, h => by
    unfold run at h
    split at h
    · cases h
    rename_i s1 o h1
    split at h
    · cases h
    rename_i s2 out2 h2
    simp only [Option.some.injEq, Prod.mk.injEq] at h
    obtain ⟨rfl, rfl⟩ := h
    simp only [List.length_cons] at hb
    obtain ⟨a1, a2, a3⟩ := step_M hrw hr (hu i List.mem_cons_self) hq hM (by omega) h1
    exact run_M hrw hr ins _ _ _ (fun j hj => hu j (List.mem_cons_of_mem _ hj)) a3 a1 (by omega) h2

/-- C77: in a mixed job without a rate, the direction chosen for an I/O is that of the random number, or
the direction that is behind: it has fewer I/Os than its percentage of those in the other direction. -/
theorem C77_mix {c : Cfg} (hrw : c.tdR = true ∧ c.tdW = true) (hr : c.checkRate = false)
    {ins : List In} {s s1 : S} {out : List (Dd × Bool)}
    (hu : ∀ i ∈ ins, i.ver = false) (hn : ins.length < 2 ^ 57) (h : run c init ins = some (s, out))
    {v : Nat} {rate : Dd → Dd} {d : Dd} (hg : getRwDdir c s v rate = some (s1, d)) :
    d.isSync = true ∨ (d = if v ≤ c.mixR then .read else .write) ∨
    (d = .read ∧ 100 * s.rd < s.wr * c.mixR) ∨ (d = .write ∧ 100 * s.wr < s.rd * c.mixW) := by
  have hM := run_M hrw hr ins init s out hu (by simp [init])
    ⟨.inl rfl, by simp [init], by decide⟩ (by simpa [tot, init] using hn) h
  unfold getRwDdir at hg
  split at hg
  · rename_i k hs
    simp only [Option.some.injEq, Prod.mk.injEq] at hg
    obtain ⟨rfl, rfl⟩ := hg
    left
    unfold syncDue at hs
    repeat' split at hs
    all_goals first | cases hs; rfl | cases hs
  · split at hg
    · cases hg
    rename_i s2 d2 hp
    simp only [hr, Bool.false_eq_true, if_false, Option.some.injEq, Prod.mk.injEq] at hg
    obtain ⟨rfl, rfl⟩ := hg
    unfold pickData at hp
    rw [if_pos (by simp [hrw.1, hrw.2])] at hp
    obtain ⟨k1, k2, -, k4⟩ := pickMix_M hM hp
    rcases k4 with k4 | k4
    · exact .inr (.inl k4)
    · have hd := k1.dir
      rw [k2] at hd
      rcases hd with rfl | rfl
      · exact .inr (.inr (.inl ⟨rfl, k4 _ _ rfl rfl⟩))
      · exact .inr (.inr (.inr ⟨rfl, k4 _ _ rfl rfl⟩))

/-- C77: with rwmixread=100 there are no writes, with rwmixread=0 no reads. -/
theorem C77_only {c : Cfg} (hrw : c.tdR = true ∧ c.tdW = true) (hr : c.checkRate = false)
    {ins : List In} {s s1 : S} {out : List (Dd × Bool)}
    (hu : ∀ i ∈ ins, i.ver = false) (hn : ins.length < 2 ^ 57) (h : run c init ins = some (s, out))
    {v : Nat} (hv : 1 ≤ v ∧ v ≤ 100) {rate : Dd → Dd} {d : Dd} (hg : getRwDdir c s v rate = some (s1, d)) :
    (c.mixR = 100 → c.mixW = 0 → d ≠ .write) ∧ (c.mixR = 0 → c.mixW = 100 → d ≠ .read) := by
  have := C77_mix hrw hr hu hn h hg
  constructor
  · rintro h1 h2 rfl
    rw [h1, h2, if_pos hv.2] at this
    rcases this with h | h | ⟨h, _⟩ | ⟨_, h⟩
    · cases h
    · cases h
    · cases h
    · omega
  · rintro h1 h2 rfl
    rw [h1, h2, if_neg (by omega)] at this
    rcases this with h | h | ⟨_, h⟩ | ⟨h, _⟩
    · cases h
    · cases h
    · omega
    · cases h

/-- C77: of the numbers 1 to 100, as many mean a read as rwmixread says. -/
theorem C77_draws {c : Cfg} (h : c.mixR ≤ 100) :
    ((List.range' 1 100).countP fun v => randDdir c v = .read) = c.mixR := by
  have : ∀ m ≤ 100, ((List.range' 1 100).countP fun v => decide (v ≤ m)) = m := by decide +kernel
  rw [← this c.mixR h]
  apply List.countP_congr
  intro v _
  unfold randDdir
  split <;> simp_all

/-- What a job of one direction may do. -/
def Allowed (c : Cfg) (d : Dd) : Prop :=
  d = .sync ∨ d = .datasync ∨ d = .sfr ∨ (d = .read ∧ c.tdR = true) ∨ (d = .write ∧ c.tdW = true) ∨
    (d = .trim ∧ c.tdT = true)

theorem pickData_allowed {c : Cfg} {s s1 : S} {v : Nat} {d : Dd} (hone : ¬ (c.tdR = true ∧ c.tdW = true))
    (h : pickData c s v = some (s1, d)) : d = .inval ∨ Allowed c d := by
  unfold pickData at h
  unfold Allowed
  grind

theorem issue_allowed {c : Cfg} {s : S} {d : Dd} {ver : Bool} {r : Reply} (hd : ver = false → Allowed c d) :
    (∀ x, (issue s d ver r).1.req = some (x, false) → Allowed c x) ∧
    (∀ x, (issue s d ver r).2 = some (x, false) → Allowed c x) := by
  unfold issue
  cases r <;> dsimp only <;> (try split) <;> simp <;> grind

theorem step_allowed {c : Cfg} {s s1 : S} {i : In} {o : Option (Dd × Bool)}
    (hone : ¬ (c.tdR = true ∧ c.tdW = true)) (hr : c.checkRate = false) (ha : i.adj = none)
    (hq : ∀ x, s.req = some (x, false) → Allowed c x) (h : step c s i = some (s1, o)) :
    (∀ x, s1.req = some (x, false) → Allowed c x) ∧ (∀ x, o = some (x, false) → Allowed c x) := by
  unfold step at h
  split at h
  · rename_i d ver he
    have := issue_allowed (s := s) (r := i.reply) (c := c) (d := d) (ver := ver) (fun hv => hq d (by rw [he, hv]))
    rw [Option.some.inj h] at this; exact this
  · rename_i hnone
    split at h
    · have := issue_allowed (s := s) (r := i.reply) (c := c) (d := .read) (ver := true) (fun hv => by cases hv)
      rw [Option.some.inj h] at this; exact this
    · split at h
      · cases h
      · rename_i s2 d hg
        have hd : (d = .inval ∨ Allowed c d) ∧ s2.req = none := by
          unfold getRwDdir at hg
          rw [hr] at hg
          split at hg
          · rename_i d' hs
            cases hg
            refine ⟨.inr ?_, hnone⟩
            unfold syncDue at hs
            unfold Allowed
            grind
          · split at hg
            · cases hg
            · rename_i s3 d3 hp
              have h1 := pickData_allowed hone hp
              have h2 : s3.req = none := by
                unfold pickData pickMix issues setMix at hp
                grind
              simp at hg
              obtain ⟨hg1, rfl⟩ := hg
              subst hg1
              exact ⟨h1, h2⟩
        have hadj : adjust d i.adj = d := by unfold adjust; rw [ha]; simp
        rw [hadj] at h
        split at h
        · cases h
          refine ⟨?_, fun x hx => by cases hx⟩
          intro x hx; rw [hd.2] at hx; cases hx
        · rename_i hno
          have := issue_allowed (s := s2) (r := i.reply) (c := c) (d := d) (ver := false)
            (fun _ => hd.1.resolve_left (fun e => hno (.inl e)))
          rw [Option.some.inj h] at this; exact this

/-- C77: a job of one direction does nothing but that and syncs. -/
theorem C77_one_direction {c : Cfg} (hone : ¬ (c.tdR = true ∧ c.tdW = true)) (hr : c.checkRate = false) :
    ∀ {ins : List In} {s s1 : S} {out : List (Dd × Bool)}, (∀ i ∈ ins, i.adj = none) →
      (∀ x, s.req = some (x, false) → Allowed c x) →
      run c s ins = some (s1, out) → ∀ d, (d, false) ∈ out → Allowed c d := by
  intro ins
  induction ins with
  | nil => intro s s1 out _ _ h d hd; cases h; cases hd
  | cons i l ih =>
    intro s s1 out hi hq h d hd
    rw [run] at h
    split at h
    · cases h
    · rename_i s2 o hs
      split at h
      · cases h
      · rename_i s3 out3 hrun
        cases h
        have := step_allowed hone hr (hi i (by simp)) hq hs
        rcases List.mem_append.1 hd with hd | hd
        · exact this.2 d (by simpa using hd)
        · exact ih (fun j hj => hi j (by simp [hj])) this.1 hrun d hd

example : ∃ s out, run ⟨true, false, false, false, 0, 0, 0, 50, 50, false⟩ init
    [⟨1, id, none, false, .done⟩, ⟨99, id, none, false, .busy⟩, ⟨5, id, none, false, .done⟩] = some (s, out) ∧
    out = [(.read, false), (.read, false)] := ⟨_, _, rfl, rfl⟩

end Fio.Ddir
