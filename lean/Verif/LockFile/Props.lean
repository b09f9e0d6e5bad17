import Verif.LockFile.Spec
/-!
# C102: lockfile= keeps jobs from doing I/O to a shared file at the same time

Full property: for jobs with `lockfile=exclusive` on a file name, in every execution only one of them does I/O to it at a time, with
`lockfile=readwrite` a writer excludes all others, and nobody waits forever.  False of the code in several ways, see the counterexamples.
-/

namespace Fio.LockFile

@[simp] theorem upd_same {α : Type} (f : Nat → α) (i : Nat) (v : α) : upd f i v i = v := by simp [upd]
theorem upd_other {α : Type} (f : Nat → α) (i j : Nat) (v : α) (h : j ≠ i) : upd f i v j = f j := by simp [upd, h]

/-- Behind a `td_io_prep` that took the lock. -/
def io : Pc → Bool
  | .inIo _ _ => true
  | _ => false

/-- With a write. -/
def wr : Pc → Bool
  | .inIo w _ => w
  | _ => false

/-- Where jobs are with the steps that are fine. -/
def okPc : Pc → Bool
  | .prepped _ | .again _ => false
  | _ => true

/-! ## exclusive -/

/-- Semaphore and jobs agree. -/
structure InvX (l : Nat) (s : St) : Prop where
  lock : ∀ t, s.lock t = some l
  pcs : ∀ t, okPc (s.pc t) = true
  slot : ∀ t, s.slot t = io (s.pc t)
  sem : (s.obj l = .sem 1 ∧ ∀ t, s.slot t = false) ∨ (s.obj l = .sem 0 ∧ ∃ t, s.slot t = true ∧ ∀ u, s.slot u = true → u = t)

theorem invX_step (m : Nat → Mode) (hm : ∀ t, m t = .excl) (l : Nat) (s s' : St) (a : Act) (hi : InvX l s) (hf : Fine s a)
    (h : step m s a = .ok s') : InvX l s' := by
  obtain ⟨h1, h2, h3, h4⟩ := hi
  cases a with
  | lookup t =>
    simp only [step] at h
    split at h
    · rename_i hc
      split at h <;> simp only [Res.ok.injEq] at h <;> subst h <;> constructor <;> grind [upd, io, okPc]
    · exact absurd h (by simp)
  | add t =>
    simp only [step] at h
    split at h
    · simp only [Res.ok.injEq] at h; subst h; constructor <;> grind [upd, io, okPc]
    · split at h <;> simp only [Res.ok.injEq] at h <;> subst h <;> constructor <;> grind [upd, io, okPc]
    · exact absurd h (by simp)
  | close t =>
    simp only [step] at h
    split at h
    · rename_i hc
      have : s.slot t = false := by rw [h3, hc.1]; rfl
      simp only [this, Bool.false_eq_true, if_false, Res.andThen, Res.ok.injEq] at h
      subst h
      exact ⟨h1, h2, h3, h4⟩
    · exact absurd h (by simp)
  | prep t w c =>
    simp only [step] at h
    split at h
    · rename_i hc
      simp only [lockFile, h1 t, hm t] at h
      rcases h4 with ⟨h4, h5⟩ | ⟨h4, h5⟩
      · simp only [h4, Nat.one_ne_zero, if_false, Res.andThen, Res.ok.injEq] at h
        simp only [Fine] at hf
        subst h
        simp only [hf, if_false]
        exact ⟨h1, by grind [upd, okPc], by grind [upd, io], Or.inr ⟨by simp [upd], t, by simp [upd], by grind [upd]⟩⟩
      · simp only [h4, if_true, Res.andThen] at h
        exact absurd h (by simp)
    · exact absurd h (by simp)
  | prepFail t =>
    simp only [step] at h
    split at h
    · rename_i w c hp
      simp only [unlockFile, h1 t, hm t] at h
      rcases h4 with ⟨h4, h5⟩ | ⟨h4, h5⟩
      · exact absurd (h5 t) (by rw [h3, hp]; simp [io])
      · simp only [h4, Res.andThen, Res.ok.injEq] at h
        subst h
        constructor <;> grind [upd, io, okPc]
    · exact absurd h (by simp)
  | prep2 t =>
    simp only [step] at h
    split at h
    · grind [okPc]
    · exact absurd h (by simp)
  | queue t q =>
    simp only [step] at h
    split at h
    · rename_i w c hp
      simp only [unlockFile, h1 t, hm t] at h
      have hq : ¬ (q = .busy ∧ c = .sync) := by
        simp only [Fine] at hf
        rintro ⟨a, b⟩
        subst b
        exact hf w hp a
      rcases h4 with ⟨h4, h5⟩ | ⟨h4, h5⟩
      · exact absurd (h5 t) (by rw [h3, hp]; simp [io])
      · simp only [h4, Res.andThen, Res.ok.injEq, if_neg hq] at h
        subst h
        constructor <;> grind [upd, io, okPc]
    · grind [okPc]
    · exact absurd h (by simp)
  | drop t => exact absurd hf (by simp [Fine])
  | complete t =>
    simp only [step] at h
    split at h
    · exact absurd h (by simp)
    · simp only [Res.ok.injEq] at h
      subst h
      exact ⟨h1, h2, h3, h4⟩

theorem invX_reach (m : Nat → Mode) (hm : ∀ t, m t = .excl) (l : Nat) (s0 s : St) (h0 : Clones l (.sem 1) s0) (h : Reach m s0 s) : InvX l s := by
  induction h with
  | start => exact ⟨h0.lock, fun t => by rw [h0.idle t]; rfl, fun t => by rw [h0.slot t, h0.idle t]; rfl, Or.inl ⟨h0.obj, h0.slot⟩⟩
  | step _ hf hs ih => exact invX_step m hm l _ _ _ ih hf hs

theorem inIo_io (s : St) (t : Nat) (hp : okPc (s.pc t) = true) : InIo s t ↔ io (s.pc t) = true := by
  unfold InIo
  cases h : s.pc t <;> simp_all [okPc, io]

theorem writes_wr (s : St) (t : Nat) (hp : okPc (s.pc t) = true) : Writes s t ↔ wr (s.pc t) = true := by
  unfold Writes
  cases h : s.pc t <;> simp_all [okPc, wr]

/-- Copies of one job with `lockfile=exclusive`: only one of them is in the engine with an I/O to the file. -/
theorem C102_exclusive_partial (m : Nat → Mode) (hm : ∀ t, m t = .excl) (l : Nat) (s0 s : St) (h0 : Clones l (.sem 1) s0) (h : Reach m s0 s) :
    Exclusive s := by
  have hi := invX_reach m hm l s0 s h0 h
  have hk : ∀ t, InIo s t → s.slot t = true := fun t ht => by rw [hi.slot, (inIo_io s t (hi.pcs t)).1 ht]
  intro t u ht hu
  rcases hi.sem with ⟨-, h5⟩ | ⟨-, v, -, h5⟩
  · exact absurd (hk t ht) (by simp [h5])
  · rw [h5 t (hk t ht), h5 u (hk u hu)]

/-- And nobody waits forever: who is in the engine comes out, and when nobody is in it everybody who has the file open gets in. -/
theorem C102_exclusive_live (m : Nat → Mode) (hm : ∀ t, m t = .excl) (l : Nat) (s0 s : St) (h0 : Clones l (.sem 1) s0) (h : Reach m s0 s) :
    (∀ t q, InIo s t → Fine s (.queue t q) → ∃ s', step m s (.queue t q) = .ok s' ∧ ¬ InIo s' t) ∧
    ((∀ t, ¬ InIo s t) → ∀ t w c, s.pc t = .idle → s.isOpen t = true → c ≠ .expVerify → ∃ s', step m s (.prep t w c) = .ok s' ∧ InIo s' t) := by
  have hi := invX_reach m hm l s0 s h0 h
  constructor
  · intro t q ht hf
    have hp := (inIo_io s t (hi.pcs t)).1 ht
    have hsl : s.slot t = true := by rw [hi.slot, hp]
    obtain ⟨v, hv⟩ : ∃ v, s.obj l = .sem v := by rcases hi.sem with ⟨h, -⟩ | ⟨h, -⟩ <;> exact ⟨_, h⟩
    cases hpc : s.pc t with
    | inIo w c =>
      have hq : ¬ (q = .busy ∧ c = .sync) := by
        simp only [Fine] at hf
        rintro ⟨a, b⟩
        subst b
        exact hf w hpc a
      refine ⟨_, by simp only [step, hpc, unlockFile, hi.lock t, hm t, hv, Res.andThen, if_neg hq]; rfl, ?_⟩
      simp [InIo, upd]
    | idle => simp [hpc, io] at hp
    | opening b => simp [hpc, io] at hp
    | prepped w => simp [hpc, io] at hp
    | again w => simp [hpc, io] at hp
  · intro hn t w c hpc ho hc
    have hv : s.obj l = .sem 1 := by
      rcases hi.sem with ⟨h, -⟩ | ⟨-, u, hu, -⟩
      · exact h
      · rw [hi.slot u] at hu
        exact absurd ((inIo_io s u (hi.pcs u)).2 hu) (hn u)
    refine ⟨_, by simp only [step, hpc, ho, and_self, if_true, lockFile, hi.lock t, hm t, hv, Nat.one_ne_zero, if_false, Res.andThen, if_neg hc]; rfl, ?_⟩
    simp [InIo, upd]

/-! ## readwrite -/

/-- Lock and jobs agree: the writer, or the list of the readers. -/
structure InvR (l : Nat) (s : St) : Prop where
  lock : ∀ t, s.lock t = some l
  pcs : ∀ t, okPc (s.pc t) = true
  slot : ∀ t, s.slot t = io (s.pc t)
  rw : (s.obj l = .rw 0 true ∧ ∃ t, s.slot t = true ∧ wr (s.pc t) = true ∧ ∀ u, s.slot u = true → u = t) ∨
    ∃ rs : List Nat, rs.Nodup ∧ s.obj l = .rw rs.length false ∧ ∀ t, (s.slot t = true ↔ t ∈ rs) ∧ wr (s.pc t) = false

theorem unlock_rw (l : Nat) (s s' : St) (t : Nat) (hi : InvR l s) (hs : s.slot t = true) (h : unlockFile .rw s t = .ok s') (p : Pc)
    (hp : okPc p = true) (hio : io p = false) (f : Nat → Nat) : InvR l { s' with pc := upd s'.pc t p, flight := f } := by
  obtain ⟨h1, h2, h3, h4⟩ := hi
  have hwr : wr p = false := by cases p <;> simp_all [io, wr]
  simp only [unlockFile, h1 t] at h
  rcases h4 with ⟨h4, v, hv, -, hu⟩ | ⟨rs, hn, h4, h5⟩
  · simp only [h4, if_true, Res.ok.injEq] at h
    subst h
    refine ⟨h1, by grind [upd], by grind [upd], Or.inr ⟨[], by simp, by simp, ?_⟩⟩
    intro u
    have : wr (s.pc u) = true → s.slot u = true := by
      rw [h3]; cases s.pc u <;> simp [wr, io]
    grind [upd]
  · have ht : t ∈ rs := (h5 t).1.1 hs
    have hl : rs.length ≠ 0 := by intro h0; rw [List.length_eq_zero_iff] at h0; subst h0; cases ht
    simp only [h4, Bool.false_eq_true, if_false, if_neg hl, Res.ok.injEq] at h
    subst h
    refine ⟨h1, by grind [upd], by grind [upd], Or.inr ⟨rs.erase t, hn.erase t, by simp [List.length_erase_of_mem ht], ?_⟩⟩
    intro u
    have := hn.mem_erase_iff (a := u) (b := t)
    grind [upd]

theorem invR_step (m : Nat → Mode) (hm : ∀ t, m t = .rw) (l : Nat) (s s' : St) (a : Act) (hi : InvR l s) (hf : Fine s a)
    (h : step m s a = .ok s') : InvR l s' := by
  have hi' := hi
  obtain ⟨h1, h2, h3, h4⟩ := hi
  have hpc : ∀ (s1 : St) (t : Nat) (p : Pc), s1.lock = (fun _ => some l) → s1.obj = s.obj → s1.slot = s.slot → s1.pc = upd s.pc t p →
      okPc p = true → io p = false → io (s.pc t) = false → InvR l s1 := by
    intro s1 t p e1 e2 e3 e4 hp hio hold
    have hwr : wr p = false := by cases p <;> simp_all [io, wr]
    refine ⟨by rw [e1]; simp, by rw [e4]; grind [upd], by rw [e3, e4]; grind [upd], ?_⟩
    rw [e2, e3, e4]
    rcases h4 with h4 | ⟨rs, hn, h4, h5⟩
    · obtain ⟨h4, v, h5, h6, h7⟩ := h4
      refine Or.inl ⟨h4, v, h5, ?_, h7⟩
      have : v ≠ t := by
        rintro rfl
        rw [h3] at h5
        rw [h5] at hold
        exact absurd hold (by decide)
      grind [upd]
    · exact Or.inr ⟨rs, hn, h4, fun u => ⟨(h5 u).1, by grind [upd]⟩⟩
  have hlk : s.lock = fun _ => some l := funext h1
  cases a with
  | lookup t =>
    simp only [step] at h
    split at h
    · rename_i hc
      split at h
      · simp only [Res.ok.injEq] at h
        subst h
        exact hpc _ t (.opening true) (by funext u; grind [upd]) rfl rfl rfl rfl rfl (by rw [hc.1]; rfl)
      · simp only [Res.ok.injEq] at h
        subst h
        exact hpc _ t (.opening false) hlk rfl rfl rfl rfl rfl (by rw [hc.1]; rfl)
    · exact absurd h (by simp)
  | add t =>
    simp only [step] at h
    split at h
    · rename_i hp
      simp only [Res.ok.injEq] at h; subst h
      exact hpc _ t .idle hlk rfl rfl rfl rfl rfl (by rw [hp]; rfl)
    · rename_i hp
      split at h <;> simp only [Res.ok.injEq] at h <;> subst h <;>
        exact hpc _ t .idle hlk rfl rfl rfl rfl rfl (by rw [hp]; rfl)
    · exact absurd h (by simp)
  | close t =>
    simp only [step] at h
    split at h
    · rename_i hc
      have : s.slot t = false := by rw [h3, hc.1]; rfl
      simp only [this, Bool.false_eq_true, if_false, Res.andThen, Res.ok.injEq] at h
      subst h
      exact ⟨h1, h2, h3, h4⟩
    · exact absurd h (by simp)
  | prep t w c =>
    simp only [step] at h
    split at h
    · rename_i hc
      simp only [Fine] at hf
      have hsl : s.slot t = false := by rw [h3, hc.1]; rfl
      simp only [lockFile, h1 t, hm t] at h
      rcases h4 with ⟨h4, h5⟩ | ⟨rs, hn, h4, h5⟩
      · simp only [h4] at h
        cases w <;> simp [Res.andThen] at h
      · simp only [h4] at h
        cases w with
        | true =>
          by_cases hr : rs.length = 0
          · simp only [hr, and_self, if_true, Res.andThen, Res.ok.injEq, if_neg hf] at h
            subst h
            rw [List.length_eq_zero_iff] at hr
            subst hr
            refine ⟨h1, by grind [upd, okPc], by grind [upd, io], Or.inl ⟨by simp [upd], t, by simp [upd], by simp [upd, wr], ?_⟩⟩
            intro u hu
            grind [upd]
          · simp only [hr, false_and, if_true, if_false, Res.andThen] at h
            exact absurd h (by simp)
        | false =>
          simp only [Bool.false_eq_true, if_false, if_true, Res.andThen, Res.ok.injEq, if_neg hf] at h
          subst h
          have hnt : t ∉ rs := fun hh => by have := (h5 t).1.2 hh; rw [hsl] at this; exact absurd this (by decide)
          refine ⟨h1, by grind [upd, okPc], by grind [upd, io], Or.inr ⟨t :: rs, by simp [hnt, hn], by simp, ?_⟩⟩
          intro u
          grind [upd, wr]
    · exact absurd h (by simp)
  | prepFail t =>
    simp only [step] at h
    split at h
    · rename_i w c hp
      rw [hm t] at h
      cases hu : unlockFile .rw s t with
      | ok s1 =>
        rw [hu] at h
        simp only [Res.andThen, Res.ok.injEq] at h
        subst h
        exact unlock_rw l s s1 t hi' (by rw [h3, hp]; rfl) hu .idle rfl rfl s1.flight
      | blocked => rw [hu] at h; exact absurd h (by simp [Res.andThen])
      | bad => rw [hu] at h; exact absurd h (by simp [Res.andThen])
    · exact absurd h (by simp)
  | prep2 t =>
    simp only [step] at h
    split at h
    · grind [okPc]
    · exact absurd h (by simp)
  | queue t q =>
    simp only [step] at h
    split at h
    · rename_i w c hp
      have hq : ¬ (q = .busy ∧ c = .sync) := by
        simp only [Fine] at hf
        rintro ⟨a, b⟩
        subst b
        exact hf w hp a
      rw [hm t] at h
      cases hu : unlockFile .rw s t with
      | ok s1 =>
        rw [hu] at h
        simp only [Res.andThen, Res.ok.injEq, if_neg hq] at h
        subst h
        exact unlock_rw l s s1 t hi' (by rw [h3, hp]; rfl) hu .idle rfl rfl _
      | blocked => rw [hu] at h; exact absurd h (by simp [Res.andThen])
      | bad => rw [hu] at h; exact absurd h (by simp [Res.andThen])
    · grind [okPc]
    · exact absurd h (by simp)
  | drop t => exact absurd hf (by simp [Fine])
  | complete t =>
    simp only [step] at h
    split at h
    · exact absurd h (by simp)
    · simp only [Res.ok.injEq] at h
      subst h
      exact ⟨h1, h2, h3, h4⟩

theorem invR_reach (m : Nat → Mode) (hm : ∀ t, m t = .rw) (l : Nat) (s0 s : St) (h0 : Clones l (.rw 0 false) s0) (h : Reach m s0 s) : InvR l s := by
  induction h with
  | start =>
    exact ⟨h0.lock, fun t => by rw [h0.idle t]; rfl, fun t => by rw [h0.slot t, h0.idle t]; rfl,
      Or.inr ⟨[], by simp, by simpa using h0.obj, fun t => ⟨by simp [h0.slot t], by rw [h0.idle t]; rfl⟩⟩⟩
  | step _ hf hs ih => exact invR_step m hm l _ _ _ ih hf hs

/-- Copies of one job with `lockfile=readwrite`: one that writes is alone in the engine. -/
theorem C102_readwrite_partial (m : Nat → Mode) (hm : ∀ t, m t = .rw) (l : Nat) (s0 s : St) (h0 : Clones l (.rw 0 false) s0) (h : Reach m s0 s) :
    WriterAlone s := by
  have hi := invR_reach m hm l s0 s h0 h
  intro t u ht hu
  have ht' := (writes_wr s t (hi.pcs t)).1 ht
  have hu' : s.slot u = true := by rw [hi.slot, (inIo_io s u (hi.pcs u)).1 hu]
  have hts : s.slot t = true := by
    rw [hi.slot]; revert ht'; cases s.pc t <;> simp [wr, io]
  rcases hi.rw with ⟨-, v, -, -, h5⟩ | ⟨rs, -, -, h5⟩
  · rw [h5 t hts, h5 u hu']
  · rw [(h5 t).2] at ht'; exact absurd ht' (by decide)

/-- And nobody waits forever; readers do not wait for readers. -/
theorem C102_readwrite_live (m : Nat → Mode) (hm : ∀ t, m t = .rw) (l : Nat) (s0 s : St) (h0 : Clones l (.rw 0 false) s0) (h : Reach m s0 s) :
    (∀ t q, InIo s t → Fine s (.queue t q) → ∃ s', step m s (.queue t q) = .ok s' ∧ ¬ InIo s' t) ∧
    ((∀ t, ¬ InIo s t) → ∀ t w c, s.pc t = .idle → s.isOpen t = true → c ≠ .expVerify → ∃ s', step m s (.prep t w c) = .ok s' ∧ InIo s' t) ∧
    ((∀ t, ¬ Writes s t) → ∀ t c, s.pc t = .idle → s.isOpen t = true → c ≠ .expVerify → ∃ s', step m s (.prep t false c) = .ok s' ∧ InIo s' t) := by
  have hi := invR_reach m hm l s0 s h0 h
  refine ⟨?_, ?_, ?_⟩
  · intro t q ht hf
    have hp := (inIo_io s t (hi.pcs t)).1 ht
    have hsl : s.slot t = true := by rw [hi.slot, hp]
    have hex : ∃ s1, unlockFile .rw s t = .ok s1 := by
      rcases hi.rw with ⟨h4, -⟩ | ⟨rs, -, h4, h5⟩
      · exact ⟨_, by simp only [unlockFile, hi.lock t, h4, if_true]; rfl⟩
      · have hl : rs.length ≠ 0 := by
          intro h0
          rw [List.length_eq_zero_iff] at h0
          have := (h5 t).1.1 hsl
          rw [h0] at this
          cases this
        exact ⟨_, by simp only [unlockFile, hi.lock t, h4, Bool.false_eq_true, if_false, if_neg hl]; rfl⟩
    obtain ⟨s1, h1⟩ := hex
    cases hpc : s.pc t with
    | inIo w c =>
      have hq : ¬ (q = .busy ∧ c = .sync) := by
        simp only [Fine] at hf
        rintro ⟨a, b⟩
        subst b
        exact hf w hpc a
      refine ⟨_, by simp only [step, hpc, hm t, h1, Res.andThen, if_neg hq]; rfl, ?_⟩
      simp [InIo, upd]
    | idle => simp [hpc, io] at hp
    | opening b => simp [hpc, io] at hp
    | prepped w => simp [hpc, io] at hp
    | again w => simp [hpc, io] at hp
  · intro hn t w c hpc ho hc
    have hv : s.obj l = .rw 0 false := by
      rcases hi.rw with ⟨-, u, hu, -⟩ | ⟨rs, -, h4, h5⟩
      · rw [hi.slot u] at hu
        exact absurd ((inIo_io s u (hi.pcs u)).2 hu) (hn u)
      · cases rs with
        | nil => simpa using h4
        | cons u rs =>
          have := (h5 u).1.2 (by simp)
          rw [hi.slot u] at this
          exact absurd ((inIo_io s u (hi.pcs u)).2 this) (hn u)
    cases w with
    | true =>
      refine ⟨_, by simp only [step, hpc, ho, and_self, if_true, lockFile, hi.lock t, hm t, hv, Res.andThen, if_neg hc]; rfl, ?_⟩
      simp [InIo, upd]
    | false =>
      refine ⟨_, by simp only [step, hpc, ho, and_self, if_true, lockFile, hi.lock t, hm t, hv, Bool.false_eq_true, if_false, Res.andThen, if_neg hc]; rfl, ?_⟩
      simp [InIo, upd]
  · intro hn t c hpc ho hc
    rcases hi.rw with ⟨-, u, -, hu, -⟩ | ⟨rs, -, h4, h5⟩
    · exact absurd ((writes_wr s u (hi.pcs u)).2 hu) (hn u)
    · refine ⟨_, by simp only [step, hpc, ho, and_self, if_true, lockFile, hi.lock t, hm t, h4, Bool.false_eq_true, if_false, Res.andThen, if_neg hc]; rfl, ?_⟩
      simp [InIo, upd]

/-! ## The hypotheses are met -/

/-- Jobs `t` with lock 0 (copies) or with lock `t`. -/
def init (o : Obj) (same : Bool) : St :=
  { lock := fun t => some (if same then 0 else t), obj := fun _ => o, hash := none, isOpen := fun _ => false, slot := fun _ => false,
    pc := fun _ => .idle, flight := fun _ => 0 }

theorem clones_init (o : Obj) : Clones 0 o (init o true) := ⟨fun _ => rfl, rfl, rfl, fun _ => rfl, fun _ => rfl, fun _ => rfl⟩

/-- The steps of a run are fine. -/
def fineB (s : St) : Act → Bool
  | .prep _ _ c => c ≠ .expVerify
  | .queue t q => match s.pc t with
    | .inIo _ .sync => q ≠ .busy
    | _ => true
  | .drop _ => false
  | _ => true

theorem fineB_iff (s : St) (a : Act) (h : fineB s a = true) : Fine s a := by
  cases a with
  | queue t q =>
    intro w hw
    simpa [fineB, hw] using h
  | drop t => simp [fineB] at h
  | prep t w c => simpa [fineB, Fine] using h
  | _ => trivial

def runFine (m : Nat → Mode) (s : St) : List Act → Option St
  | [] => some s
  | a :: as => if fineB s a then match step m s a with
      | .ok s' => runFine m s' as
      | _ => none
    else none

theorem runFine_reach (m : Nat → Mode) (s0 s s' : St) (as : List Act) (h0 : Reach m s0 s) (h : runFine m s as = some s') : Reach m s0 s' := by
  induction as generalizing s with
  | nil => cases h; exact h0
  | cons a as ih =>
    simp only [runFine] at h
    split at h
    · rename_i hf
      split at h
      · rename_i s1 h1
        exact ih s1 (.step h0 (fineB_iff s a hf) h1) h
      · cases h
    · cases h

/-- Three copies open the file; the first is done with an I/O, the second is in the engine. -/
def exActs (w : Bool) : List Act :=
  [.lookup 0, .lookup 1, .add 0, .add 1, .lookup 1, .add 1, .lookup 2, .add 2, .prep 0 true .io, .queue 0 .completed, .prep 1 w .sync]

/-- The second is in the engine, and the third has to wait. -/
example : ∃ s, Reach (fun _ => .excl) (init (.sem 1) true) s ∧ InIo s 1 ∧ step (fun _ => .excl) s (.prep 2 false .io) = .blocked := by
  cases h : runFine (fun _ => .excl) (init (.sem 1) true) (exActs true) with
  | none => exact absurd h (by simp [exActs, runFine, fineB, step, init, upd, lockFile, unlockFile, Res.andThen])
  | some s =>
    refine ⟨s, runFine_reach _ _ _ _ _ .start h, ?_⟩
    simp [exActs, runFine, fineB, step, init, upd, lockFile, unlockFile, Res.andThen] at h
    subst h
    simp [InIo, step, lockFile, upd, Res.andThen]

/-- Two readers are in the engine, and a writer has to wait. -/
example : ∃ s, Reach (fun _ => .rw) (init (.rw 0 false) true) s ∧ InIo s 1 ∧ InIo s 2 ∧ step (fun _ => .rw) s (.prep 0 true .io) = .blocked := by
  cases h : runFine (fun _ => .rw) (init (.rw 0 false) true) (exActs false ++ [.prep 2 false .io]) with
  | none => exact absurd h (by simp [exActs, runFine, fineB, step, init, upd, lockFile, unlockFile, Res.andThen])
  | some s =>
    refine ⟨s, runFine_reach _ _ _ _ _ .start h, ?_⟩
    simp [exActs, runFine, fineB, step, init, upd, lockFile, unlockFile, Res.andThen] at h
    subst h
    simp [InIo, step, lockFile, upd, Res.andThen]

/-! ## Where the locking fails -/

/-- The end of a run. -/
def after (m : Nat → Mode) (s : St) (as : List Act) (P : St → Prop) : Prop := ∃ s', run m s as = .ok s' ∧ P s'

/-- Jobs that are not copies: each has a lock of its own, takes the lock of the file that is in the hash when it opens it, and keeps its own
if there is none.  The first closes its file; the third, opening it then, is in the engine together with the second. -/
theorem C102_jobs_counterexample :
    after (fun _ => .excl) (init (.sem 1) false)
      [.lookup 0, .add 0, .lookup 1, .add 1, .close 0, .lookup 2, .add 2, .prep 1 true .io, .prep 2 true .io] (fun s => ¬ Exclusive s) := by
  refine ⟨_, by simp [run, step, init, upd, lockFile, Res.andThen]; rfl, ?_⟩
  intro h
  exact absurd (h 1 2 (by simp [InIo, upd]) (by simp [InIo, upd])) (by decide)

/-- The first job has no `lockfile`: the copies of an exclusive job take its missing lock, and do not exclude each other any more. -/
theorem C102_none_counterexample :
    after (fun t => if t = 0 then .none else .excl) { init (.sem 1) true with lock := fun t => if t = 0 then none else some 0 }
      [.lookup 0, .add 0, .lookup 1, .add 1, .lookup 2, .add 2, .prep 1 true .io, .prep 2 true .io] (fun s => ¬ Exclusive s) := by
  refine ⟨_, by simp [run, step, init, upd, lockFile, Res.andThen]; rfl, ?_⟩
  intro h
  exact absurd (h 1 2 (by simp [InIo, upd]) (by simp [InIo, upd])) (by decide)

/-- Jobs with different modes: the exclusive one takes the rwlock of the other for its semaphore. -/
theorem C102_mode_counterexample :
    run (fun t => if t = 0 then .rw else .excl) { init (.sem 1) false with obj := fun l => if l = 0 then .rw 0 false else .sem 1 }
      [.lookup 0, .add 0, .lookup 1, .add 1, .prep 1 true .io] = .bad := by
  simp [run, step, init, upd, lockFile, Res.andThen]

/-- A sync (or an I/O of a worker) that finds the engine busy is queued again without the lock: it is in the engine together with another
copy, and ups the semaphore once more, so that from then on two fit. -/
theorem C102_busy_counterexample :
    after (fun _ => .excl) (init (.sem 1) true)
      [.lookup 0, .add 0, .lookup 1, .add 1, .prep 0 true .sync, .queue 0 .busy, .prep 1 true .io] (fun s => ¬ Exclusive s) ∧
    after (fun _ => .excl) (init (.sem 1) true)
      [.lookup 0, .add 0, .lookup 1, .add 1, .prep 0 true .sync, .queue 0 .busy, .queue 0 .completed] (fun s => s.obj 0 = .sem 2 ∧ ∀ t, ¬ InIo s t) := by
  constructor
  · refine ⟨_, by simp [run, step, init, upd, lockFile, unlockFile, Res.andThen]; rfl, ?_⟩
    intro h
    exact absurd (h 0 1 (by simp [InIo, upd]) (by simp [InIo, upd])) (by decide)
  · refine ⟨_, by simp [run, step, init, upd, lockFile, unlockFile, Res.andThen]; rfl, by simp [upd], ?_⟩
    intro t
    simp only [InIo, upd]
    by_cases h : t = 0 <;> by_cases h' : t = 1 <;> simp [h, h']

/-- `file_locks` of a copy is not initialised: one that opens and closes its file without I/O ups a semaphore it has not downed. -/
theorem C102_slot_counterexample :
    after (fun _ => .excl) { init (.sem 1) true with slot := fun t => decide (t = 0) }
      [.lookup 0, .add 0, .lookup 1, .add 1, .lookup 2, .add 2, .close 0, .prep 1 true .io, .prep 2 true .io] (fun s => ¬ Exclusive s) := by
  refine ⟨_, by simp [run, step, init, upd, lockFile, unlockFile, Res.andThen]; rfl, ?_⟩
  intro h
  exact absurd (h 1 2 (by simp [InIo, upd]) (by simp [InIo, upd])) (by decide)

/-- The verification of `experimental_verify` locks the file twice: the job waits for itself, whatever the others do. -/
theorem C102_hang_counterexample (m : Nat → Mode) (hm : ∀ t, m t = .excl) (s : St) (l : Nat) (hl : ∀ t, s.lock t = some l)
    (hs : s.obj l = .sem 1) (hsl : ∀ t, s.slot t = false) (hp : ∀ t, s.pc t = .idle) (t : Nat) (ho : s.isOpen t = true) :
    ∃ s1, step m s (.prep t false .expVerify) = .ok s1 ∧ ∀ as s2, run m s1 as = .ok s2 → (∀ u, Act.drop u ∉ as) →
      s2.pc t = .prepped false ∧ step m s2 (.prep2 t) = .blocked := by
  refine ⟨_, by simp only [step, hp t, ho, and_self, if_true, lockFile, hl t, hm t, hs, Nat.one_ne_zero, if_false, Res.andThen]; rfl, ?_⟩
  generalize hs1 : ({ s with obj := upd s.obj l (.sem (1 - 1)), slot := upd s.slot t true, pc := upd s.pc t (.prepped false) } : St) = s1
  have hinv : (∀ u, s1.lock u = some l) ∧ s1.obj l = .sem 0 ∧ s1.pc t = .prepped false ∧
      (∀ u, u ≠ t → (io (s1.pc u) = false ∧ okPc (s1.pc u) = true ∧ s1.slot u = false)) := by
    subst hs1
    exact ⟨hl, by simp [upd], by simp [upd], fun u hu => by simp [upd, hu, hp u, hsl u, io, okPc]⟩
  clear hs1
  intro as
  induction as generalizing s1 with
  | nil =>
    intro s2 h2 _
    simp only [run, Res.ok.injEq] at h2
    subst h2
    exact ⟨hinv.2.2.1, by simp [step, hinv.2.2.1, lockFile, hinv.1 t, hm t, hinv.2.1, Res.andThen]⟩
  | cons a as ih =>
    intro s2 h2 hd
    obtain ⟨i1, i2, i3, i4⟩ := hinv
    simp only [run] at h2
    cases h3 : step m s1 a with
    | blocked => rw [h3] at h2; exact absurd h2 (by simp [Res.andThen])
    | bad => rw [h3] at h2; exact absurd h2 (by simp [Res.andThen])
    | ok s3 =>
      rw [h3] at h2
      refine ih s3 ?_ s2 h2 (fun u hu => hd u (List.mem_cons_of_mem _ hu))
      have hne : ∀ u, io (s1.pc u) = true → False := fun u hu => by
        by_cases h : u = t
        · rw [h, i3] at hu; exact absurd hu (by decide)
        · rw [(i4 u h).1] at hu; exact absurd hu (by decide)
      cases a with
      | lookup u =>
        simp only [step] at h3
        split at h3
        · split at h3 <;> simp only [Res.ok.injEq] at h3 <;> subst h3 <;> grind [upd, io, okPc]
        · exact absurd h3 (by simp)
      | add u =>
        simp only [step] at h3
        split at h3
        · simp only [Res.ok.injEq] at h3; subst h3; grind [upd, io, okPc]
        · split at h3 <;> simp only [Res.ok.injEq] at h3 <;> subst h3 <;> grind [upd, io, okPc]
        · exact absurd h3 (by simp)
      | close u =>
        simp only [step] at h3
        split at h3
        · rename_i hc
          have hu : u ≠ t := by rintro rfl; rw [i3] at hc; exact absurd hc.1 (by simp)
          simp only [(i4 u hu).2.2, Bool.false_eq_true, if_false, Res.andThen, Res.ok.injEq] at h3
          subst h3
          exact ⟨i1, i2, i3, i4⟩
        · exact absurd h3 (by simp)
      | prep u w c =>
        simp only [step] at h3
        split at h3
        · simp only [lockFile, i1 u, hm u, i2, if_true, Res.andThen] at h3
          exact absurd h3 (by simp)
        · exact absurd h3 (by simp)
      | prepFail u =>
        simp only [step] at h3
        split at h3
        · rename_i hp'
          exact absurd (hne u (by rw [hp']; rfl)) (by simp)
        · exact absurd h3 (by simp)
      | prep2 u =>
        simp only [step] at h3
        split at h3
        · simp only [lockFile, i1 u, hm u, i2, if_true, Res.andThen] at h3
          exact absurd h3 (by simp)
        · exact absurd h3 (by simp)
      | queue u q =>
        simp only [step] at h3
        split at h3
        · rename_i hp'
          exact absurd (hne u (by rw [hp']; rfl)) (by simp)
        · rename_i hp'
          have hu : u ≠ t := by rintro rfl; rw [i3] at hp'; exact absurd hp' (by simp)
          have := (i4 u hu).2.1
          rw [hp'] at this
          exact absurd this (by simp [okPc])
        · exact absurd h3 (by simp)
      | drop u => exact absurd (List.mem_cons_self) (hd u)
      | complete u =>
        simp only [step] at h3
        split at h3
        · exact absurd h3 (by simp)
        · simp only [Res.ok.injEq] at h3
          subst h3
          exact ⟨i1, i2, i3, i4⟩

/-- Its hypotheses are met. -/
example : ∃ s1, step (fun _ => .excl) { init (.sem 1) true with isOpen := fun _ => true } (.prep 3 false .expVerify) = .ok s1 ∧
    step (fun _ => .excl) s1 (.prep2 3) = .blocked := by
  obtain ⟨s1, h1, h2⟩ := C102_hang_counterexample (fun _ => .excl) (fun _ => rfl) { init (.sem 1) true with isOpen := fun _ => true } 0
    (fun _ => rfl) rfl (fun _ => rfl) (fun _ => rfl) 3 rfl
  exact ⟨s1, h1, (h2 [] s1 rfl (by simp)).2⟩

/-- An I/O of the verification that is put back keeps the lock: nobody, not even this job, gets in. -/
theorem C102_drop_counterexample :
    after (fun _ => .excl) (init (.sem 1) true) [.lookup 0, .add 0, .lookup 1, .add 1, .prep 0 false .io, .drop 0]
      (fun s => (∀ t, ¬ InIo s t) ∧ ∀ w c, step (fun _ => .excl) s (.prep 0 w c) = .blocked ∧ step (fun _ => .excl) s (.prep 1 w c) = .blocked) := by
  refine ⟨_, by simp [run, step, init, upd, lockFile, Res.andThen]; rfl, ?_, ?_⟩
  · intro t
    simp only [InIo, upd]
    by_cases h : t = 0 <;> by_cases h' : t = 1 <;> simp [h, h']
  · intro w c
    simp [step, lockFile, upd, Res.andThen]

/-- The lock is given back when the engine has queued the I/O, not when it is done: two copies have I/O in flight. -/
theorem C102_async_counterexample :
    ∃ s, Reach (fun _ => .excl) (init (.sem 1) true) s ∧ ¬ ExclusiveFlight s := by
  cases h : runFine (fun _ => .excl) (init (.sem 1) true)
      [.lookup 0, .add 0, .lookup 1, .add 1, .prep 0 true .io, .queue 0 .queued, .prep 1 true .io, .queue 1 .queued] with
  | none => exact absurd h (by simp [runFine, fineB, step, init, upd, lockFile, unlockFile, Res.andThen])
  | some s =>
    refine ⟨s, runFine_reach _ _ _ _ _ .start h, ?_⟩
    simp [runFine, fineB, step, init, upd, lockFile, unlockFile, Res.andThen] at h
    subst h
    intro h
    exact absurd (h 0 1 (Or.inr (by simp [upd])) (Or.inr (by simp [upd]))) (by decide)

end Fio.LockFile
