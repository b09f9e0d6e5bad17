import Verif.Workq.InvE
import Verif.Workq.Spec
namespace Fio.Workq

/-- The item that the worker is handling. -/
@[grind] def cur : WPc → List Work
  | .running w => [w]
  | _ => []

/-- The item that the caller is about to enqueue. -/
@[grind] def pend : MPc → List Work
  | .scan1 w _ _ _ | .scan2 w _ _ _ | .pick w _ | .pickSet w _ | .enqLock w _ | .enqAdd w _ => [w]
  | _ => []

/-- The caller is in workqueue_flush. -/
@[grind] def inFlush : MPc → Nat
  | .flLock | .flSet | .flScan _ | .flWait | .flWoken | .flClear | .flUnlock => 1
  | _ => 0

/-- What the caller has seen of workqueue_init. -/
@[grind] def stage (prog0 : List Op) (s : St) : Prop :=
  (startup s.pc = true → s.prog = prog0 ∧ s.trace = []) ∧
  (ready s.pc = true → .initOk ∈ s.trace ∧ .initFail ∉ s.trace) ∧
  (startup s.pc = false → ready s.pc = false → s.pc ≠ .crashed →
    (.initFail ∈ s.trace ∧ .initOk ∉ s.trace ∧ asked s.trace = []) ∨
    (.initOk ∈ s.trace ∧ .initFail ∉ s.trace ∧ s.prog = []))

structure InvT (prog0 : List Op) (s : St) : Prop where
  tr : ∀ i, enqd s.trace i = finished s.trace i ++ (cur (s.w i).pc ++ ((s.w i).loc ++ (s.w i).queue))
  bg : ∀ i, begun s.trace i = finished s.trace i ++ cur (s.w i).pc
  fl : ∀ t1 t2, s.trace = t1 ++ .flushRet :: t2 → AllDone t1
  ex : .exitRet ∈ s.trace ↔ s.pc = .fin
  wk : asked s.trace ++ (pend s.pc ++ works s.prog) = works prog0
  fc : s.trace.count .flushRet + (inFlush s.pc + flushes s.prog) = flushes prog0
  sg : stage prog0 s

theorem none_of {n : Nat} {s : St} (hA : InvA n s) {i : Nat} (h : ¬ i < created s.pc s.maxw) :
    (s.w i).pc = .none := by
  have := hA.crt i
  cases hp : (s.w i).pc <;> simp [hp] at this ⊢ <;> omega

theorem invT_init (n : Nat) (prog : List Op) : InvT prog (init n prog) := by
  constructor <;> simp [init, enqd, finished, begun, Wk.fresh, cur, asked, pend, inFlush, stage, startup,
    ready]

@[grind =] theorem wakeMain_pend (p : MPc) : pend (wakeMain p) = pend p := by cases p <;> rfl
@[grind =] theorem wakeMain_inFlush (p : MPc) : inFlush (wakeMain p) = inFlush p := by cases p <;> rfl
@[grind =] theorem wakeMain_fin (p : MPc) : wakeMain p = .fin ↔ p = .fin := by
  cases p <;> simp [wakeMain]
@[grind =] theorem wakeMain_crashed (p : MPc) : wakeMain p = .crashed ↔ p = .crashed := by
  cases p <;> simp [wakeMain]
@[grind =] theorem wakeWk_cur (p : WPc) : cur (wakeWk p) = cur p := by cases p <;> rfl

theorem split_snoc {t : List Ev} {e : Ev} {t1 t2 : List Ev} {x : Ev} (h : t ++ [e] = t1 ++ x :: t2) :
    (e = x ∧ t = t1 ∧ t2 = []) ∨ ∃ t3, t = t1 ++ x :: t3 := by
  rcases List.eq_nil_or_concat t2 with h2 | ⟨t3, y, h2⟩
  · subst h2
    have := List.append_inj_right' h rfl
    have h' := List.append_inj_left' h rfl
    left
    simp at this
    exact ⟨this, h', rfl⟩
  · subst h2
    right
    refine ⟨t3, ?_⟩
    have h3 : t ++ [e] = (t1 ++ x :: t3) ++ [y] := by simp [h]
    exact List.append_inj_left' h3 rfl

/-- Steps without an event that do not touch the program. -/
theorem invT_silent {prog0 : List Op} {s s' : St} (h : InvT prog0 s) (ht : s'.trace = s.trace)
    (hpr : s'.prog = s.prog) (hp : s'.pc = s.pc ∨ s'.pc = wakeMain s.pc)
    (hw : ∀ i, cur (s'.w i).pc = cur (s.w i).pc ∧
      (s'.w i).loc ++ (s'.w i).queue = (s.w i).loc ++ (s.w i).queue) : InvT prog0 s' := by
  obtain ⟨tr, bg, fl, ex, wk, fc, sg⟩ := h
  constructor
  · intro i; rw [ht, (hw i).1, (hw i).2]; exact tr i
  · intro i; rw [ht, (hw i).1]; exact bg i
  · rw [ht]; exact fl
  · rw [ht]; rcases hp with hp | hp <;> rw [hp]
    · exact ex
    · rw [wakeMain_fin]; exact ex
  · rw [ht, hpr]; rcases hp with hp | hp <;> rw [hp]
    · exact wk
    · rw [wakeMain_pend]; exact wk
  · rw [ht, hpr]; rcases hp with hp | hp <;> rw [hp]
    · exact fc
    · rw [wakeMain_inFlush]; exact fc
  · unfold stage at sg ⊢
    rw [ht, hpr]; rcases hp with hp | hp <;> rw [hp]
    · exact sg
    · simp only [wakeMain_startup, wakeMain_ready, ne_eq, wakeMain_crashed]; exact sg

set_option maxHeartbeats 4000000 in
theorem invT_wstep {n : Nat} {prog0 : List Op} {s s' : St} {i : Nat} {c : Bool} (hA : InvA n s)
    (hB : InvB s) (hC : InvC s) (h : InvT prog0 s) (hs : wstep s i c = some s') : InvT prog0 s' := by
  have hloc := hB.loc i
  have hsu := fun h => hB.su h i
  have nofin : s.pc = .fin → (s.w i).pc = .none ∨ (s.w i).pc = .done := by
    intro hf
    by_cases hi : i < s.maxw
    · exact Or.inr (hC.jn i (by rw [hf]; exact hi))
    · exact Or.inl (none_of hA (by rw [hf]; exact hi))
  unfold wstep at hs
  simp only at hs
  split at hs <;> (try split at hs) <;> (try split at hs) <;> (try split at hs) <;>
    simp only [Option.some.injEq, reduceCtorEq] at hs <;> (try subst hs)
  all_goals first
    | (refine invT_silent h rfl rfl ?_ ?_ <;> simp only [setW, upd] <;> grind)
    | skip
  · -- begin
    rename_i hpc _ w rest hl
    obtain ⟨tr, bg, fl, ex, wk, fc, sg⟩ := h
    have htr := tr i
    have hbg := bg i
    rw [hpc] at htr hbg
    constructor
    · intro j
      by_cases hj : j = i
      · subst hj
        simp [setW, emit, upd, enqd, finished, cur, hl] at htr ⊢
        exact htr
      · have := tr j
        simp [setW, emit, upd, enqd, finished, hj] at this ⊢
        exact this
    · intro j
      by_cases hj : j = i
      · subst hj
        simp [setW, emit, upd, begun, finished, cur] at hbg ⊢
        exact hbg
      · have := bg j
        have hj' : i ≠ j := fun h => hj h.symm
        simp [setW, emit, upd, begun, finished, hj, hj'] at this ⊢
        exact this
    · intro t1 t2 ht
      rcases split_snoc ht with ⟨h1, _⟩ | ⟨t3, h1⟩
      · exact absurd h1 (by simp)
      · exact fl t1 t3 h1
    · simpa [emit, setW] using ex
    · simpa [emit, setW, asked] using wk
    · simpa [emit, setW] using fc
    · unfold stage at sg ⊢
      refine ⟨?_, ?_, ?_⟩
      · intro h
        have := (hsu h).2.1
        rw [hl] at this
        exact absurd this (by simp)
      · simpa [emit, setW] using sg.2.1
      · simpa [emit, setW, asked] using sg.2.2
  · -- finish
    rename_i w hpc
    obtain ⟨tr, bg, fl, ex, wk, fc, sg⟩ := h
    have htr := tr i
    have hbg := bg i
    rw [hpc] at htr hbg
    constructor
    · intro j
      by_cases hj : j = i
      · subst hj
        simp [setW, emit, upd, enqd, finished, cur] at htr ⊢
        exact htr
      · have := tr j
        have hj' : i ≠ j := fun h => hj h.symm
        simp [setW, emit, upd, enqd, finished, hj, hj'] at this ⊢
        exact this
    · intro j
      by_cases hj : j = i
      · subst hj
        simp [setW, emit, upd, begun, finished, cur] at hbg ⊢
        exact hbg
      · have := bg j
        have hj' : i ≠ j := fun h => hj h.symm
        simp [setW, emit, upd, begun, finished, hj, hj'] at this ⊢
        exact this
    · intro t1 t2 ht
      rcases split_snoc ht with ⟨h1, _⟩ | ⟨t3, h1⟩
      · exact absurd h1 (by simp)
      · exact fl t1 t3 h1
    · simpa [emit, setW] using ex
    · simpa [emit, setW, asked] using wk
    · simpa [emit, setW] using fc
    · unfold stage at sg ⊢
      refine ⟨?_, ?_, ?_⟩
      · intro h
        have := (hsu h).2.2
        rw [hpc] at this
        exact absurd this (by simp [inFn])
      · simpa [emit, setW] using sg.2.1
      · simpa [emit, setW, asked] using sg.2.2

theorem allDone_of_idle {n : Nat} {prog0 : List Op} {s : St} (hA : InvA n s) (hB : InvB s)
    (h : InvT prog0 s) (hq : ∀ i, i < s.maxw → (s.w i).queue = [] ∧ (s.w i).loc = [] ∧ inFn (s.w i).pc = false)
    (hc : created s.pc s.maxw = s.maxw) : AllDone s.trace := by
  intro i
  have tr := h.tr i
  have : cur (s.w i).pc = [] ∧ (s.w i).loc = [] ∧ (s.w i).queue = [] := by
    by_cases hi : i < s.maxw
    · obtain ⟨h1, h2, h3⟩ := hq i hi
      refine ⟨?_, h2, h1⟩
      revert h3
      cases (s.w i).pc <;> simp [inFn, cur]
    · have hn : (s.w i).pc = .none := none_of hA (by rw [hc]; exact hi)
      refine ⟨by rw [hn]; rfl, hB.loc i (by rw [hn]; rfl), hB.nn i hn⟩
  rw [this.1, this.2.1, this.2.2] at tr
  simp at tr
  exact tr.symm

/-- Steps of the caller without an event: only its place and the program change. -/
theorem invT_msilent {prog0 : List Op} {s s' : St} (h : InvT prog0 s) (ht : s'.trace = s.trace)
    (hw : ∀ i, cur (s'.w i).pc = cur (s.w i).pc ∧ (s'.w i).loc = (s.w i).loc ∧
      (s'.w i).queue = (s.w i).queue)
    (h1 : s'.pc = .fin ↔ s.pc = .fin)
    (h2 : pend s'.pc ++ works s'.prog = pend s.pc ++ works s.prog)
    (h3 : inFlush s'.pc + flushes s'.prog = inFlush s.pc + flushes s.prog)
    (h4 : stage prog0 s') : InvT prog0 s' := by
  obtain ⟨tr, bg, fl, ex, wk, fc, sg⟩ := h
  constructor
  · intro i; rw [ht, (hw i).1, (hw i).2.1, (hw i).2.2]; exact tr i
  · intro i; rw [ht, (hw i).1]; exact bg i
  · rw [ht]; exact fl
  · rw [ht, h1]; exact ex
  · rw [ht, h2]; exact wk
  · rw [ht, h3]; exact fc
  · exact h4

/-- An event of the caller about workqueue_init, workqueue_flush or workqueue_exit. -/
theorem invT_event {prog0 : List Op} {s s' : St} {e : Ev} (h : InvT prog0 s) (ht : s'.trace = s.trace ++ [e])
    (he : e = .initOk ∨ e = .initFail ∨ e = .flushRet ∨ e = .exitRet)
    (hw : s'.w = s.w)
    (h0 : e = .flushRet → AllDone s.trace)
    (h1 : s'.pc = .fin ↔ e = .exitRet) (h1' : s.pc ≠ .fin)
    (h2 : pend s'.pc ++ works s'.prog = pend s.pc ++ works s.prog)
    (h3 : inFlush s'.pc + (flushes s'.prog + if e = .flushRet then 1 else 0) =
      inFlush s.pc + flushes s.prog)
    (h4 : stage prog0 s') : InvT prog0 s' := by
  obtain ⟨tr, bg, fl, ex, wk, fc, sg⟩ := h
  have q : (∀ i, enqd (s.trace ++ [e]) i = enqd s.trace i) ∧
      (∀ i, begun (s.trace ++ [e]) i = begun s.trace i) ∧
      (∀ i, finished (s.trace ++ [e]) i = finished s.trace i) ∧
      asked (s.trace ++ [e]) = asked s.trace := by
    rcases he with rfl | rfl | rfl | rfl <;> simp [enqd, begun, finished, asked]
  obtain ⟨q1, q2, q3, q4⟩ := q
  constructor
  · intro i; rw [ht, q1, q3, hw]; exact tr i
  · intro i; rw [ht, q2, q3, hw]; exact bg i
  · intro t1 t2 h
    rw [ht] at h
    rcases split_snoc h with ⟨a, b, _⟩ | ⟨t3, a⟩
    · rw [← b]; exact h0 a
    · exact fl t1 t3 a
  · rw [ht, h1, List.mem_append, ex, List.mem_singleton]
    constructor
    · rintro (h | h)
      · exact absurd h h1'
      · exact h.symm
    · intro h; exact Or.inr h.symm
  · rw [ht, q4, h2]; exact wk
  · rw [ht, List.count_append, List.count_singleton, ← fc, ← h3]
    by_cases hf : e = .flushRet
    · simp [hf]; omega
    · simp [hf]
  · exact h4

@[grind =] theorem works_enq (w : Work) (p : List Op) : works (.enqueue w :: p) = w :: works p := by
  simp [works]
@[grind =] theorem works_flush (p : List Op) : works (.flush :: p) = works p := by
  simp [works]
@[grind =] theorem flushes_enq (w : Work) (p : List Op) : flushes (.enqueue w :: p) = flushes p := by
  simp [flushes]
@[grind =] theorem flushes_flush (p : List Op) : flushes (.flush :: p) = flushes p + 1 := by
  simp [flushes]

set_option maxHeartbeats 4000000 in
theorem invT_mstep {n : Nat} {prog0 : List Op} {s s' : St} {c : Bool} (hA : InvA n s)
    (hB : InvB s) (hC : InvC s) (hE : InvE s) (h : InvT prog0 s) (hs : mstep s c = some s') :
    InvT prog0 s' := by
  have rg := hA.rg
  have sg := h.sg
  cases hp : s.pc <;> simp only [mstep, hp] at hs <;>
    (try split at hs) <;> (try split at hs) <;> (try split at hs) <;>
    simp only [Option.some.injEq, reduceCtorEq] at hs <;> (try subst hs)
  all_goals first
    | (refine invT_msilent h rfl ?_ ?_ ?_ ?_ ?_ <;>
        simp [setW, setPc, upd, hp, stage, startup, ready, pend, inFlush] at sg ⊢ <;> grind)
    | skip
  case start.isTrue.isTrue i _ _ =>
    have hn : (s.w i).pc = .none := none_of hA (by rw [hp]; simp [created])
    refine invT_msilent h rfl ?_ ?_ ?_ ?_ ?_ <;>
        simp [setW, setPc, upd, hp, stage, startup, ready, pend, inFlush] at sg ⊢ <;> grind
  case start.isTrue.isFalse.isTrue i _ _ _ =>
    refine invT_event h rfl (by simp) rfl (by simp) (by simp [emit]) (by simp [hp]) ?_ ?_ ?_ <;>
      simp [emit, hp, stage, startup, ready, pend, inFlush] at sg ⊢ <;> grind [asked]
  case start.isFalse.isTrue i _ _ =>
    refine invT_event h rfl (by simp) rfl (by simp) (by simp [emit]) (by simp [hp]) ?_ ?_ ?_ <;>
      simp [emit, hp, stage, startup, ready, pend, inFlush] at sg ⊢ <;> grind [asked]
  case initUnlock.isTrue =>
    refine invT_event h rfl (by simp) rfl (by simp) (by simp [emit]) (by simp [hp]) ?_ ?_ ?_ <;>
      simp [emit, hp, stage, startup, ready, pend, inFlush] at sg ⊢ <;> grind [asked]
  case initUnlock.isFalse =>
    refine invT_event h rfl (by simp) rfl (by simp) (by simp [emit]) (by simp [hp]) ?_ ?_ ?_ <;>
      simp [emit, hp, stage, startup, ready, pend, inFlush] at sg ⊢ <;> grind [asked]
  case flUnlock =>
    have hd : AllDone s.trace := by
      refine allDone_of_idle hA hB h ?_ (by rw [hp]; rfl)
      intro i hi
      have r := hE.rs
      rw [reason, hp] at r
      have := hB.idl i (r i hi)
      rw [hp] at this
      simp [adding] at this
      exact ⟨this.2.2, this.1, this.2.1⟩
    refine invT_event h rfl (by simp) rfl (fun _ => hd) (by simp [emit]) (by simp [hp]) ?_ ?_ ?_ <;>
      simp [emit, hp, stage, startup, ready, pend, inFlush] at sg ⊢ <;> first | omega | grind [asked]
  case shEnd.isFalse =>
    refine invT_event h rfl (by simp) rfl (by simp) (by simp [emit, setPc]) (by simp [hp]) ?_ ?_ ?_ <;>
      simp [emit, setPc, hp, stage, startup, ready, pend, inFlush] at sg ⊢ <;> grind [asked]
  case enqAdd w k =>
    obtain ⟨tr, bg, fl, ex, wk, fc, sg⟩ := h
    constructor
    · intro j
      have := tr j
      by_cases hj : j = k
      · subst hj
        simp [setW, setPc, emit, upd, enqd, finished] at this ⊢
        rw [this]; simp
      · have hj' : k ≠ j := fun h => hj h.symm
        simp [setW, setPc, emit, upd, enqd, finished, hj, hj'] at this ⊢
        exact this
    · intro j
      have := bg j
      by_cases hj : j = k
      · subst hj
        simp [setW, setPc, emit, upd, begun, finished] at this ⊢
        exact this
      · simp [setW, setPc, emit, upd, begun, finished, hj] at this ⊢
        exact this
    · intro t1 t2 ht
      rcases split_snoc ht with ⟨h1, _⟩ | ⟨t3, h1⟩
      · exact absurd h1 (by simp)
      · exact fl t1 t3 h1
    · simp [emit, setW, setPc]
      rw [ex, hp]; simp
    · rw [hp] at wk
      simp [emit, setW, setPc, asked, pend] at wk ⊢
      exact wk
    · rw [hp] at fc
      simpa [emit, setW, setPc, inFlush] using fc
    · rw [stage, hp] at sg
      simp [emit, setW, setPc, stage, startup, ready] at sg ⊢
      exact sg

end Fio.Workq
