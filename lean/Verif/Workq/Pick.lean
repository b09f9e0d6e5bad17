import Verif.Workq.Inv
/-
Which worker get_submit_worker picks.
-/
namespace Fio.Workq

/-- What a worker step leaves alone. -/
theorem wstep_frame {s s' : St} {i : Nat} {c : Bool} (hs : wstep s i c = some s') :
    s'.maxw = s.maxw ∧ s'.prog = s.prog ∧ (s'.pc = s.pc ∨ s'.pc = wakeMain s.pc) ∧
    asked s'.trace = asked s.trace ∧
    ∀ j, (s'.w j).seq = (s.w j).seq ∧ ((s.w j).idle = true → (s'.w j).idle = true) := by
  unfold wstep at hs
  simp only at hs
  split at hs <;> (try split at hs) <;> (try split at hs) <;> (try split at hs) <;>
    simp only [Option.some.injEq, reduceCtorEq] at hs <;> (try subst hs) <;>
    refine ⟨rfl, rfl, ?_, ?_, ?_⟩ <;> simp [setW, emit, upd, asked] <;> grind

/-- `best` has the lowest number so far. -/
def scanInv (s : St) : Prop :=
  match s.pc with
  | .scan1 _ i nxt best => ∀ j, nxt ≤ j → j < i → ∃ b, best = some b ∧ (s.w b).seq ≤ (s.w j).seq
  | .scan2 _ i nxt best => ∀ j, (nxt ≤ j ∧ j < s.maxw) ∨ j < i →
      ∃ b, best = some b ∧ (s.w b).seq ≤ (s.w j).seq
  | _ => True

theorem scanInv_init (n : Nat) (prog : List Op) : scanInv (init n prog) := trivial

theorem scanInv_frame {s s' : St} (h : scanInv s) (hm : s'.maxw = s.maxw)
    (hp : s'.pc = s.pc ∨ s'.pc = wakeMain s.pc) (hw : ∀ j, (s'.w j).seq = (s.w j).seq) : scanInv s' := by
  unfold scanInv at h ⊢
  rcases hp with hp | hp <;> rw [hp] <;> cases hq : s.pc <;> simp only [hq, wakeMain] at h ⊢ <;>
    simp only [hw, hm] <;> exact h

theorem better_le (s : St) (i : Nat) (best : Option Nat) :
    ∃ b, better s i best = some b ∧ (s.w b).seq ≤ (s.w i).seq ∧
      (∀ b0, best = some b0 → (s.w b).seq ≤ (s.w b0).seq) := by
  unfold better
  split
  · exact ⟨i, rfl, Nat.le_refl _, by simp⟩
  · rename_i b
    split
    · exact ⟨i, rfl, Nat.le_refl _, by simp; omega⟩
    · exact ⟨b, rfl, by omega, by simp⟩

theorem scanInv_mstep {n : Nat} {s s' : St} {c : Bool} (hA : InvA n s) (h : scanInv s)
    (hs : mstep s c = some s') : scanInv s' := by
  have rg := hA.rg
  unfold scanInv at h
  cases hp : s.pc <;> simp only [hp] at h rg <;> simp only [mstep, hp] at hs <;>
    (try split at hs) <;> (try split at hs) <;> (try split at hs) <;>
    simp only [Option.some.injEq, reduceCtorEq] at hs <;> (try subst hs)
  all_goals first
    | exact trivial
    | skip
  case h_1.isTrue =>
    simp only [scanInv]
    intro j h1 h2; omega
  case scan1.isTrue.isFalse w i nxt best h1 h2 =>
    simp only [scanInv, setPc]
    obtain ⟨b, e1, e2, e3⟩ := better_le s i best
    intro j hj1 hj2
    refine ⟨b, e1, ?_⟩
    by_cases hj : j = i
    · subst hj; exact e2
    · obtain ⟨b0, e4, e5⟩ := h j hj1 (by omega)
      exact Nat.le_trans (e3 b0 e4) e5
  case scan1.isFalse.isTrue w i nxt best h1 h2 =>
    obtain ⟨r1, r2, r3, _⟩ := rg
    simp only [scanInv, setPc]
    intro j hj
    exact h j (by omega) (by omega)
  case scan2.isTrue.isFalse w i nxt best h1 h2 =>
    simp only [scanInv, setPc]
    obtain ⟨b, e1, e2, e3⟩ := better_le s i best
    intro j hj
    refine ⟨b, e1, ?_⟩
    by_cases hj2 : j = i
    · subst hj2; exact e2
    · obtain ⟨b0, e4, e5⟩ := h j (by omega)
      exact Nat.le_trans (e3 b0 e4) e5

theorem scanInv_step {n : Nat} {prog0 : List Op} {s s' : St} {a : Act} (hI : Inv n prog0 s) (h : scanInv s)
    (hs : step s a = some s') : scanInv s' := by
  cases a with
  | run t c =>
    cases t with
    | main => exact scanInv_mstep hI.a h hs
    | wk i =>
      obtain ⟨h1, _, h2, _, h3⟩ := wstep_frame hs
      exact scanInv_frame h h1 h2 (fun j => (h3 j).1)
  | spurious t =>
    cases t with
    | main =>
      simp only [step] at hs
      split at hs
      · simp at hs
      · simp only [Option.some.injEq] at hs
        subst hs
        exact scanInv_frame h rfl (Or.inr rfl) (fun _ => rfl)
    | wk i =>
      simp only [step] at hs
      split at hs
      · simp only [Option.some.injEq] at hs
        subst hs
        refine scanInv_frame h rfl (Or.inl rfl) ?_
        intro j; simp only [setW, upd]; split
        · rename_i hj; rw [hj]
        · rfl
      · simp at hs

theorem scanInv_exec {n : Nat} {prog0 : List Op} {as : List Act} : ∀ {s s' : St}, Inv n prog0 s →
    scanInv s → exec s as = some s' → scanInv s' := by
  induction as with
  | nil => intro s s' _ h hs; simp [exec] at hs; subst hs; exact h
  | cons a as ih =>
    intro s s' hI h hs
    simp only [exec, Option.bind_eq_some_iff] at hs
    obtain ⟨s1, h1, h2⟩ := hs
    exact ih (inv_step hI h1) (scanInv_step hI h h1) h2

/-- C39, the choice: when the caller decides for a worker, either it has just read SW_F_IDLE of this worker,
or no worker has an older last item. -/
theorem C39_pick {n : Nat} {prog : List Op} {as : List Act} {s s' : St} {c : Bool} {w i : Nat}
    (hs : exec (init n prog) as = some s) (hst : step s (.run .main c) = some s')
    (hp : s'.pc = .pick w (some i)) :
    (s.w i).idle = true ∨ ∀ j, j < s.maxw → (s.w i).seq ≤ (s.w j).seq := by
  have hI := inv_reach hs
  have h := scanInv_exec (inv_init n prog) (scanInv_init n prog) hs
  have rg := hI.a.rg
  unfold scanInv at h
  cases hq : s.pc <;> simp only [hq] at h rg <;> simp only [step, mstep, hq] at hst <;>
    (try split at hst) <;> (try split at hst) <;> (try split at hst) <;>
    simp only [Option.some.injEq, reduceCtorEq] at hst <;> (try subst hst) <;>
    simp [setPc, setW, emit] at hp
  case scan1.isTrue.isTrue h1 h2 => left; obtain ⟨_, rfl⟩ := hp; exact h2
  case scan1.isFalse.isFalse k nxt best h1 h2 =>
    right
    obtain ⟨_, rfl⟩ := hp
    obtain ⟨r1, r2, r3, r4, r5⟩ := rg
    intro j hj
    obtain ⟨b, e1, e2⟩ := h j (by omega) (by omega)
    simp at e1; subst e1; exact e2
  case scan2.isTrue.isTrue h1 h2 => left; obtain ⟨_, rfl⟩ := hp; exact h2
  case scan2.isFalse k nxt best h1 =>
    right
    obtain ⟨_, rfl⟩ := hp
    obtain ⟨r1, r2, r3, r4, r5⟩ := rg
    intro j hj
    obtain ⟨b, e1, e2⟩ := h j (by omega)
    simp at e1; subst e1; exact e2

/-- While the caller looks for a worker and worker `j` is idle. -/
def keeps (j : Nat) (s : St) : Prop :=
  (s.w j).idle = true ∧ j < s.maxw ∧
  match s.pc with
  | .next => ∃ w rest, s.prog = .enqueue w :: rest
  | .scan1 _ i nxt _ => nxt ≤ j → i ≤ j
  | .scan2 _ i nxt _ => j < nxt ∧ i ≤ j
  | .pick _ sw => ∃ i, sw = some i ∧ (s.w i).idle = true
  | .pickSet _ i | .enqLock _ i | .enqAdd _ i => (s.w i).idle = true
  | _ => False

theorem keeps_frame {j : Nat} {s s' : St} (h : keeps j s) (hm : s'.maxw = s.maxw) (hpr : s'.prog = s.prog)
    (hp : s'.pc = s.pc ∨ s'.pc = wakeMain s.pc)
    (hw : ∀ j, (s.w j).idle = true → (s'.w j).idle = true) : keeps j s' := by
  obtain ⟨h1, h2, h3⟩ := h
  refine ⟨hw j h1, by omega, ?_⟩
  rcases hp with hp | hp <;> rw [hp] <;> cases hq : s.pc <;> simp only [hq, wakeMain, hpr] at h3 ⊢ <;>
    grind

theorem keeps_mstep {n : Nat} {j : Nat} {s s' : St} {c : Bool} (hA : InvA n s) (h : keeps j s)
    (hs : mstep s c = some s') (ha : asked s'.trace = asked s.trace) : keeps j s' := by
  have rg := hA.rg
  have nf := hA.nf
  obtain ⟨h1, h2, h3⟩ := h
  cases hp : s.pc <;> simp only [hp, created] at h3 rg nf
  case enqAdd w i =>
    simp only [mstep, hp, Option.some.injEq] at hs
    subst hs
    simp [emit, setPc, setW, asked] at ha
  all_goals
    simp only [mstep, hp] at hs
    (try split at hs) <;> (try split at hs) <;> (try split at hs) <;>
    simp only [Option.some.injEq, reduceCtorEq] at hs <;> (try subst hs) <;>
    simp only [keeps, setPc, setW, upd] <;> grind

theorem keeps_step {n : Nat} {prog0 : List Op} {j : Nat} {s s' : St} {a : Act} (hI : Inv n prog0 s)
    (h : keeps j s) (hs : step s a = some s') (ha : asked s'.trace = asked s.trace) : keeps j s' := by
  cases a with
  | run t c =>
    cases t with
    | main => exact keeps_mstep hI.a h hs ha
    | wk i =>
      obtain ⟨h1, h2, h3, _, h4⟩ := wstep_frame hs
      exact keeps_frame h h1 h2 h3 (fun j => (h4 j).2)
  | spurious t =>
    cases t with
    | main =>
      simp only [step] at hs
      split at hs
      · simp at hs
      · simp only [Option.some.injEq] at hs
        subst hs
        exact keeps_frame h rfl rfl (Or.inr rfl) (fun _ h => h)
    | wk i =>
      simp only [step] at hs
      split at hs
      · simp only [Option.some.injEq] at hs
        subst hs
        refine keeps_frame h rfl rfl (Or.inl rfl) ?_
        intro j; simp only [setW, upd]; split
        · rename_i hj; rw [hj]; exact id
        · exact id
      · simp at hs

theorem asked_step {s s' : St} {a : Act} (hs : step s a = some s') :
    ∃ l, asked s'.trace = asked s.trace ++ l := by
  have key : ∀ t : List Ev, ∀ e, ∃ l, asked (t ++ [e]) = asked t ++ l := by
    intro t e; exact ⟨asked [e], by simp [asked]⟩
  cases a with
  | run t c =>
    cases t with
    | main =>
      simp only [step, mstep] at hs
      repeat' split at hs
      all_goals
        simp only [Option.some.injEq, reduceCtorEq] at hs
      all_goals
        subst hs
        first
        | exact ⟨[], (List.append_nil _).symm⟩
        | exact key _ _
    | wk i => exact ⟨[], by rw [(wstep_frame hs).2.2.2.1, List.append_nil]⟩
  | spurious t =>
    cases t <;> simp only [step] at hs <;> split at hs <;>
      simp only [Option.some.injEq, reduceCtorEq] at hs <;> subst hs <;>
      exact ⟨[], (List.append_nil _).symm⟩

theorem asked_exec {as : List Act} : ∀ {s s' : St}, exec s as = some s' →
    ∃ l, asked s'.trace = asked s.trace ++ l := by
  induction as with
  | nil => intro s s' hs; simp [exec] at hs; subst hs; exact ⟨[], (List.append_nil _).symm⟩
  | cons a as ih =>
    intro s s' hs
    simp only [exec, Option.bind_eq_some_iff] at hs
    obtain ⟨s1, h1, h2⟩ := hs
    obtain ⟨l1, e1⟩ := asked_step h1
    obtain ⟨l2, e2⟩ := ih h2
    exact ⟨l1 ++ l2, by rw [e2, e1, List.append_assoc]⟩

/-- C39, idle workers first: if some worker is idle when workqueue_enqueue is called, the item is put on the
list of an idle worker. -/
theorem C39_idle {n : Nat} {prog : List Op} {as bs : List Act} {s s' : St} {j w i : Nat} {rest : List Op}
    (hs : exec (init n prog) as = some s) (hpc : s.pc = .next) (hop : s.prog = .enqueue w :: rest)
    (hj : j < s.maxw) (hidle : (s.w j).idle = true)
    (hs' : exec s bs = some s') (hpc' : s'.pc = .enqAdd w i) (hfirst : asked s'.trace = asked s.trace) :
    (s'.w i).idle = true := by
  have hI := inv_reach hs
  have hk : keeps j s := ⟨hidle, hj, by rw [hpc]; exact ⟨w, rest, hop⟩⟩
  clear hs hpc hop hj hidle
  suffices h : keeps j s' by
    have := h.2.2
    rw [hpc'] at this
    exact this
  clear hpc'
  induction bs generalizing s with
  | nil => simp [exec] at hs'; subst hs'; exact hk
  | cons b bs ih =>
    simp only [exec, Option.bind_eq_some_iff] at hs'
    obtain ⟨s1, h1, h2⟩ := hs'
    obtain ⟨l1, e1⟩ := asked_step h1
    obtain ⟨l2, e2⟩ := asked_exec h2
    have : l1 = [] ∧ l2 = [] := by
      rw [e2, e1, List.append_assoc] at hfirst
      have := List.append_right_eq_self.1 hfirst
      simpa using this
    rw [this.1, List.append_nil] at e1
    exact ih h2 (by rw [hfirst, e1]) (inv_step hI h1) (keeps_step hI hk h1 e1)

end Fio.Workq
