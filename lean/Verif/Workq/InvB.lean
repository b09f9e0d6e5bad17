import Verif.Workq.Lemmas
namespace Fio.Workq

/-- The caller has put something on the list of `i` and not yet cleared SW_F_IDLE. -/
@[grind] def adding : MPc → Nat → Bool
  | .enqSeq k, i | .enqIdle k, i => k == i
  | _, _ => false

/-- The caller is at line 113 for worker `i`. -/
@[grind] def signalling : MPc → Nat → Bool
  | .enqSig k, i => k == i
  | _, _ => false

/-- The caller is at line 248 for worker `i`. -/
@[grind] def exSignalling : MPc → Nat → Bool
  | .exSig k, i => k == i
  | _, _ => false

/-- Places where the local list may have entries. -/
@[grind] def hasLoc : WPc → Bool
  | .unlockB | .handle | .running _ => true
  | _ => false

/-- Between setting SW_F_IDLE and going to sleep. -/
@[grind] def idleWay : WPc → Bool
  | .setNext | .unlockIdle | .idleFlush | .idleSig | .relock | .bottom => true
  | _ => false

/-- Before SW_F_RUNNING is set. -/
@[grind] def early : WPc → Bool
  | .none | .initLock | .setRun => true
  | _ => false

/-- `fn` is running. -/
@[grind] def inFn : WPc → Bool
  | .running _ => true
  | _ => false

/-- Workqueue_init has not returned. -/
@[grind] def startup : MPc → Bool
  | .start _ | .startLock _ | .startSet _ | .initFlush | .initScan .. | .initHold .. | .initChk ..
  | .initWait _ | .initWoken _ | .initUnlock _ => true
  | _ => false

/-- The lists of the workers, SW_F_IDLE and sleeping. -/
structure InvB (s : St) : Prop where
  loc : ∀ i, hasLoc (s.w i).pc = false → (s.w i).loc = []
  idl : ∀ i, (s.w i).idle = true → (s.w i).loc = [] ∧ inFn (s.w i).pc = false ∧
    ((s.w i).queue = [] ∨ adding s.pc i = true)
  wt : ∀ i, (s.w i).pc = .waiting →
    ((s.w i).queue = [] ∨ adding s.pc i = true ∨ signalling s.pc i = true) ∧
    ((s.w i).idle = true ∨ signalling s.pc i = true) ∧
    ((s.w i).exit = false ∨ exSignalling s.pc i = true)
  bt : ∀ i, idleWay (s.w i).pc = true → (s.w i).queue = [] → (s.w i).idle = true
  rn : ∀ i, (s.w i).run = true ↔ early (s.w i).pc = false
  er : ∀ i, (s.w i).error = true → early (s.w i).pc = false
  ad : ∀ i, adding s.pc i = true ∨ signalling s.pc i = true → (s.w i).queue ≠ []
  nn : ∀ i, (s.w i).pc = .none → (s.w i).queue = []
  su : startup s.pc = true → ∀ i, (s.w i).queue = [] ∧ (s.w i).loc = [] ∧ inFn (s.w i).pc = false

theorem invB_init (n : Nat) (prog : List Op) : InvB (init n prog) := by
  constructor <;> simp [init, Wk.fresh, hasLoc, idleWay, early, adding, signalling, inFn]

@[grind =] theorem wakeMain_adding (p : MPc) (i : Nat) : adding (wakeMain p) i = adding p i := by
  cases p <;> rfl
@[grind =] theorem wakeMain_signalling (p : MPc) (i : Nat) : signalling (wakeMain p) i = signalling p i := by
  cases p <;> rfl
@[grind =] theorem wakeMain_exSignalling (p : MPc) (i : Nat) :
    exSignalling (wakeMain p) i = exSignalling p i := by
  cases p <;> rfl
@[grind =] theorem wakeMain_startup (p : MPc) : startup (wakeMain p) = startup p := by
  cases p <;> rfl
@[grind =] theorem wakeWk_hasLoc (p : WPc) (h : hasLoc (wakeWk p) = false) : hasLoc p = false := by
  cases p <;> simp_all [wakeWk, hasLoc]

theorem adding_mh {p : MPc} {i : Nat} (h : adding p i = true) : mh p i = true := by
  cases p <;> simp_all [adding, mh]
theorem signalling_mh {p : MPc} {i : Nat} (h : signalling p i = true) : mh p i = true := by
  cases p <;> simp_all [signalling, mh]
theorem exSignalling_mh {p : MPc} {i : Nat} (h : exSignalling p i = true) : mh p i = true := by
  cases p <;> simp_all [exSignalling, mh]

set_option maxHeartbeats 4000000 in
theorem invB_wstep {n : Nat} {s s' : St} {i : Nat} {c : Bool} (hA : InvA n s) (h : InvB s)
    (hs : wstep s i c = some s') : InvB s' := by
  obtain ⟨loc, idl, wt, bt, rn, er, ad, nn, su⟩ := h
  have lkM := hA.lkM i
  have lkW := hA.lkW i i
  have a1 := @adding_mh s.pc i
  have a2 := @signalling_mh s.pc i
  have a3 := @exSignalling_mh s.pc i
  unfold wstep at hs
  simp only at hs
  split at hs <;> (try split at hs) <;> (try split at hs) <;> (try split at hs) <;>
    simp only [Option.some.injEq, reduceCtorEq] at hs <;> (try subst hs) <;>
    (constructor <;> simp only [setW, emit, upd] <;> try (byw i))

@[grind =] theorem wakeWk_inFn (p : WPc) : inFn (wakeWk p) = inFn p := by cases p <;> rfl
@[grind =] theorem wakeWk_early (p : WPc) : early (wakeWk p) = early p := by cases p <;> rfl
@[grind =] theorem wakeWk_idleWay (p : WPc) : idleWay (wakeWk p) = idleWay p := by cases p <;> rfl
@[grind] theorem wakeWk_waiting (p : WPc) : wakeWk p ≠ .waiting := by cases p <;> simp [wakeWk]
@[grind] theorem hasLoc_wakeWk (p : WPc) (h : hasLoc p = true) : hasLoc (wakeWk p) = true := by
  cases p <;> simp_all [wakeWk, hasLoc]

set_option maxHeartbeats 4000000 in
theorem invB_mstep {n : Nat} {s s' : St} {c : Bool} (hA : InvA n s) (h : InvB s)
    (hs : mstep s c = some s') : InvB s' := by
  obtain ⟨loc, idl, wt, bt, rn, er, ad, nn, su⟩ := h
  have lkM := hA.lkM
  have crt := hA.crt
  have rg := hA.rg
  cases hp : s.pc <;> simp only [hp] at lkM idl wt ad crt rg su <;> simp only [mstep, hp] at hs <;>
    (try split at hs) <;> (try split at hs) <;> (try split at hs) <;>
    simp only [Option.some.injEq, reduceCtorEq] at hs <;> (try subst hs) <;>
    (constructor <;> simp only [setW, setPc, emit, upd] <;> try grind)
  case enqAdd.bt w k =>
    intro i h1 h2
    by_cases hi : i = k
    · subst hi; simp at h2
    · rw [if_neg hi] at h1 h2 ⊢; exact bt i h1 h2
  case enqAdd.ad w k =>
    intro i h1
    by_cases hi : i = k
    · subst hi; simp
    · exfalso
      have : k ≠ i := fun h => hi h.symm
      simp [adding, signalling, this] at h1
  case enqAdd.nn w k =>
    intro i h1
    by_cases hi : i = k
    · subst hi
      simp only [if_true] at h1
      exact absurd h1 ((crt i).2 rg)
    · rw [if_neg hi] at h1 ⊢; exact nn i h1

end Fio.Workq
