import Verif.Workq.InvC
namespace Fio.Workq

/-- A worker that is going to signal `flush_cond` at line 156. -/
@[grind] def preSig : WPc → Bool
  | .initLock | .setRun | .startFlush => true
  | _ => false

/-- A worker that has set SW_F_IDLE and is going to signal `flush_cond` at line 189. -/
@[grind] def idleSet : WPc → Bool
  | .setNext | .unlockIdle | .idleFlush | .idleSig => true
  | _ => false

/-- Why the caller sleeps, and what it has seen. -/
@[grind] def reason (s : St) : Prop :=
  match s.pc with
  | .initScan i r _ | .initHold i r _ => r < i → ∃ j, j < i ∧ preSig (s.w j).pc = true
  | .initChk r _ => r < s.maxw → ∃ j, j < s.maxw ∧ preSig (s.w j).pc = true
  | .initWait _ => ∃ j, j < s.maxw ∧ (preSig (s.w j).pc = true ∨ (s.w j).pc = .startSig)
  | .flScan k => ∀ j, j < k → (s.w j).idle = true
  | .flClear | .flUnlock => ∀ j, j < s.maxw → (s.w j).idle = true
  | .flWait => ∃ j, j < s.maxw ∧ ((s.w j).idle = false ∨ idleSet (s.w j).pc = true)
  | _ => True

/-- Between lines 89 and 94. -/
@[grind] def wakes : MPc → Bool
  | .flScan _ | .flWait | .flWoken | .flClear => true
  | _ => false

structure InvE (s : St) : Prop where
  rs : reason s
  wi : s.wakeIdle = wakes s.pc

theorem invE_init (n : Nat) (prog : List Op) : InvE (init n prog) := by
  constructor <;> simp [init, reason, wakes]

@[grind =] theorem wakeMain_wakes (p : MPc) : wakes (wakeMain p) = wakes p := by cases p <;> rfl

theorem reason_mono {s s' : St} (h : reason s) (hm : s'.maxw = s.maxw) (hp : s'.pc = s.pc)
    (h1 : mf s.pc = true → ∀ j, preSig (s.w j).pc = true → preSig (s'.w j).pc = true)
    (h2 : (∃ e, s.pc = .initWait e) → ∀ j, preSig (s.w j).pc = true ∨ (s.w j).pc = .startSig →
      preSig (s'.w j).pc = true ∨ (s'.w j).pc = .startSig)
    (h3 : ∀ j, (s.w j).idle = true → (s'.w j).idle = true)
    (h4 : s.pc = .flWait → ∀ j, (s.w j).idle = false ∨ idleSet (s.w j).pc = true →
      (s'.w j).idle = false ∨ idleSet (s'.w j).pc = true) : reason s' := by
  unfold reason at h ⊢
  rw [hp, hm]
  cases hq : s.pc <;> simp only [hq] at h h1 h2 h4 ⊢
  case initScan i r e => intro hr; obtain ⟨j, hj, h⟩ := h hr; exact ⟨j, hj, h1 rfl j h⟩
  case initHold i r e => intro hr; obtain ⟨j, hj, h⟩ := h hr; exact ⟨j, hj, h1 rfl j h⟩
  case initChk r e => intro hr; obtain ⟨j, hj, h⟩ := h hr; exact ⟨j, hj, h1 rfl j h⟩
  case initWait e => obtain ⟨j, hj, h⟩ := h; exact ⟨j, hj, h2 ⟨_, rfl⟩ j h⟩
  case flScan k => exact fun j hj => h3 j (h j hj)
  case flClear => exact fun j hj => h3 j (h j hj)
  case flUnlock => exact fun j hj => h3 j (h j hj)
  case flWait => obtain ⟨j, hj, h⟩ := h; exact ⟨j, hj, h4 trivial j h⟩

theorem reason_wake {s' : St} {p : MPc} (hp : s'.pc = wakeMain p) (hne : wakeMain p ≠ p) : reason s' := by
  unfold reason
  rw [hp]
  cases p <;> simp_all [wakeMain]

theorem wakeMain_id {p : MPc} (h : wakeMain p = p) : (∀ e, p ≠ .initWait e) ∧ p ≠ .flWait := by
  cases p <;> simp_all [wakeMain]

set_option maxHeartbeats 4000000 in
theorem invE_wstep {n : Nat} {s s' : St} {i : Nat} {c : Bool} (hA : InvA n s)
    (h : InvE s) (hs : wstep s i c = some s') : InvE s' := by
  obtain ⟨rs, wi⟩ := h
  have flM := hA.flM
  have flW := hA.flW i
  have hwk : s.pc = .flWait → s.wakeIdle = true := by intro h; rw [wi, h]; rfl
  have cm : ∀ s', s'.maxw = s.maxw → (s'.pc = s.pc ∨ s'.pc = wakeMain s.pc) →
    (mf s.pc = true → ∀ j, preSig (s.w j).pc = true → preSig (s'.w j).pc = true) →
    (s'.pc = s.pc → (∃ e, s.pc = .initWait e) → ∀ j, preSig (s.w j).pc = true ∨ (s.w j).pc = .startSig →
      preSig (s'.w j).pc = true ∨ (s'.w j).pc = .startSig) →
    (∀ j, (s.w j).idle = true → (s'.w j).idle = true) →
    (s'.pc = s.pc → s.pc = .flWait → ∀ j, (s.w j).idle = false ∨ idleSet (s.w j).pc = true →
      (s'.w j).idle = false ∨ idleSet (s'.w j).pc = true) → reason s' := by
    intro s' h1 h2 h3 h4 h5 h6
    by_cases hq : s'.pc = s.pc
    · exact reason_mono rs h1 hq h3 (h4 hq) h5 (h6 hq)
    · rcases h2 with h2 | h2
      · exact absurd h2 hq
      · exact reason_wake h2 (fun h => hq (h2.trans h))
  have wm := @wakeMain_id s.pc
  clear rs
  unfold wstep at hs
  simp only at hs
  split at hs <;> (try split at hs) <;> (try split at hs) <;> (try split at hs) <;>
    simp only [Option.some.injEq, reduceCtorEq] at hs <;> (try subst hs) <;>
    (constructor
     · refine cm _ rfl ?_ ?_ ?_ ?_ ?_ <;> simp only [setW, emit, upd] <;> grind
     · simp only [setW, emit, upd] <;> grind)

set_option maxHeartbeats 4000000 in
theorem invE_mstep {n : Nat} {s s' : St} {c : Bool} (hA : InvA n s) (hB : InvB s) (hC : InvC s)
    (h : InvE s) (hs : mstep s c = some s') : InvE s' := by
  obtain ⟨rs, wi⟩ := h
  have rg := hA.rg
  have crt := hA.crt
  have rn := hB.rn
  have flM := hA.flM
  have flW := hA.flW
  have ini := hC.ini
  unfold reason at rs
  unfold counted at ini
  cases hp : s.pc <;> simp only [hp] at rs wi rg crt flM ini <;> simp only [mstep, hp] at hs <;>
    (try split at hs) <;> (try split at hs) <;> (try split at hs) <;>
    simp only [Option.some.injEq, reduceCtorEq] at hs <;> (try subst hs) <;>
    (constructor <;> simp only [setW, setPc, emit, upd, reason] <;> try grind)
  all_goals
    rename_i k r e h1 h2
    intro _
    refine ⟨k, by omega, ?_⟩
    have e1 : early (s.w k).pc = true := by
      have := rn k
      cases he : early (s.w k).pc
      · exact absurd (this.2 he) h1
      · rfl
    have e2 := (crt k).2 rg
    rw [if_pos rfl]
    show preSig (s.w k).pc = true
    revert e1 e2
    cases (s.w k).pc <;> simp [early, preSig]

end Fio.Workq
