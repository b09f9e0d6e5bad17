import Verif.Workq.Model
/-
The invariants of the work queue.
-/
namespace Fio.Workq

/-- The caller holds the lock of worker `i`. -/
@[grind] def mh : MPc → Nat → Bool
  | .startSet k, i | .initHold k _ _, i | .enqAdd _ k, i | .enqSeq k, i | .enqIdle k, i | .enqSig k, i
  | .enqUnlock k, i | .exSet k, i | .exSig k, i | .exUnlock k, i | .shSet k _, i => k == i
  | _, _ => false

/-- The caller has `flush_lock`. -/
@[grind] def mf : MPc → Bool
  | .initScan .. | .initHold .. | .initChk .. | .initUnlock .. | .flSet | .flScan .. | .flClear
  | .flUnlock => true
  | _ => false

/-- The worker holds its lock. -/
@[grind] def wh : WPc → Bool
  | .setRun | .top | .mid | .setNext | .unlockIdle | .bottom | .unlockB | .leave => true
  | _ => false

/-- The worker has `flush_lock`. -/
@[grind] def wf : WPc → Bool
  | .startSig | .idleSig => true
  | _ => false

/-- How many workers were created. -/
@[grind] def created (pc : MPc) (maxw : Nat) : Nat :=
  match pc with
  | .start k => k
  | .startLock k | .startSet k => k + 1
  | _ => maxw

/-- The worker the caller is at exists. -/
@[grind] def rng (pc : MPc) (maxw : Nat) : Prop :=
  match pc with
  | .start k => k ≤ maxw
  | .startLock k | .startSet k | .initHold k _ _ | .pick _ (some k) | .pickSet _ k | .enqLock _ k
  | .enqAdd _ k | .enqSeq k | .enqIdle k | .enqSig k | .enqUnlock k
  | .exSet k | .exSig k | .exUnlock k | .shLock k _ | .shSet k _ | .shJoin k _ => k < maxw
  | .scan1 _ i nxt best => nxt ≤ i ∧ i ≤ maxw ∧ nxt < maxw ∧ (∀ b, best = some b → b < maxw) ∧
      (nxt < i → best ≠ none)
  | .scan2 _ i nxt best => i ≤ nxt ∧ 0 < nxt ∧ nxt < maxw ∧ (∀ b, best = some b → b < maxw) ∧ best ≠ none
  | .initScan k _ _ | .flScan k => k ≤ maxw ∧ 0 < maxw
  | .exLock k | .shScan k _ => k ≤ maxw
  | .initFlush | .initChk .. | .initWait .. | .initWoken .. | .initUnlock .. | .next | .flLock | .flSet
  | .flWait | .flWoken | .flClear | .flUnlock => 0 < maxw
  | .pick _ none | .crashed => False
  | .shEnd _ | .fin => True

/-- Locks, indices, creation. -/
structure InvA (n : Nat) (s : St) : Prop where
  lkM : ∀ i, (s.w i).lock = some .main ↔ mh s.pc i = true
  lkW : ∀ i j, (s.w i).lock = some (.wk j) ↔ (j = i ∧ wh (s.w i).pc = true)
  flM : s.flock = some .main ↔ mf s.pc = true
  flW : ∀ i, s.flock = some (.wk i) ↔ wf (s.w i).pc = true
  crt : ∀ i, (s.w i).pc ≠ .none ↔ i < created s.pc s.maxw
  rg : rng s.pc s.maxw
  mx : s.maxw ≤ n
  nf : s.nfw = 0 ∨ s.nfw < created s.pc s.maxw
  nz : created s.pc s.maxw ≤ s.maxw

theorem invA_init (n : Nat) (prog : List Op) : InvA n (init n prog) := by
  constructor <;> simp [init, Wk.fresh, mh, wh, mf, wf, created, rng]

@[grind =] theorem wakeMain_mh (p : MPc) (i : Nat) : mh (wakeMain p) i = mh p i := by
  cases p <;> rfl
@[grind =] theorem wakeMain_mf (p : MPc) : mf (wakeMain p) = mf p := by cases p <;> rfl
@[grind =] theorem wakeMain_created (p : MPc) (m : Nat) : created (wakeMain p) m = created p m := by
  cases p <;> rfl
@[grind =] theorem wakeMain_rng (p : MPc) (m : Nat) : rng (wakeMain p) m ↔ rng p m := by
  cases p <;> simp [wakeMain, rng]
@[grind =] theorem wakeWk_wh (p : WPc) : wh (wakeWk p) = wh p := by cases p <;> rfl
@[grind =] theorem wakeWk_wf (p : WPc) : wf (wakeWk p) = wf p := by cases p <;> rfl
@[grind =] theorem wakeWk_none (p : WPc) : wakeWk p = .none ↔ p = .none := by cases p <;> simp [wakeWk]

theorem better_ne (s : St) (i : Nat) (b : Option Nat) : better s i b ≠ none := by
  unfold better; split
  · simp
  · split <;> simp
theorem better_lt (s : St) (i m : Nat) (b : Option Nat) (hi : i < m) (hb : ∀ x, b = some x → x < m) :
    ∀ x, better s i b = some x → x < m := by
  unfold better; split
  · grind
  · split <;> grind

theorem upd_self (f : Nat → Wk) (i : Nat) (x : Wk) : upd f i x i = x := by simp [upd]
theorem upd_other (f : Nat → Wk) (i j : Nat) (x : Wk) (h : j ≠ i) : upd f i x j = f j := by
  simp [upd, h]

/-- Goals about all workers: worker `i` and the others. -/
macro "byw" i:term : tactic => `(tactic|
  first
  | grind
  | (intro a; by_cases ha : a = $i <;> simp only [ha, if_true, if_false] <;> grind))

set_option maxHeartbeats 4000000 in
theorem invA_wstep {n : Nat} {s s' : St} {i : Nat} {c : Bool} (h : InvA n s)
    (hs : wstep s i c = some s') : InvA n s' := by
  obtain ⟨lkM, lkW, flM, flW, crt, rg, mx, nf, nz⟩ := h
  have lkM' := lkM i
  have lkW' := lkW i
  have flW' := flW i
  have crt' := crt i
  unfold wstep at hs
  simp only at hs
  split at hs <;> (try split at hs) <;> (try split at hs) <;> (try split at hs) <;>
    simp only [Option.some.injEq, reduceCtorEq] at hs <;> (try subst hs) <;>
    (constructor <;> simp only [setW, emit, upd] <;> byw i)

set_option maxHeartbeats 4000000 in
theorem invA_mstep {n : Nat} {s s' : St} {c : Bool} (h : InvA n s)
    (hs : mstep s c = some s') : InvA n s' := by
  obtain ⟨lkM, lkW, flM, flW, crt, rg, mx, nf, nz⟩ := h
  cases hp : s.pc <;> rw [hp] at lkM flM crt rg nf nz <;> simp only [mstep, hp] at hs <;>
    (try split at hs) <;> (try split at hs) <;> (try split at hs) <;> 
    simp only [Option.some.injEq, reduceCtorEq] at hs <;> (try subst hs) <;>
    (constructor <;> simp only [setW, setPc, emit, upd] <;> try grind)
  · obtain ⟨h1, h2, h3, h4, h5⟩ := rg
    exact ⟨by omega, by omega, h3, better_lt _ _ _ _ (by omega) h4, fun _ => better_ne _ _ _⟩
  · obtain ⟨h1, h2, h3, h4, h5⟩ := rg
    rename_i best _ _
    cases hb : best with
    | none => exact absurd hb (h5 (by omega))
    | some b => exact h4 b hb
  · obtain ⟨h1, h2, h3, h4, h5⟩ := rg
    exact ⟨by omega, h2, h3, better_lt _ _ _ _ (by omega) h4, better_ne _ _ _⟩
  · obtain ⟨h1, h2, h3, h4, h5⟩ := rg
    rename_i best _
    cases hb : best with
    | none => exact absurd hb h5
    | some b => exact h4 b hb

end Fio.Workq
