import Verif.Workq.InvB
namespace Fio.Workq

/-- The caller is between workqueue_init and workqueue_exit. -/
@[grind] def ready : MPc → Bool
  | .next | .scan1 .. | .scan2 .. | .pick .. | .pickSet .. | .enqLock .. | .enqAdd .. | .enqSeq _
  | .enqIdle _ | .enqSig _ | .enqUnlock _ | .flLock | .flSet | .flScan _ | .flWait | .flWoken | .flClear
  | .flUnlock => true
  | _ => false

/-- What the loop of workqueue_init has counted. -/
@[grind] def counted (s : St) : Prop :=
  match s.pc with
  | .initScan i r e | .initHold i r e =>
    r ≤ i ∧ (e = 0 → r = i → ∀ j, j < i → (s.w j).run = true ∧ (s.w j).error = false)
  | .initChk r e =>
    r ≤ s.maxw ∧ (e = 0 → r = s.maxw → ∀ j, j < s.maxw → (s.w j).run = true ∧ (s.w j).error = false)
  | .initUnlock e => e = 0 → ∀ j, j < s.maxw → (s.w j).run = true ∧ (s.w j).error = false
  | .initWait e | .initWoken e => e = 0
  | _ => True

/-- SW_F_EXIT was set for worker `i`. -/
@[grind] def exited (pc : MPc) (maxw i : Nat) : Prop :=
  match pc with
  | .exLock k | .exSet k => i < k
  | .exSig k | .exUnlock k => i ≤ k
  | .shScan .. | .shLock .. | .shSet .. | .shJoin .. | .shEnd _ | .fin => i < maxw
  | _ => False

/-- SW_F_ACCOUNTED was set for worker `i`. -/
@[grind] def accd (pc : MPc) (maxw i : Nat) : Prop :=
  match pc with
  | .shScan k _ | .shLock k _ | .shSet k _ => i < k
  | .shJoin k _ => i ≤ k
  | .shEnd _ | .fin => i < maxw
  | _ => False

/-- Worker `i` was joined. -/
@[grind] def joined (pc : MPc) (maxw i : Nat) : Prop :=
  match pc with
  | .shScan k _ | .shLock k _ | .shSet k _ | .shJoin k _ => i < k
  | .shEnd _ | .fin => i < maxw
  | _ => False

/-- The variable `shutdown`. -/
@[grind] def shut (pc : MPc) (maxw : Nat) : Prop :=
  match pc with
  | .shScan k c | .shLock k c | .shSet k c | .shJoin k c => c = k
  | .shEnd c => c = maxw
  | _ => True

/-- Start and end of the workers. -/
structure InvC (s : St) : Prop where
  rdy : ready s.pc = true → ∀ i, i < s.maxw → (s.w i).run = true ∧ (s.w i).error = false
  ini : counted s
  exi : ∀ i, (s.w i).exit = true ↔ exited s.pc s.maxw i
  lv : ∀ i, (s.w i).pc = .leave → (s.w i).queue = [] ∧ (s.w i).exit = true
  dn : ∀ i, (s.w i).pc = .done → (s.w i).queue = [] ∧ ((s.w i).exit = true ∨ (s.w i).error = true)
  eq : ∀ i, early (s.w i).pc = true ∨ (s.w i).error = true → (s.w i).queue = []
  acc : ∀ i, (s.w i).accounted = true ↔ accd s.pc s.maxw i
  jn : ∀ i, joined s.pc s.maxw i → (s.w i).pc = .done
  sh : shut s.pc s.maxw

theorem invC_init (n : Nat) (prog : List Op) : InvC (init n prog) := by
  constructor <;> simp [init, Wk.fresh, ready, counted, exited, accd, joined, shut]

@[grind =] theorem wakeMain_ready (p : MPc) : ready (wakeMain p) = ready p := by cases p <;> rfl
@[grind =] theorem wakeMain_exited (p : MPc) (m i : Nat) : exited (wakeMain p) m i ↔ exited p m i := by
  cases p <;> simp [wakeMain, exited]
@[grind =] theorem wakeMain_accd (p : MPc) (m i : Nat) : accd (wakeMain p) m i ↔ accd p m i := by
  cases p <;> simp [wakeMain, accd]
@[grind =] theorem wakeMain_joined (p : MPc) (m i : Nat) : joined (wakeMain p) m i ↔ joined p m i := by
  cases p <;> simp [wakeMain, joined]
@[grind =] theorem wakeMain_shut (p : MPc) (m : Nat) : shut (wakeMain p) m ↔ shut p m := by
  cases p <;> simp [wakeMain, shut]

/-- `counted` only depends on the caller, `maxw`, and SW_F_RUNNING without SW_F_ERROR. -/
theorem counted_mono {s s' : St} (h : counted s) (hm : s'.maxw = s.maxw)
    (hp : s'.pc = s.pc ∨ s'.pc = wakeMain s.pc)
    (hw : ∀ j, (s.w j).run = true → (s.w j).error = false →
      (s'.w j).run = true ∧ (s'.w j).error = false) : counted s' := by
  unfold counted at h ⊢
  rcases hp with hp | hp <;> rw [hp] <;> cases hq : s.pc <;> simp only [hq, wakeMain] at h ⊢ <;> grind

set_option maxHeartbeats 4000000 in
theorem invC_wstep {n : Nat} {s s' : St} {i : Nat} {c : Bool} (hA : InvA n s) (hB : InvB s) (h : InvC s)
    (hs : wstep s i c = some s') : InvC s' := by
  obtain ⟨rdy, ini, exi, lv, dn, eq, acc, jn, sh⟩ := h
  have er := hB.er i
  have rn := hB.rn i
  have hloc := hB.loc i
  have cm : ∀ s', s'.maxw = s.maxw → (s'.pc = s.pc ∨ s'.pc = wakeMain s.pc) →
    (∀ j, (s.w j).run = true → (s.w j).error = false →
      (s'.w j).run = true ∧ (s'.w j).error = false) → counted s' := fun s' h1 h2 h3 =>
    counted_mono ini h1 h2 h3
  clear ini
  unfold wstep at hs
  simp only at hs
  split at hs <;> (try split at hs) <;> (try split at hs) <;> (try split at hs) <;>
    simp only [Option.some.injEq, reduceCtorEq] at hs <;> (try subst hs) <;>
    (constructor <;> first
      | (refine cm _ rfl ?_ ?_ <;> simp only [setW, emit, upd] <;> grind)
      | (simp only [setW, emit, upd] <;> try (byw i)))

@[grind] theorem wakeWk_ld (p : WPc) (h : wakeWk p = .leave ∨ wakeWk p = .done) : wakeWk p = p := by
  cases p <;> simp_all [wakeWk]
@[grind] theorem wakeWk_done : wakeWk .done = .done := rfl

/-- After a flag access of the caller. -/
theorem counted_of {s : St} {p : MPc} (hp : s.pc = p)
    (h : counted { s with pc := p }) : counted s := by
  rw [← hp] at h; exact h

set_option maxHeartbeats 4000000 in
theorem invC_mstep {n : Nat} {s s' : St} {c : Bool} (hA : InvA n s) (hB : InvB s) (h : InvC s)
    (hs : mstep s c = some s') : InvC s' := by
  obtain ⟨rdy, ini, exi, lv, dn, eq, acc, jn, sh⟩ := h
  have rg := hA.rg
  have crt := hA.crt
  have rn := hB.rn
  have su := hB.su
  unfold counted at ini
  cases hp : s.pc <;> simp only [hp] at rdy ini exi acc jn sh rg crt su <;> simp only [mstep, hp] at hs <;>
    (try split at hs) <;> (try split at hs) <;> (try split at hs) <;>
    simp only [Option.some.injEq, reduceCtorEq] at hs <;> (try subst hs) <;>
    (constructor <;> simp only [setW, setPc, emit, upd, counted] <;> try grind)

end Fio.Workq
