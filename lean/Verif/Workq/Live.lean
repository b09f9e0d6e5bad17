import Verif.Workq.Inv
namespace Fio.Workq

/-! ### Some thread can go on -/

/-- A thread can make a step. -/
def Enabled (s : St) : Prop := ∃ t c s', step s (.run t c) = some s'

theorem holder_enabled {s : St} {i : Nat} (h : wh (s.w i).pc = true ∨ wf (s.w i).pc = true) : Enabled s := by
  refine ⟨.wk i, true, ?_⟩
  simp only [step, wstep]
  cases hp : (s.w i).pc <;> rw [hp] at h <;> simp [wh, wf] at h <;> simp only
  all_goals first
    | exact ⟨_, rfl⟩
    | (repeat' split) <;> exact ⟨_, rfl⟩

theorem mh_enabled {s : St} {i : Nat} (h : mh s.pc i = true) : Enabled s := by
  refine ⟨.main, true, ?_⟩
  simp only [step, mstep]
  cases hp : s.pc <;> rw [hp] at h <;> simp [mh] at h <;> exact ⟨_, rfl⟩

theorem lock_enabled {n : Nat} {s : St} (hA : InvA n s) {i : Nat} (h : (s.w i).lock ≠ none) : Enabled s := by
  cases hl : (s.w i).lock with
  | none => exact absurd hl h
  | some t =>
    cases t with
    | main => exact mh_enabled ((hA.lkM i).1 hl)
    | wk j => exact holder_enabled (Or.inl ((hA.lkW i j).1 hl).2)

theorem mf_enabled {n : Nat} {s : St} (hA : InvA n s) (h : mf s.pc = true) : Enabled s := by
  have key : ∀ i, (s.w i).lock ≠ none → Enabled s := fun i => lock_enabled hA
  cases hp : s.pc <;> rw [hp] at h <;> simp [mf] at h
  case initScan i r e =>
    by_cases hl : (s.w i).lock = none
    · refine ⟨.main, true, ?_⟩
      simp only [step, mstep, hp, hl]
      split <;> exact ⟨_, rfl⟩
    · exact key i hl
  all_goals
    refine ⟨.main, true, ?_⟩
    simp only [step, mstep, hp]
    first
    | exact ⟨_, rfl⟩
    | (repeat' split) <;> exact ⟨_, rfl⟩

theorem flock_enabled {n : Nat} {s : St} (hA : InvA n s) (h : s.flock ≠ none) : Enabled s := by
  cases hl : s.flock with
  | none => exact absurd hl h
  | some t =>
    cases t with
    | main => exact mf_enabled hA (hA.flM.1 hl)
    | wk j => exact holder_enabled (Or.inr ((hA.flW j).1 hl))

theorem wk_enabled {n : Nat} {s : St} (hA : InvA n s) {i : Nat} (h1 : (s.w i).pc ≠ .none)
    (h2 : (s.w i).pc ≠ .waiting) (h3 : (s.w i).pc ≠ .done) : Enabled s := by
  by_cases hl : (s.w i).lock = none
  · by_cases hf : s.flock = none
    · refine ⟨.wk i, true, ?_⟩
      simp only [step, wstep, hl, hf]
      cases hp : (s.w i).pc <;> rw [hp] at h1 h2 h3 <;> simp only [ne_eq, not_true_eq_false] at h1 h2 h3 <;>
        simp only
      all_goals first
        | exact ⟨_, rfl⟩
        | (repeat' split) <;> exact ⟨_, rfl⟩
    · exact flock_enabled hA hf
  · exact lock_enabled hA hl

theorem enabled_of_inv {n : Nat} {prog0 : List Op} {s : St} (h : Inv n prog0 s) (hfin : s.pc ≠ .fin) :
    Enabled s := by
  have hA := h.a
  have key : ∀ i, (s.w i).lock ≠ none → Enabled s := fun i => lock_enabled hA
  have keyF : s.flock ≠ none → Enabled s := flock_enabled hA
  have rg := hA.rg
  have ex := h.c.exi
  by_cases hfl : s.flock = none
  case neg => exact keyF hfl
  cases hp : s.pc
  case fin => exact absurd hp hfin
  case crashed => rw [hp] at rg; exact rg.elim
  case initWait e =>
    have rs := h.e.rs
    rw [reason, hp] at rs
    obtain ⟨j, hj, hs⟩ := rs
    apply wk_enabled hA (i := j) <;> intro hq <;> rw [hq] at hs <;> simp [preSig] at hs
  case flWait =>
    have rs := h.e.rs
    rw [reason, hp] at rs
    obtain ⟨j, hj, hs⟩ := rs
    apply wk_enabled hA (i := j)
    · exact (hA.crt j).2 (by rw [hp]; exact hj)
    · intro hq
      have := (h.b.wt j hq).2.1
      rw [hp] at this
      rw [hq] at hs
      simp [signalling, idleSet] at this hs
      rw [hs] at this; simp at this
    · intro hq
      have e1 := h.c.dn j hq
      have e2 := (ex j)
      rw [hp] at e2
      have e3 := h.c.rdy (by rw [hp]; rfl) j hj
      simp [exited] at e2
      simp [e2, e3.2] at e1
  case shJoin k cnt =>
    rw [hp] at rg
    by_cases hd : (s.w k).pc = .done
    · refine ⟨.main, true, ?_⟩
      simp only [step, mstep, hp, hd, if_true]
      exact ⟨_, rfl⟩
    · apply wk_enabled hA (i := k) _ _ hd
      · exact (hA.crt k).2 (by rw [hp]; exact rg)
      · intro hq
        have := (h.b.wt k hq).2.2
        have e2 := (ex k)
        rw [hp] at this e2
        have e3 := e2.2 rg
        simp [exSignalling, e3] at this
  case startLock i =>
    by_cases hl : (s.w i).lock = none
    · refine ⟨.main, true, ?_⟩
      simp only [step, mstep, hp, hl]
      exact ⟨_, rfl⟩
    · exact key i hl
  case initScan i r e =>
    by_cases hl : (s.w i).lock = none
    · refine ⟨.main, true, ?_⟩
      simp only [step, mstep, hp, hl]
      split <;> exact ⟨_, rfl⟩
    · exact key i hl
  case enqLock w i =>
    by_cases hl : (s.w i).lock = none
    · refine ⟨.main, true, ?_⟩
      simp only [step, mstep, hp, hl]
      exact ⟨_, rfl⟩
    · exact key i hl
  case exLock i =>
    by_cases hl : (s.w i).lock = none
    · refine ⟨.main, true, ?_⟩
      simp only [step, mstep, hp, hl]
      split <;> exact ⟨_, rfl⟩
    · exact key i hl
  case shLock i cnt =>
    by_cases hl : (s.w i).lock = none
    · refine ⟨.main, true, ?_⟩
      simp only [step, mstep, hp, hl]
      exact ⟨_, rfl⟩
    · exact key i hl
  all_goals
    refine ⟨.main, true, ?_⟩
    simp only [step, mstep, hp, hfl]
    first
    | exact ⟨_, rfl⟩
    | (repeat' split) <;> exact ⟨_, rfl⟩

/-! ### Every run comes to an end -/

/-- What a sleeping caller may do after being woken. -/
def slack (n : Nat) : Nat := 2 * n + 20

/-- How far a worker is from sleeping. -/
@[grind] def wrank (S : Nat) : WPc → Nat
  | .none => 0
  | .done => 0
  | .leave => 1
  | .waiting => 1
  | .bottom => 2
  | .relock => 3
  | .idleSig => S + 4
  | .idleFlush => S + 5
  | .unlockIdle => S + 6
  | .setNext => S + 7
  | .mid => 4
  | .preSleep => 5
  | .top => 6
  | .lockTop => 7
  | .acct => 8
  | .handle => 9
  | .running _ => 10
  | .unlockB => 10
  | .woken => 11
  | .chkErr => 8
  | .startSig => S + 9
  | .startFlush => S + 10
  | .setRun => S + 11
  | .initLock => S + 12

/-- The steps a worker may still make. -/
def wpot (S : Nat) (x : Wk) : Nat :=
  if x.pc = .none then 0
  else wrank S x.pc + 3 * x.loc.length + 20 * x.queue.length + (if x.idle then 0 else S + 10)

/-- The steps the program of the caller may still take. -/
def ppot (n : Nat) : List Op → Nat
  | [] => 0
  | .enqueue _ :: p => 4 * n + 80 + ppot n p
  | .flush :: p => n + 9 + ppot n p

/-- The steps the caller may still make. -/
@[grind] def mrank (n m : Nat) (P : Nat) : MPc → Nat
  | .fin | .crashed => 0
  | .shEnd _ => 1
  | .shScan k _ => 5 * (m - k) + 2
  | .shLock k _ => 5 * (m - (k + 1)) + 6
  | .shSet k _ => 5 * (m - (k + 1)) + 5
  | .shJoin k _ => 5 * (m - (k + 1)) + 4
  | .exLock k => 5 * m + 3 + 20 * (m - k)
  | .exSet k => 5 * m + 3 + 20 * (m - (k + 1)) + 19
  | .exSig k => 5 * m + 3 + 20 * (m - (k + 1)) + 18
  | .exUnlock k => 5 * m + 3 + 20 * (m - (k + 1)) + 7
  | .next => 25 * m + 4 + P
  | .flUnlock => 25 * m + 4 + P + 1
  | .flClear => 25 * m + 4 + P + 2
  | .flWait => 25 * m + 4 + P + 3
  | .flScan k => 25 * m + 4 + P + 4 + (m - k)
  | .flWoken => 25 * m + 4 + P + 5 + m
  | .flSet => 25 * m + 4 + P + 6 + m
  | .flLock => 25 * m + 4 + P + 7 + m
  | .enqUnlock _ => 25 * m + 4 + P + 1
  | .enqSig _ => 25 * m + 4 + P + 12
  | .enqIdle _ => 25 * m + 4 + P + slack n + 23
  | .enqSeq _ => 25 * m + 4 + P + slack n + 24
  | .enqAdd .. => 25 * m + 4 + P + slack n + 45
  | .enqLock .. => 25 * m + 4 + P + slack n + 46
  | .pickSet .. => 25 * m + 4 + P + slack n + 47
  | .pick .. => 25 * m + 4 + P + slack n + 48
  | .scan2 _ i _ _ => 25 * m + 4 + P + slack n + 49 + (m - i)
  | .scan1 _ i _ _ => 25 * m + 4 + P + slack n + 50 + m + (m - i)
  | .initUnlock _ => 25 * m + 4 + P + 1
  | .initWait _ => 25 * m + 4 + P + 2
  | .initChk .. => 25 * m + 4 + P + 3
  | .initScan k _ _ => 25 * m + 4 + P + 4 + 2 * (m - k)
  | .initHold k _ _ => 25 * m + 4 + P + 5 + 2 * (m - (k + 1))
  | .initWoken _ => 25 * m + 4 + P + 5 + 2 * m
  | .initFlush => 25 * m + 4 + P + 5 + 2 * m
  | .start k => 27 * n + 10 + P + (n - k) * (4 * n + 70)
  | .startLock k => 27 * n + 10 + P + (n - (k + 1)) * (4 * n + 70) + 2
  | .startSet k => 27 * n + 10 + P + (n - (k + 1)) * (4 * n + 70) + 1

/-- Sum over the first `k` workers. -/
def tot (f : Nat → Nat) : Nat → Nat
  | 0 => 0
  | k + 1 => tot f k + f k

theorem tot_congr {f g : Nat → Nat} : ∀ {k : Nat}, (∀ j, j < k → f j = g j) → tot f k = tot g k
  | 0, _ => rfl
  | k + 1, h => by
    simp only [tot]
    rw [tot_congr (fun j hj => h j (by omega)), h k (by omega)]

theorem tot_upd (S : Nat) (w : Nat → Wk) (i : Nat) (x : Wk) : ∀ {k : Nat}, i < k →
    tot (fun j => wpot S (upd w i x j)) k + wpot S (w i) = tot (fun j => wpot S (w j)) k + wpot S x
  | 0, h => by omega
  | k + 1, h => by
    simp only [tot]
    by_cases hi : i = k
    · subst hi
      rw [upd_self, tot_congr (f := fun j => wpot S (upd w i x j)) (g := fun j => wpot S (w j))]
      · omega
      · intro j hj; rw [upd_other _ _ _ _ (by omega)]
    · have := tot_upd S w i x (k := k) (by omega)
      rw [upd_other _ _ _ _ (fun h => hi h.symm)]
      omega

/-- The steps that may still be made. -/
def pot (n : Nat) (s : St) : Nat :=
  mrank n s.maxw (ppot n s.prog) s.pc + tot (fun j => wpot (slack n) (s.w j)) n

theorem wakeMain_rank (n m P : Nat) (p : MPc) (hm : m ≤ n) :
    mrank n m P (wakeMain p) ≤ mrank n m P p + slack n := by
  cases p <;> simp [wakeMain, mrank, slack] <;> omega

theorem pot_w {n : Nat} {s s' : St} {i : Nat} {x : Wk} (hi : i < n) (hw : s'.w = upd s.w i x)
    (hm : s'.maxw = s.maxw) (hp : s'.prog = s.prog)
    (h : mrank n s.maxw (ppot n s.prog) s'.pc + wpot (slack n) x + 1 ≤
      mrank n s.maxw (ppot n s.prog) s.pc + wpot (slack n) (s.w i)) : pot n s' + 1 ≤ pot n s := by
  have := tot_upd (slack n) s.w i x hi
  unfold pot
  rw [hw, hm, hp]
  omega

set_option maxHeartbeats 4000000 in
theorem pot_wstep {n : Nat} {prog0 : List Op} {s s' : St} {i : Nat} {c : Bool} (h : Inv n prog0 s)
    (hs : wstep s i c = some s') : pot n s' + 1 ≤ pot n s := by
  have hi : i < n := by
    have hp : (s.w i).pc ≠ .none := by
      intro hp; simp [wstep, hp] at hs
    have := (h.a.crt i).1 hp
    have := h.a.nz
    have := h.a.mx
    omega
  have hwm := wakeMain_rank n s.maxw (ppot n s.prog) s.pc h.a.mx
  have hq : (s.w i).queue ≠ [] → 0 < (s.w i).queue.length := by
    intro h; exact List.length_pos_iff.2 h
  unfold wstep at hs
  simp only at hs
  split at hs <;> (try split at hs) <;> (try split at hs) <;> (try split at hs) <;>
    simp only [Option.some.injEq, reduceCtorEq] at hs <;> (try subst hs) <;>
    (refine pot_w hi rfl rfl rfl ?_) <;> simp [setW, emit, wpot, wrank, *] <;>
    (try generalize (if (s.w i).idle = true then 0 else slack n + 10) = z at *) <;> (try grind)

theorem wakeWk_pot (n : Nat) (x : Wk) :
    wpot (slack n) { x with pc := wakeWk x.pc } ≤ wpot (slack n) x + 10 := by
  cases hp : x.pc <;> simp [wpot, wakeWk, hp, wrank] <;> omega

set_option maxHeartbeats 4000000 in
theorem pot_mstep {n : Nat} {prog0 : List Op} {s s' : St} {c : Bool} (h : Inv n prog0 s)
    (hs : mstep s c = some s') : pot n s' + 1 ≤ pot n s := by
  have hm := h.a.mx
  have rg := h.a.rg
  have sh := h.c.sh
  have crt := h.a.crt
  cases hp : s.pc <;> simp only [hp] at rg sh crt <;> simp only [mstep, hp] at hs <;>
    (try split at hs) <;> (try split at hs) <;> (try split at hs) <;>
    simp only [Option.some.injEq, reduceCtorEq] at hs <;> (try subst hs)
  all_goals first
    | (simp [pot, setPc, emit, mrank, hp, slack, rng, shut] at rg sh ⊢; omega)
    | (refine pot_w (by simp only [rng] at rg; omega) rfl rfl rfl ?_;
       simp [setW, setPc, emit, wpot, mrank, hp, slack, rng] at rg ⊢; grind)
    | skip
  case start.isTrue.isTrue i hi _ =>
    have hn : (s.w i).pc = .none := none_of h.a (by rw [hp]; simp [created])
    have e : n - i = (n - (i + 1)) + 1 := by omega
    refine pot_w (i := i) (by omega) rfl rfl rfl ?_
    have hq := h.b.nn i hn
    have hl := h.b.loc i (by rw [hn]; rfl)
    have e2 : (n - i) * (4 * n + 70) = (n - (i + 1)) * (4 * n + 70) + (4 * n + 70) := by
      rw [e, Nat.succ_mul]
    have e3 : wpot (slack n) (s.w i) = 0 := by simp [wpot, hn]
    have e4 : wpot (slack n) { s.w i with pc := .initLock } ≤ 4 * n + 62 := by
      simp [wpot, hq, hl, wrank, slack]
      split <;> omega
    rw [e3]
    simp only [setPc, setW, hp, mrank] at e4 ⊢
    rw [e2]
    omega
  case h_1.isTrue w rest _ he hn =>
    simp only [pot, hp, mrank, he, ppot, slack]; omega
  case h_2 rest he =>
    simp only [pot, hp, mrank, he, ppot]; omega
  case h_1 =>
    exact rg.elim
  case enqSig k =>
    refine pot_w (i := k) (by simp only [rng] at rg; omega) rfl rfl rfl ?_
    have := wakeWk_pot n (s.w k)
    simp only [setW, setPc, hp, mrank]
    omega
  case exSig k =>
    refine pot_w (i := k) (by simp only [rng] at rg; omega) rfl rfl rfl ?_
    have := wakeWk_pot n (s.w k)
    simp only [setW, setPc, hp, mrank]
    omega

/-- All steps. -/
theorem pot_step {n : Nat} {prog0 : List Op} {s s' : St} {a : Act} (h : Inv n prog0 s)
    (hs : step s a = some s') :
    pot n s' + 1 ≤ pot n s + (match a with | .run .. => 0 | .spurious _ => 2 * n + 21) := by
  have hm := h.a.mx
  cases a with
  | run t c =>
    cases t with
    | main => exact pot_mstep h hs
    | wk i => exact pot_wstep h hs
  | spurious t =>
    cases t with
    | main =>
      simp only [step] at hs
      split at hs
      · simp at hs
      · simp only [Option.some.injEq] at hs
        subst hs
        have := wakeMain_rank n s.maxw (ppot n s.prog) s.pc hm
        simp only [pot, setPc, slack] at this ⊢
        omega
    | wk i =>
      simp only [step] at hs
      split at hs
      · rename_i hw
        simp only [Option.some.injEq] at hs
        subst hs
        have hi : i < n := by
          have := (h.a.crt i).1 (by rw [hw]; simp)
          have := h.a.nz
          omega
        have := tot_upd (slack n) s.w i { s.w i with pc := .woken } hi
        have e : wpot (slack n) { s.w i with pc := .woken } ≤ wpot (slack n) (s.w i) + 10 := by
          simp [wpot, hw, wrank]; omega
        show mrank n s.maxw (ppot n s.prog) s.pc +
          tot (fun j => wpot (slack n) (upd s.w i { s.w i with pc := .woken } j)) n + 1 ≤
          mrank n s.maxw (ppot n s.prog) s.pc + tot (fun j => wpot (slack n) (s.w j)) n + (2 * n + 21)
        omega
      · simp at hs

/-- Spurious wakeups in an execution. -/
def spurious (as : List Act) : Nat :=
  as.countP fun | .run .. => false | .spurious _ => true

theorem pot_exec {n : Nat} {prog0 : List Op} {as : List Act} : ∀ {s s' : St}, Inv n prog0 s →
    exec s as = some s' →
    pot n s' + as.length ≤ pot n s + (2 * n + 21) * spurious as := by
  unfold spurious
  induction as with
  | nil => intro s s' _ hs; simp [exec] at hs; subst hs; simp
  | cons a as ih =>
    intro s s' h hs
    simp only [exec, Option.bind_eq_some_iff] at hs
    obtain ⟨s1, h1, h2⟩ := hs
    have e1 := pot_step h h1
    have e2 := ih (inv_step h h1) h2
    rw [List.countP_cons, List.length_cons]
    cases a <;> simp [Nat.mul_add] at e1 ⊢ <;> omega

theorem ppot_eq (n : Nat) : ∀ p : List Op,
    ppot n p = (4 * n + 80) * (works p).length + (n + 9) * flushes p
  | [] => by simp [ppot, works, flushes]
  | .enqueue w :: p => by
    rw [ppot, ppot_eq n p, works_enq, flushes_enq, List.length_cons, Nat.mul_succ]; omega
  | .flush :: p => by
    rw [ppot, ppot_eq n p, works_flush, flushes_flush, Nat.mul_succ]; omega

theorem tot_zero (f : Nat → Nat) : ∀ k, (∀ j, f j = 0) → tot f k = 0
  | 0, _ => rfl
  | k + 1, h => by simp only [tot]; rw [tot_zero f k h, h k]

theorem pot_init (n : Nat) (prog : List Op) : pot n (init n prog) =
    27 * n + 10 + ((4 * n + 80) * (works prog).length + (n + 9) * flushes prog) + n * (4 * n + 70) := by
  simp only [pot, init, mrank]
  rw [tot_zero _ _ (fun j => by simp [wpot, Wk.fresh]), ppot_eq]
  simp

end Fio.Workq
