import Verif.Jobs.Progress
namespace Fio.Jobs

variable {c : Cfg} {s s' : St}

/-! ### Runs that can be computed, for examples -/

/-- `Kept`, computed. -/
def keptB (s : St) : Act → Bool
  | .semTimeout => false
  | .stuck _ => false
  | .term j => decide ((s.job j).rs ≠ .notCreated)
  | _ => true

/-- `Calm`, computed. -/
def calmB (_ : St) : Act → Bool
  | .semTimeout => false
  | .stuck _ => false
  | _ => true

/-- A sequence of steps that are allowed. -/
def runsB (c : Cfg) (b : St → Act → Bool) : St → List Act → Option St
  | s, [] => some s
  | s, a :: as => if b s a then match step c s a with
    | none => none
    | some s' => runsB c b s' as
    else none

theorem runsB_steps {P : St → Act → Prop} {b : St → Act → Bool} (hb : ∀ s a, b s a = true → P s a) {s0 : St} :
    ∀ {as : List Act} {s s' : St}, Steps c P s0 s → runsB c b s as = some s' → Steps c P s0 s'
  | [], _, _, hr, h => by injection h with h; subst h; exact hr
  | a :: as, s, s', hr, h => by
    rw [runsB] at h
    split at h
    · next hba =>
      cases hs : step c s a with
      | none => rw [hs] at h; cases h
      | some s1 => rw [hs] at h; exact runsB_steps hb (.step a hr (hb _ _ hba) hs) h
    · cases h

theorem runsB_reach {P : St → Act → Prop} {b : St → Act → Bool} (hb : ∀ s a, b s a = true → P s a)
    {as : List Act} {s' : St} (h : runsB c b (init c) as = some s') : Reach c P s' :=
  steps_reach .init (runsB_steps hb .refl h)

theorem keptB_kept (s : St) (a : Act) (h : keptB s a = true) : Kept s a := by
  cases a <;> simp [keptB] at h <;> first | trivial | exact h

theorem calmB_calm (s : St) (a : Act) (h : calmB s a = true) : Calm s a := by
  cases a <;> simp [calmB] at h <;> trivial

/-! ### C65: stonewall and wait_for -/

/-- However jobs are terminated and killed and whatever delays there are: a job with stonewall is created only when
all jobs created before are over and have been reaped. -/
theorem C65_stonewall_alone_partial (hn : c.n ≤ 4096) (h : Reach c Calm s) : StonewallAlone c s.log := (inv_reach hn h).alone

/-- A job with wait_for is created only when all other jobs of that name are over. -/
theorem C65_wait_for_partial (hn : c.n ≤ 4096) (h : Reach c Calm s) : WaitsFor c s.log := (inv_reach hn h).waits

/-- Without start_delay and as long as no job is terminated before it is created, a job with stonewall is created
only when all jobs before it in the job file are over. -/
theorem C65_stonewall_waits_partial (hn : c.n ≤ 4096) (hd : NoDelay c) (hw : WaitsBack c) (h : Reach c Kept s) :
    StonewallWaits c s.log := (ord_reach hn hd hw h).waits

/-- And no job behind the stonewall is created before the job that has it. -/
theorem C65_stonewall_holds_partial (hn : c.n ≤ 4096) (hd : NoDelay c) (hw : WaitsBack c) (h : Reach c Kept s) :
    StonewallHolds c s.log := (ord_reach hn hd hw h).holds

/-! ### C66: all jobs are run, and fio ends -/

/-- As long as no job is terminated before it is created: when run_threads returns, every job has been created
once, is over, and has been reaped once. -/
theorem C66_all_done_partial (hn : c.n ≤ 4096) (h : Reach c Kept s) (hpc : s.pc = .done) : AllDone c s.log := by
  have hI := kept_inv hn h
  have hK := keep_reach hn h
  have ht := hK.fin (Or.inr (Or.inl hpc))
  have hr := hI.done hpc
  intro j hj hf
  have a := cnt_zero (by rw [← hK.todo]; exact ht) j hj
  have b := cnt_zero (by rw [← hI.running]; exact hr) j hj
  have hre : (s.job j).rs = .reaped := by
    cases hq : (s.job j).rs <;> simp [hq, Rs.ahead, Rs.isRunning] at a b ⊢
  refine ⟨?_, hI.over (by rw [hre]; rfl), ?_⟩
  · rw [(hI.job j).lc, if_pos ⟨by rw [hre]; decide, hf⟩]
  · rw [(hI.job j).lr, if_pos ⟨hre, hf⟩]

/-- No more than three things happen to a job, however jobs are terminated and killed. -/
theorem C66_events_bounded_partial (hn : c.n ≤ 4096) (h : Reach c Calm s) : s.log.length ≤ 3 * c.n := by
  have hI := inv_reach hn h
  rw [hI.len]
  refine sum_le (fun k _ => ?_)
  have hj := hI.job k
  unfold evs
  have h1 := Bool.toNat_le (decide ((s.job k).rs ≠ .notCreated) && !(c.job k).failed)
  have h2 := Bool.toNat_le (decide ((s.job k).rs = .reaped) && !(c.job k).failed)
  have h3 : (s.job k).ended.toNat + (s.job k).dead.toNat ≤ 1 := by
    cases hd : (s.job k).dead
    · have := Bool.toNat_le (s.job k).ended; simpa using this
    · rw [hj.ndead hd]; simp
  omega

/-- Between two visits of the main thread to the top of its loop something happens to a job, or a job is running, or
there is nothing left to start.  With the bound on the number of events: fio does not wait for anything else than
the end of the jobs that are running. -/
theorem C66_progress_partial (hn : c.n ≤ 4096) (hd : NoDelay c) (hw : WaitsBack c) (h : Reach c Kept s) (hpc : s.pc = .top)
    {s1 : St} (h1 : mainStep c s = some s1) (h2 : Steps c Kept s1 s') (hpc' : s'.pc = .top)
    (hlog : s'.log = s.log) :
    s'.todo = 0 ∨
    ∃ j, j < c.n ∧ (s'.job j).rs = .running ∧ ((c.job j).useThread = false → (s'.job j).dead = false) := by
  have hr1 : Reach c Kept s1 := .step .main h trivial h1
  have hr2 := steps_reach hr1 h2
  have hp := (kept_inv hn h).pc
  unfold PcOk at hp
  rw [hpc] at hp
  have hQ : s.todo ≠ 0 → Quiet c s.log s1 := by
    intro ht
    unfold mainStep at h1
    rw [hpc] at h1
    injection h1 with h1
    subst h1
    refine ⟨Nat.le_refl _, fun _ => ?_⟩
    unfold QuietPc
    simp only [ht, if_false]
    exact hp
  by_cases ht : s.todo = 0
  · -- the loop has been left and is not entered again
    exfalso
    have hfin : s1.pc = .drain := by
      unfold mainStep at h1
      rw [hpc] at h1
      injection h1 with h1
      rw [← h1]; simp [ht]
    have : s'.pc = .drain ∨ s'.pc = .done ∨ ∃ i p, s'.pc = .reap i p true := by
      clear hQ hpc' hlog hr2
      induction h2 with
      | refl => exact Or.inl hfin
      | step a hst hP hs ih =>
        by_cases ha : a = .main
        · subst ha
          simp only [step, mainStep] at hs
          rcases ih with h | h | ⟨i, p, h⟩ <;> rw [h] at hs
          · injection hs with hs; subst hs
            dsimp only
            split
            · exact Or.inr (Or.inl rfl)
            · exact Or.inr (Or.inr ⟨_, _, rfl⟩)
          · cases hs
          · injection hs with hs; subst hs
            unfold reapStep
            repeat' split
            · exact Or.inr (Or.inr ⟨_, _, rfl⟩)
            · exact Or.inr (Or.inr ⟨_, _, rfl⟩)
            · exact Or.inr (Or.inr ⟨_, _, rfl⟩)
            · exact Or.inr (Or.inr ⟨_, _, rfl⟩)
            · exact Or.inr (Or.inr ⟨_, _, rfl⟩)
            · exact Or.inl rfl
            · next h => exact absurd rfl h
        · rw [(env_mono ha (kept_calm hP) hs).1]; exact ih
    rw [hpc'] at this
    rcases this with h | h | ⟨_, _, h⟩ <;> cases h
  · have hq := (quiet_steps hn hd hw hr1 (hQ ht) h2).2 hlog
    have hp' := (kept_inv hn hr2).pc
    unfold PcOk at hp'
    unfold QuietPc at hq
    rw [hpc'] at hq hp'
    by_cases hex : ∃ j, j < c.n ∧ (s'.job j).rs = .running
    · obtain ⟨j, hj, hrj⟩ := hex
      exact Or.inr ⟨j, hj, hrj, (hq.2 j hj).2 hrj⟩
    · left
      have hno : ∀ k, k < c.n → (s'.job k).rs.active = false := by
        intro k hk
        have a := hp' k hk
        have b := (hq.2 k hk).1
        unfold Rs.active
        rw [a]
        cases hr : (s'.job k).rs <;> try rfl
        · exact absurd ⟨k, hk, hr⟩ hex
        · exact absurd hr b
      have hb := hq.1 hno
      rw [(keep_reach hn hr2).todo]
      refine cnt_none (fun k hk => ?_)
      have a := hb k hk
      have b := (started_ahead (hno k hk)).1
      cases hr : (s'.job k).rs <;> simp [hr, Rs.isStarted] at a b ⊢ <;> rfl

/-- The same in the last loop. -/
theorem C66_drain_progress_partial (hn : c.n ≤ 4096) (hd : NoDelay c) (hw : WaitsBack c) (h : Reach c Kept s)
    (hpc : s.pc = .drain) (hr : s.nrRunning ≠ 0)
    {s1 : St} (h1 : mainStep c s = some s1) (h2 : Steps c Kept s1 s') (hpc' : s'.pc = .drain)
    (hlog : s'.log = s.log) :
    s'.nrRunning = 0 ∨
    ∃ j, j < c.n ∧ (s'.job j).rs = .running ∧ ((c.job j).useThread = false → (s'.job j).dead = false) := by
  have hr1 : Reach c Kept s1 := .step .main h trivial h1
  have hr2 := steps_reach hr1 h2
  have hK := keep_reach hn h
  have ht := hK.fin (Or.inl hpc)
  have hQ : Quiet c s.log s1 := by
    unfold mainStep at h1
    rw [hpc] at h1
    injection h1 with h1
    subst h1
    refine ⟨Nat.le_refl _, fun _ => ?_⟩
    unfold QuietPc
    simp only [hr, if_false]
    refine ⟨fun _ k hk hnc => ?_, fun k hk => by omega⟩
    have := cnt_zero (by rw [← hK.todo]; exact ht) k hk
    change (s.job k).rs = _ at hnc
    rw [hnc] at this; cases this
  have hq := (quiet_steps hn hd hw hr1 hQ h2).2 hlog
  unfold QuietPc at hq
  rw [hpc'] at hq
  by_cases hex : ∃ j, j < c.n ∧ (s'.job j).rs = .running
  · obtain ⟨j, hj, hrj⟩ := hex
    exact Or.inr ⟨j, hj, hrj, (hq.2 j hj).2 hrj⟩
  · left
    rw [(kept_inv hn hr2).running]
    refine cnt_none (fun k hk => ?_)
    have b := (hq.2 k hk).1
    cases hr : (s'.job k).rs <;> try rfl
    · exact absurd ⟨k, hk, hr⟩ hex
    · exact absurd hr b

/-- The main thread makes a step unless it waits for a job that has not got to TD_INITIALIZED, or is done. -/
theorem C66_main_goes_partial (c : Cfg) (s : St) :
    mainStep c s ≠ none ∨ s.pc = .done ∨ ∃ i map, s.pc = .sem i map ∧ (s.job i).rs ≠ .initialized := by
  unfold mainStep
  cases h : s.pc with
  | sem i map =>
    by_cases hi : (s.job i).rs = .initialized
    · left; simp [hi]
    · exact Or.inr (Or.inr ⟨i, map, rfl, hi⟩)
  | done => exact Or.inr (Or.inl rfl)
  | _ => left; simp

/-! ### C67: jobs that only burn CPU time -/

theorem cnt_sub {p q : Nat → Bool} : ∀ {n}, (∀ k, k < n → p k = true → q k = true) → cnt n p = cnt n q →
    ∀ k, k < n → q k = true → p k = true
  | 0, _, _, k, hk => by omega
  | n + 1, h, he, k, hk => by
    have hle : ∀ m, m ≤ n → cnt m p ≤ cnt m q := by
      intro m hm
      induction m with
      | zero => exact Nat.le_refl _
      | succ m ih =>
        have h1 := h m (by omega)
        have h2 := ih (by omega)
        rw [cnt, cnt]
        cases hp : p m
        · simp; omega
        · rw [h1 hp]; simp; omega
    have hn := hle n (Nat.le_refl _)
    have h1 := h n (by omega)
    rw [cnt, cnt] at he
    by_cases hkn : k = n
    · subst hkn
      intro hq
      cases hp : p k
      · rw [hp, hq] at he; simp at he; omega
      · rfl
    · have : cnt n p = cnt n q := by
        cases hp : p n
        · cases hq : q n
          · rw [hp, hq] at he; simpa using he
          · rw [hp, hq] at he; simp at he; omega
        · rw [hp, h1 hp] at he; simpa using he
      exact cnt_sub (n := n) (fun k hk => h k (by omega)) this k (by omega)

/-- When the main thread terminates all jobs because it takes it that only jobs with the engine cpuio are left, and
no such job has been reaped, then no other job is running. -/
theorem C67_cpuio_only_partial (hn : c.n ≤ 4096) (h : Reach c Kept s) {p : Nat} {d : Bool} (hpc : s.pc = .reap c.n p d)
    (h1 : mainStep c s = some s') {k : Nat} (hk0 : (s.job k).terminate = false)
    (hk1 : (s'.job k).terminate = true)
    (hcpu : ∀ j, j < c.n → (c.job j).cpuio = true → .reap j ∉ s.log)
    {j : Nat} (hj : j < c.n) (hre : (c.job j).cpuio = false) : (s.job j).rs = .reaped := by
  have hI := kept_inv hn h
  have hK := keep_reach hn h
  have hp := hI.pc
  unfold PcOk at hp
  rw [hpc] at hp
  unfold mainStep at h1
  rw [hpc] at h1
  injection h1 with h1
  subst h1
  unfold reapStep at hk1
  rw [if_neg (by omega)] at hk1
  dsimp only at hk1
  split at hk1
  · next hc =>
    have hpid := hK.reap c.n p d hpc hc.2.1
    have hborn : ∀ m, m < c.n → (s.job m).rs ≠ .notCreated := fun m hm =>
      ((hI.job m).pid.1 (hpid m hm hm)).1
    have hnf : ∀ m, m < c.n → (c.job m).failed = false := fun m hm =>
      ((hI.job m).pid.1 (hpid m hm hm)).2.2
    have hsub := cnt_sub (p := fun j => (c.job j).cpuio) (q := fun j => (s.job j).rs.isRunning) (n := c.n)
      (fun m hm hcm => by
        have a := hp m hm
        have b := hborn m hm
        have e : (s.job m).rs ≠ .reaped := by
          intro hr
          have := (hI.job m).lr
          rw [if_pos ⟨hr, hnf m hm⟩] at this
          exact hcpu m hm hcm (List.count_pos_iff.1 (by omega))
        show (s.job m).rs.isRunning = true
        cases hq : (s.job m).rs <;> simp [hq, Rs.isStarted] at a b e ⊢ <;> rfl)
      (by rw [← hc.1, hI.running]) j hj
    have a := hp j hj
    have b := hborn j hj
    have e : (s.job j).rs.isRunning ≠ true := fun h => by
      have := hsub h
      change (c.job j).cpuio = true at this
      rw [hre] at this; cases this
    cases hq : (s.job j).rs <;> simp [hq, Rs.isStarted, Rs.isRunning] at a b e ⊢
  · change (s.job k).terminate = true at hk1
    rw [hk0] at hk1; cases hk1

/-- In the loop of reap_threads nothing is pending if all jobs are threads that have been created. -/
def Pend (c : Cfg) (s : St) : Prop :=
  ∀ i p d, s.pc = .reap i p d → (∀ k, k < c.n → (s.job k).pid = true) → p = 0

theorem pend_reach (hn : c.n ≤ 4096) (ht : ∀ j, (c.job j).useThread = true) (h : Reach c Calm s) : Pend c s := by
  induction h with
  | init => intro i p d h; cases h
  | @step s s' a hr hP hs ih =>
    have hI := inv_reach hn hr
    by_cases ha : a = .main
    · subst ha
      simp only [step, mainStep] at hs
      cases hpc : s.pc with
      | top => rw [hpc] at hs; injection hs with hs; subst hs
               intro i p d h; by_cases h0 : s.todo = 0 <;> simp [h0] at h
      | create i map =>
        rw [hpc] at hs; injection hs with hs; subst hs
        intro i' p d h
        unfold createStep at h
        repeat' split at h
        all_goals cases h
      | sem i map =>
        rw [hpc] at hs; simp only at hs
        split at hs
        · injection hs with hs; subst hs; intro i p d h; cases h
        · cases hs
      | wait map =>
        rw [hpc] at hs; injection hs with hs; subst hs
        intro i p d h; rw [(inv_wait hn hI hpc).2] at h; cases h
      | start i =>
        rw [hpc] at hs; injection hs with hs; subst hs
        intro i' p d h
        unfold startStep at h
        repeat' split at h
        · cases h
        · cases h
        · intro _; injection h with _ h _; exact h.symm
      | reap i p d =>
        rw [hpc] at hs; injection hs with hs; subst hs
        intro i' p' d' h hall
        unfold reapStep at h hall
        split at h
        · next hi =>
          rw [if_pos hi] at hall
          split at h
          · next hp =>
            rw [if_pos hp] at hall
            have := hall i hi
            change (s.job i).pid = true at this
            rw [hp] at this; cases this
          next hp =>
          rw [if_neg hp] at hall
          split at h
          · next hp =>
            rw [if_pos hp] at hall
            injection h with _ h _; subst h
            exact ih i p d hpc hall
          next hp =>
          rw [if_neg hp] at hall
          split at h
          · next hp =>
            rw [if_pos hp] at hall
            injection h with _ h _; subst h
            refine ih i p d hpc (fun k hk => ?_)
            have := hall k hk
            change ((s.upd i (fun j => { j with rs := .reaped })).job k).pid = true at this
            by_cases hki : k = i
            · subst hki; rw [upd_eq] at this; exact this
            · rw [upd_ne s _ hki] at this; exact this
          next hp =>
          rw [if_neg hp] at hall
          split at h
          · rw [if_pos (ht i)] at hall
            injection h with _ h _; subst h
            exact ih i p d hpc hall
          · next hp => exact absurd (ht i) hp
        · exfalso
          dsimp only at h
          cases d <;> cases h
      | drain =>
        rw [hpc] at hs; injection hs with hs; subst hs
        intro i p d h _
        by_cases h0 : s.nrRunning = 0 <;> simp [h0] at h
        exact h.2.1.symm
      | done => rw [hpc] at hs; cases hs
    · intro i p d hpc hall
      rw [(env_mono ha hP hs).1] at hpc
      refine ih i p d hpc (fun k hk => ?_)
      have hp := hI.pc
      unfold PcOk at hp
      rw [hpc] at hp
      have hpk := hall k hk
      cases a with
      | main => exact absurd rfl ha
      | semTimeout => exact hP.elim
      | stuck j => exact hP.elim
      | jobInit j =>
        simp only [step] at hs
        split at hs
        · next hc =>
          have := hp j hc.1
          rw [hc.2.1] at this; cases this
        · cases hs
      | jobExit j =>
        simp only [step] at hs
        split at hs
        · injection hs with hs; subst hs
          change ((s.upd j (fun q => { q with rs := .exited, ended := true })).job k).pid = true at hpk
          by_cases hki : k = j
          · subst hki; rw [upd_eq] at hpk; exact hpk
          · rw [upd_ne s _ hki] at hpk; exact hpk
        · cases hs
      | die j =>
        simp only [step] at hs
        split at hs
        · injection hs with hs; subst hs
          change ((s.upd j (fun q => { q with dead := true })).job k).pid = true at hpk
          by_cases hki : k = j
          · subst hki; rw [upd_eq] at hpk; exact hpk
          · rw [upd_ne s _ hki] at hpk; exact hpk
        · cases hs
      | term j =>
        simp only [step] at hs
        split at hs
        · injection hs with hs; subst hs
          by_cases hki : k = j
          · subst hki; rw [upd_eq] at hpk; exact hpk
          · rw [upd_ne s _ hki] at hpk; exact hpk
        · cases hs
      | tick d =>
        simp only [step] at hs
        injection hs with hs; subst hs
        exact hpk

/-- If all jobs are threads, then when all jobs have been reaped but those with cpuio, all of which run, these are
terminated at the end of reap_threads. -/
theorem C67_cpuio_ends_partial (hn : c.n ≤ 4096) (ht : ∀ j, (c.job j).useThread = true) (h : Reach c Calm s) {p : Nat}
    {d : Bool} (hpc : s.pc = .reap c.n p d)
    (hreal : ∃ j, j < c.n ∧ (c.job j).cpuio = false)
    (hst : ∀ j, j < c.n → (c.job j).failed = false ∧
      ((c.job j).cpuio = true → (s.job j).rs = .running ∨ (s.job j).rs = .exited) ∧
      ((c.job j).cpuio = false → (s.job j).rs = .reaped)) :
    ∃ s', mainStep c s = some s' ∧ ∀ j, (s'.job j).terminate = true := by
  have hI := inv_reach hn h
  have hpid : ∀ k, k < c.n → (s.job k).pid = true := by
    intro k hk
    obtain ⟨h1, h2, h3⟩ := hst k hk
    refine (hI.job k).pid.2 ?_
    cases hc : (c.job k).cpuio
    · rw [h3 hc]; exact ⟨by decide, by decide, h1⟩
    · rcases h2 hc with h | h <;> rw [h] <;> exact ⟨by decide, by decide, h1⟩
  have hp := pend_reach hn ht h c.n p d hpc hpid
  have hcnt : s.nrRunning = cnt c.n (fun j => (c.job j).cpuio) := by
    rw [hI.running]
    refine cnt_congr (fun k hk => ?_)
    obtain ⟨h1, h2, h3⟩ := hst k hk
    cases hc : (c.job k).cpuio
    · rw [h3 hc]; rfl
    · rcases h2 hc with h | h <;> rw [h] <;> rfl
  have hr : cnt c.n (fun j => !(c.job j).cpuio) ≠ 0 := by
    obtain ⟨j, hj, hjc⟩ := hreal
    have := cnt_pos (p := fun j => !(c.job j).cpuio) hj (by simp [hjc])
    omega
  refine ⟨reapStep c s c.n p d, ?_, fun j => ?_⟩
  · unfold mainStep; rw [hpc]
  · unfold reapStep
    rw [if_neg (by omega)]
    dsimp only
    rw [if_pos ⟨hcnt, hp, hr⟩]
    rfl

end Fio.Jobs
