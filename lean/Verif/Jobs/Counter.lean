import Verif.Jobs.Props
namespace Fio.Jobs

/-- `k` steps of the main thread. -/
def mains (k : Nat) : List Act := List.replicate k .main

/-- Everything allowed, computed. -/
def anyB (_ : St) (_ : Act) : Bool := true

/-- Everything but that somebody terminates jobs. -/
def nobodyB (s : St) : Act → Bool
  | .term _ => false
  | a => keptB s a

theorem nobodyB_kept (s : St) (a : Act) (h : nobodyB s a = true) : Kept s a := by
  cases a with
  | term j => cases h
  | _ => exact keptB_kept s _ h

/-! ### The hypotheses can be met -/

/-- Two jobs, a third with stonewall, a fourth that waits for the third. -/
def exCfg : Cfg :=
  { n := 4
    job := fun j => { name := j, stonewall := j == 2, waitFor := if j = 3 then some 2 else none, useThread := j == 1 } }

/-- All four are started and end; one of the first two is killed. -/
def exRun : List Act :=
  [.main, .main, .jobInit 0, .main, .main, .jobInit 1, .main, .main, .main] ++ mains 5 ++ [.jobExit 1, .die 0] ++
  mains 5 ++ mains 3 ++ [.main, .jobInit 2, .main, .main, .main, .main] ++ mains 5 ++ [.jobExit 2] ++
  mains 5 ++ mains 4 ++ [.main, .jobInit 3, .main, .main, .main] ++ mains 5 ++ [.jobExit 3] ++
  mains 5 ++ mains 2

example : NoDelay exCfg ∧ WaitsBack exCfg ∧ exCfg.n ≤ 4096 := by
  refine ⟨fun _ => rfl, ?_, by decide⟩
  intro j w k hj hw hk hkn _
  have : j = 3 ∧ w = 2 := by
    simp only [exCfg] at hw
    split at hw
    · next h => exact ⟨h, by injection hw with hw; exact hw.symm⟩
    · cases hw
  simp only [exCfg] at hkn
  omega

/-- Checks what a run ends with. -/
def chk (o : Option St) (f : St → Bool) : Bool :=
  match o with
  | some s => f s
  | none => false

theorem chk_some {o : Option St} {f : St → Bool} (h : chk o f = true) : ∃ s, o = some s ∧ f s = true := by
  cases o with
  | none => cases h
  | some s => exact ⟨s, rfl, h⟩

example : chk (runsB exCfg keptB (init exCfg) exRun) (fun s => decide (s.pc = .done ∧ s.log =
    [.reap 3, .exit 3, .create 3, .reap 2, .exit 2, .create 2, .reap 1, .reap 0, .die 0, .exit 1, .create 1,
     .create 0])) = true := by decide +kernel

/-- Two visits to the top of the loop between which nothing happens: the first job runs. -/
example : chk (runsB exCfg keptB (init exCfg)
      ([.main, .main, .jobInit 0, .main, .main, .jobInit 1, .main, .main, .main] ++ mains 10))
    (fun s => decide (s.pc = .top ∧ s.todo = 2) && chk (runsB exCfg keptB s (mains 15)) (fun s' =>
      decide (s'.pc = .top ∧ s'.log = s.log ∧ (s'.job 0).rs = .running))) = true := by decide +kernel

/-- A real job that ends and a job with cpuio, both threads: the second is terminated. -/
def cpuCfg (thr : Bool) : Cfg :=
  { n := 2, job := fun j => { name := j, cpuio := j == 1, useThread := thr } }

/-- Both jobs are started, one ends, and the main thread gets to the end of reap_threads. -/
def cpuRun (j : Nat) : List Act :=
  [.main, .main, .jobInit 0, .main, .main, .jobInit 1, .main, .main, .main] ++ mains 3 ++ [.jobExit j] ++ mains 2

example : chk (runsB (cpuCfg true) keptB (init (cpuCfg true)) (cpuRun 0)) (fun s =>
    decide (s.pc = .reap 2 0 false ∧ (s.job 0).rs = .reaped ∧ (s.job 1).rs = .running ∧
      (s.job 1).terminate = false) &&
    chk (mainStep (cpuCfg true) s) (fun s' => (s'.job 1).terminate)) = true := by decide +kernel

/-! ### C65: what is false -/

/-- A job that is to start after a delay, and one with stonewall behind it. -/
def delayCfg : Cfg :=
  { n := 2, job := fun j => if j = 0 then { name := 0, delay := 10 } else { name := j, stonewall := true } }

/-- A job with stonewall does not wait for a job before it that has start_delay: it is started first. -/
theorem C65_stonewall_delay_counterexample :
    ∃ s, Reach delayCfg Kept s ∧ WaitsBack delayCfg ∧ ¬ StonewallWaits delayCfg s.log := by
  obtain ⟨s, hs, h⟩ := chk_some (o := runsB delayCfg keptB (init delayCfg) [.main, .main, .main])
    (f := fun s => decide (s.log = [.create 1])) (by decide +kernel)
  have h : s.log = [.create 1] := by simpa using h
  refine ⟨s, runsB_reach keptB_kept hs, ?_, fun hw => ?_⟩
  · intro j w k _ hw
    simp only [delayCfg] at hw
    split at hw <;> cases hw
  · have := hw [] [] 1 h rfl 0 (by decide)
    rcases this with h | h | h <;> cases h

/-- A job, one with stonewall and a delay, another job. -/
def delayCfg2 : Cfg :=
  { n := 3, job := fun j => if j = 1 then { name := 1, stonewall := true, delay := 10 } else { name := j } }

/-- A job with stonewall and start_delay does not hold back the jobs behind it. -/
theorem C65_stonewall_holds_counterexample :
    ∃ s, Reach delayCfg2 Kept s ∧ ¬ StonewallHolds delayCfg2 s.log := by
  obtain ⟨s, hs, h⟩ := chk_some (o := runsB delayCfg2 keptB (init delayCfg2)
      [.main, .main, .jobInit 0, .main, .main, .main])
    (f := fun s => decide (s.log = [.create 2, .create 0])) (by decide +kernel)
  have h : s.log = [.create 2, .create 0] := by simpa using h
  refine ⟨s, runsB_reach keptB_kept hs, fun hw => ?_⟩
  have := hw [] [.create 0] 2 h 1 (by decide) rfl
  rcases this with h | h
  · revert h; decide
  · cases h

/-! ### C66: what is false -/

/-- A job; one that is to start after a delay; one with stonewall. -/
def lostCfg : Cfg :=
  { n := 3, job := fun j =>
      if j = 1 then { name := 1, delay := 100 } else if j = 2 then { name := 2, stonewall := true } else { name := j } }

def lostRun : List Act :=
  [.main, .main, .jobInit 0, .main, .main, .main, .main] ++ mains 8 ++ [.term 1] ++ mains 13 ++ mains 13 ++ [.main] ++
  [.jobExit 0] ++ mains 5 ++ [.main]

/-- The second job is terminated before it was created (say, as its group is, backend.c:2760-2763).  It is
subtracted from `todo` once in every pass: the third job, which nobody has terminated, is never started, and
run_threads returns. -/
theorem C66_terminated_lost_counterexample :
    ∃ s, Reach lostCfg Calm s ∧ s.pc = .done ∧ .create 2 ∉ s.log ∧ (s.job 2).terminate = false := by
  obtain ⟨s, hs, h⟩ := chk_some (o := runsB lostCfg calmB (init lostCfg) lostRun)
    (f := fun s => decide (s.pc = .done ∧ .create 2 ∉ s.log ∧ (s.job 2).terminate = false)) (by decide +kernel)
  exact ⟨s, runsB_reach calmB_calm hs, by simpa using h⟩

/-- Two jobs that are to start after a delay. -/
def wrapCfg : Cfg := { n := 2, job := fun j => { name := j, delay := 100 } }

/-- Both are terminated while the main thread is between them. -/
def wrapRun : List Act := [.main, .main, .term 0, .term 1, .main, .main, .main] ++ mains 6

/-- What holds from then on. -/
structure Wrapped (s : St) : Prop where
  job : ∀ k, k < 2 → (s.job k).rs = .notCreated ∧ (s.job k).terminate = true ∧ (s.job k).pid = false ∧
    (s.job k).go = false
  abort : s.abort = false
  todo : s.todo < 4294967296
  pc : match s.pc with
    | .top => s.todo % 2 = 1
    | .create i map => map = [] ∧ i ≤ 2 ∧ (s.todo + i) % 2 = 1
    | .wait map => map = [] ∧ s.todo % 2 = 1
    | .start _ => s.todo % 2 = 1
    | .reap _ _ d => d = false ∧ s.todo % 2 = 1
    | _ => False

theorem wrapped_main {s s' : St} (hw : Wrapped s) (h : mainStep wrapCfg s = some s') : Wrapped s' := by
  obtain ⟨hj, ha, ht, hp⟩ := hw
  unfold mainStep at h
  cases hpc : s.pc with
  | top =>
    rw [hpc] at h hp; injection h with h; subst h
    simp only at hp
    refine ⟨hj, ha, ht, ?_⟩
    have : s.todo ≠ 0 := by omega
    rw [if_neg this]
    exact ⟨rfl, by omega, hp⟩
  | create i map =>
    rw [hpc] at h hp; injection h with h; subst h
    simp only at hp
    obtain ⟨h1, h2, h3⟩ := hp
    unfold createStep
    by_cases hi : i < 2
    · have hji := hj i hi
      rw [if_pos (show i < wrapCfg.n from hi), if_neg (by rw [hji.1]; simp), if_pos hji.2.1]
      refine ⟨hj, ha, ?_, h1, by omega, ?_⟩
      · show dec s.todo < _; unfold dec; omega
      · show (dec s.todo + (i + 1)) % 2 = 1; unfold dec; omega
    · rw [if_neg (show ¬ i < wrapCfg.n from hi)]
      exact ⟨hj, ha, ht, h1, by show s.todo % 2 = 1; omega⟩
  | sem i map => rw [hpc] at hp; exact hp.elim
  | wait map =>
    rw [hpc] at h hp; injection h with h; subst h
    simp only at hp
    obtain ⟨h1, h2⟩ := hp
    subst h1
    unfold waitStep
    rw [ha, if_neg (by decide)]
    refine ⟨hj, rfl, ?_, ?_⟩
    · show (s.todo + 4294967295 * 0) % 4294967296 < _; omega
    · show (s.todo + 4294967295 * 0) % 4294967296 % 2 = 1; omega
  | start i =>
    rw [hpc] at h hp; injection h with h; subst h
    simp only at hp
    unfold startStep
    by_cases hi : i < 2
    · have hji := hj i hi
      rw [if_pos (show i < wrapCfg.n from hi), if_neg (by rw [hji.1]; simp)]
      exact ⟨hj, ha, ht, hp⟩
    · rw [if_neg (show ¬ i < wrapCfg.n from hi)]
      exact ⟨hj, ha, ht, rfl, hp⟩
  | reap i p d =>
    rw [hpc] at h hp; injection h with h; subst h
    simp only at hp
    obtain ⟨h1, h2⟩ := hp
    subst h1
    unfold reapStep
    by_cases hi : i < 2
    · have hji := hj i hi
      rw [if_pos (show i < wrapCfg.n from hi), if_pos hji.2.2.1]
      exact ⟨hj, ha, ht, rfl, h2⟩
    · rw [if_neg (show ¬ i < wrapCfg.n from hi)]
      dsimp only
      split
      · exact ⟨fun k hk => ⟨(hj k hk).1, rfl, (hj k hk).2.2⟩, ha, ht, h2⟩
      · exact ⟨hj, ha, ht, h2⟩
  | drain => rw [hpc] at hp; exact hp.elim
  | done => rw [hpc] at hp; exact hp.elim

theorem wrapped_step {s s' : St} {a : Act} (hw : Wrapped s) (h : step wrapCfg s a = some s') : Wrapped s' := by
  cases a with
  | main => exact wrapped_main hw h
  | semTimeout =>
    simp only [step] at h
    split at h
    · next i map hpc =>
      have := hw.pc
      rw [hpc] at this; exact this.elim
    · cases h
  | jobInit j =>
    simp only [step] at h
    split at h
    · next hc => rw [(hw.job j hc.1).1] at hc; cases hc.2.1
    · cases h
  | jobExit j =>
    simp only [step] at h
    split at h
    · next hc => rw [(hw.job j hc.1).2.2.2] at hc; cases hc.2.1
    · cases h
  | die j =>
    simp only [step] at h
    split at h
    · next hc => rw [(hw.job j hc.1).2.2.1] at hc; cases hc.2.2.1
    · cases h
  | term j =>
    simp only [step] at h
    split at h
    · injection h with h; subst h
      refine ⟨fun k hk => ?_, hw.abort, hw.todo, hw.pc⟩
      by_cases hkj : k = j
      · subst hkj; rw [upd_eq]; exact ⟨(hw.job k hk).1, rfl, (hw.job k hk).2.2⟩
      · rw [upd_ne s _ hkj]; exact hw.job k hk
    · cases h
  | stuck j =>
    simp only [step] at h
    split at h
    · injection h with h; subst h
      refine ⟨fun k hk => ?_, hw.abort, hw.todo, hw.pc⟩
      by_cases hkj : k = j
      · subst hkj; rw [upd_eq]; exact hw.job k hk
      · rw [upd_ne s _ hkj]; exact hw.job k hk
    · cases h
  | tick d =>
    simp only [step] at h
    injection h with h; subst h
    exact ⟨hw.job, hw.abort, hw.todo, hw.pc⟩

/-- Two jobs that have not been created are terminated while the main thread is between them: `todo` is 1 then and
there are two jobs to be subtracted in every pass.  It wraps around, is odd whenever it is looked at, and fio never
ends, whatever happens. -/
theorem C66_terminated_wrap_counterexample :
    ∃ s, Reach wrapCfg Calm s ∧ (∀ j, j < 2 → (s.job j).terminate = true ∧ .create j ∉ s.log) ∧
      ∀ s', Steps wrapCfg Any s s' → s'.pc ≠ .done := by
  obtain ⟨s, hs, h⟩ := chk_some (o := runsB wrapCfg calmB (init wrapCfg) wrapRun)
    (f := fun s => decide (s.pc = .top ∧ s.log = [] ∧ s.todo = 1 ∧ s.abort = false ∧
      ((s.job 0).rs = .notCreated ∧ (s.job 0).terminate = true ∧ (s.job 0).pid = false ∧ (s.job 0).go = false) ∧
      ((s.job 1).rs = .notCreated ∧ (s.job 1).terminate = true ∧ (s.job 1).pid = false ∧ (s.job 1).go = false)))
    (by decide +kernel)
  have h := of_decide_eq_true h
  obtain ⟨h1, h2, h3, h4, h5, h6⟩ := h
  have hj : ∀ k, k < 2 → (s.job k).rs = .notCreated ∧ (s.job k).terminate = true ∧ (s.job k).pid = false ∧
      (s.job k).go = false := by
    intro k hk
    rcases (by omega : k = 0 ∨ k = 1) with h | h <;> subst h
    · exact h5
    · exact h6
  refine ⟨s, runsB_reach calmB_calm hs, fun j hj' => ⟨(hj j hj').2.1, by rw [h2]; simp⟩, fun s' hst => ?_⟩
  have hw : Wrapped s' := by
    induction hst with
    | refl => exact ⟨hj, h4, by omega, by rw [h1]; show s.todo % 2 = 1; omega⟩
    | step a _ _ hs ih => exact wrapped_step ih hs
  intro hd
  have := hw.pc
  rw [hd] at this; exact this

/-- Two processes. -/
def twoCfg : Cfg := { n := 2, job := fun j => { name := j } }

def stuckRun : List Act :=
  [.main, .main, .jobInit 0, .main, .main, .jobInit 1, .main, .main, .main] ++ mains 6 ++ [.main] ++
  [.term 0, .stuck 0] ++ mains 4 ++ [.jobExit 0] ++ mains 4 ++ [.main]

/-- A process that is reaped because it seems to be stuck (backend.c:2472-2482) but then ends sets TD_EXITED and is
reaped again: nr_running is one too small, and run_threads returns while the other job is running. -/
theorem C66_reaped_twice_counterexample :
    ∃ s, Reach twoCfg Any s ∧ s.pc = .done ∧ s.log.count (.reap 0) = 2 ∧ (s.job 1).rs = .running ∧
      ¬ Over twoCfg s.log 1 := by
  obtain ⟨s, hs, h⟩ := chk_some (o := runsB twoCfg anyB (init twoCfg) stuckRun)
    (f := fun s => decide (s.pc = .done ∧ s.log.count (.reap 0) = 2 ∧ (s.job 1).rs = .running ∧
      .exit 1 ∉ s.log ∧ .die 1 ∉ s.log)) (by decide +kernel)
  obtain ⟨h1, h2, h3, h4, h5⟩ := of_decide_eq_true h
  refine ⟨s, runsB_reach (fun _ _ _ => trivial) hs, h1, h2, h3, ?_⟩
  rintro (h | h | h)
  · exact h4 h
  · exact h5 h
  · cases h

/-- A job, and three that start later. -/
def hangCfg : Cfg := { n := 4, job := fun j => { name := j, delay := if j = 0 then 0 else 10 } }

def hangRun : List Act :=
  [.main, .main, .jobInit 0, .main] ++ mains 5 ++ mains 10 ++ [.tick 10] ++
  [.main, .main, .main, .jobInit 1, .main, .main, .jobInit 2, .main, .main, .semTimeout, .main] ++
  [.die 1, .die 2] ++ mains 6 ++ [.jobExit 0] ++ mains 6

/-- The last job does not get to TD_INITIALIZED within 10 seconds.  The two that were created in the same pass are
not counted in nr_running, but reaped when they are killed: nr_running wraps around.  All processes are over and
reaped, and the main thread keeps waiting. -/
theorem C66_timeout_wrap_counterexample :
    ∃ s, Reach hangCfg Any s ∧ s.pc = .drain ∧ s.nrRunning = 4294967294 ∧
      ∀ j, j < 3 → (s.job j).rs = .reaped := by
  obtain ⟨s, hs, h⟩ := chk_some (o := runsB hangCfg anyB (init hangCfg) hangRun)
    (f := fun s => decide (s.pc = .drain ∧ s.nrRunning = 4294967294 ∧ (s.job 0).rs = .reaped ∧
      (s.job 1).rs = .reaped ∧ (s.job 2).rs = .reaped)) (by decide +kernel)
  obtain ⟨h1, h2, h3, h4, h5⟩ := of_decide_eq_true h
  refine ⟨s, runsB_reach (fun _ _ _ => trivial) hs, h1, h2, fun j hj => ?_⟩
  rcases (by omega : j = 0 ∨ j = 1 ∨ j = 2) with h | h | h <;> subst h
  · exact h3
  · exact h4
  · exact h5

/-- A job; a second that waits for it; a third that has the name of the first and waits for the second.
wait_for_ok accepts them, as it looks at the jobs defined so far. -/
def nameCfg : Cfg :=
  { n := 3, job := fun j =>
      if j = 1 then { name := 8, waitFor := some 7 } else if j = 2 then { name := 7, waitFor := some 8 }
      else { name := 7 } }

theorem name_create {s : St} {i : Nat} {map : List Nat}
    (h : (s.job 1).rs = .notCreated ∧ (s.job 2).rs = .notCreated) :
    ((createStep nameCfg s i map).job 1).rs = .notCreated ∧ ((createStep nameCfg s i map).job 2).rs = .notCreated := by
  have w1 : waiteeRunning nameCfg s 1 = true := by
    simp [waiteeRunning, nameCfg, h.2, Rs.over, List.range, List.range.loop]
  have w2 : waiteeRunning nameCfg s 2 = true := by
    simp [waiteeRunning, nameCfg, h.1, Rs.over, List.range, List.range.loop]
  unfold createStep
  split
  · split
    · exact h
    split
    · exact h
    split
    · exact h
    split
    · exact h
    split
    · exact h
    next hw =>
    have h1 : i ≠ 1 := fun e => by subst e; exact hw w1
    have h2 : i ≠ 2 := fun e => by subst e; exact hw w2
    refine ⟨?_, ?_⟩
    · show ((s.upd i (fun j => { j with rs := .created })).job 1).rs = _
      rw [upd_ne s _ (fun e => h1 e.symm)]; exact h.1
    · show ((s.upd i (fun j => { j with rs := .created })).job 2).rs = _
      rw [upd_ne s _ (fun e => h2 e.symm)]; exact h.2
  · exact h

/-- None of the steps creates the two jobs. -/
theorem name_reach {s : St} (h : Reach nameCfg Kept s) :
    (s.job 1).rs = .notCreated ∧ (s.job 2).rs = .notCreated := by
  have hn : nameCfg.n ≤ 4096 := by decide
  induction h with
  | init => exact ⟨rfl, rfl⟩
  | @step s s' a hr hP hs ih =>
    have hI := kept_inv hn hr
    have key : ∀ k, (s.job k).rs = .notCreated → ∀ j (f : Job → Job), (s.job j).rs ≠ .notCreated →
        ((s.upd j f).job k).rs = .notCreated := by
      intro k hk j f hj
      rw [upd_ne s f (fun e => hj (by rw [← e]; exact hk))]; exact hk
    cases a with
    | main =>
      simp only [step, mainStep] at hs
      cases hpc : s.pc with
      | top => rw [hpc] at hs; injection hs with hs; subst hs; exact ih
      | create i map => rw [hpc] at hs; injection hs with hs; subst hs; exact name_create ih
      | sem i map =>
        rw [hpc] at hs; simp only at hs
        split at hs
        · injection hs with hs; subst hs; exact ih
        · cases hs
      | wait map =>
        rw [hpc] at hs; injection hs with hs; subst hs
        have hK := keep_reach hn hr
        have hle : s.todo ≤ nameCfg.n := by rw [hK.todo]; exact cnt_le _ _
        rw [(wait_todo hI hpc (by omega)).2.1]; exact ih
      | start i =>
        rw [hpc] at hs; injection hs with hs; subst hs
        unfold startStep
        split
        · split
          · next hin =>
            have hne : (s.job i).rs ≠ .notCreated := by rw [hin]; decide
            exact ⟨key 1 ih.1 i (fun q => { q with rs := .running, go := true }) hne, key 2 ih.2 i (fun q => { q with rs := .running, go := true }) hne⟩
          · exact ih
        · exact ih
      | reap i p d =>
        rw [hpc] at hs; injection hs with hs; subst hs
        unfold reapStep
        split
        · split
          · exact ih
          next hp =>
          have hp : (s.job i).pid = true := by cases h : (s.job i).pid <;> simp_all
          have hne := ((hI.job i).pid.1 hp).1
          split
          · exact ih
          split
          · exact ⟨key 1 ih.1 i (fun q => { q with rs := .reaped }) hne, key 2 ih.2 i (fun q => { q with rs := .reaped }) hne⟩
          split <;> exact ih
        · dsimp only
          split <;> exact ih
      | drain => rw [hpc] at hs; injection hs with hs; subst hs; exact ih
      | done => rw [hpc] at hs; cases hs
    | semTimeout => exact hP.elim
    | stuck j => exact hP.elim
    | jobInit j =>
      simp only [step] at hs
      split at hs
      · next hc =>
        injection hs with hs; subst hs
        have hne : (s.job j).rs ≠ .notCreated := by rw [hc.2.1]; decide
        exact ⟨key 1 ih.1 j _ hne, key 2 ih.2 j _ hne⟩
      · cases hs
    | jobExit j =>
      simp only [step] at hs
      split at hs
      · next hc =>
        injection hs with hs; subst hs
        have hne := ((hI.job j).go.1 hc.2.1).1
        exact ⟨key 1 ih.1 j (fun q => { q with rs := .exited, ended := true }) hne, key 2 ih.2 j (fun q => { q with rs := .exited, ended := true }) hne⟩
      · cases hs
    | die j =>
      simp only [step] at hs
      split at hs
      · next hc =>
        injection hs with hs; subst hs
        have hne := ((hI.job j).pid.1 hc.2.2.1).1
        exact ⟨key 1 ih.1 j (fun q => { q with dead := true }) hne, key 2 ih.2 j (fun q => { q with dead := true }) hne⟩
      · cases hs
    | term j =>
      simp only [step] at hs
      split at hs
      · injection hs with hs; subst hs
        exact ⟨key 1 ih.1 j _ hP, key 2 ih.2 j _ hP⟩
      · cases hs
    | tick d =>
      simp only [step] at hs
      injection hs with hs; subst hs
      exact ih

/-- The second and the third job wait for each other: they are never created, and fio never ends. -/
theorem C66_wait_for_cycle_counterexample :
    NoDelay nameCfg ∧ ∀ s, Reach nameCfg Kept s → .create 1 ∉ s.log ∧ .create 2 ∉ s.log ∧ s.pc ≠ .done := by
  have hn : nameCfg.n ≤ 4096 := by decide
  refine ⟨fun j => ?_, fun s h => ?_⟩
  · simp only [nameCfg]
    split
    · rfl
    split <;> rfl
  have hI := kept_inv hn h
  have hr := name_reach h
  refine ⟨?_, ?_, fun hd => ?_⟩
  · have := (hI.job 1).lc
    rw [hr.1] at this
    exact List.count_eq_zero.1 (by simpa using this)
  · have := (hI.job 2).lc
    rw [hr.2] at this
    exact List.count_eq_zero.1 (by simpa using this)
  · have := (C66_all_done_partial hn h hd 1 (by decide) rfl).1
    rw [(hI.job 1).lc, hr.1] at this
    simp at this

/-! ### C67: what is false -/

/-- A job with cpuio that ends before the others: as many jobs are running as there are with cpuio, and the job that
does I/O is terminated, though nobody has asked for it. -/
theorem C67_cpuio_first_counterexample :
    ∃ s, Reach (cpuCfg true) (fun s a => nobodyB s a = true) s ∧ (s.job 0).rs = .running ∧
      (s.job 0).terminate = true ∧ .exit 1 ∈ s.log := by
  obtain ⟨s, hs, h⟩ := chk_some (o := runsB (cpuCfg true) nobodyB (init (cpuCfg true)) (cpuRun 1 ++ [.main]))
    (f := fun s => decide ((s.job 0).rs = .running ∧ (s.job 0).terminate = true ∧ .exit 1 ∈ s.log))
    (by decide +kernel)
  exact ⟨s, runsB_reach (fun _ _ h => h) hs, of_decide_eq_true h⟩

/-- In the loop of reap_threads something is pending if there was a process that is still running. -/
theorem pend_process {c : Cfg} {s : St} (hn : c.n ≤ 4096) (h : Reach c Calm s) :
    ∀ i p d, s.pc = .reap i p d →
      ∀ k, k < i → k < c.n → (c.job k).useThread = false → (s.job k).rs = .running → p ≠ 0 := by
  induction h with
  | init => intro i p d h; cases h
  | @step s s' a hr hP hs ih =>
    have hI := inv_reach hn hr
    by_cases ha : a = .main
    · subst ha
      simp only [step, mainStep] at hs
      cases hpc : s.pc with
      | top => rw [hpc] at hs; injection hs with hs; subst hs
               intro i p d h; by_cases h0 : s.todo = 0 <;> simp [h0] at h
      | create i map =>
        rw [hpc] at hs; injection hs with hs; subst hs
        intro i' p d h
        unfold createStep at h
        repeat' split at h
        all_goals cases h
      | sem i map =>
        rw [hpc] at hs; simp only at hs
        split at hs
        · injection hs with hs; subst hs; intro i p d h; cases h
        · cases hs
      | wait map =>
        rw [hpc] at hs; injection hs with hs; subst hs
        intro i p d h; rw [(inv_wait hn hI hpc).2] at h; cases h
      | start i =>
        rw [hpc] at hs; injection hs with hs; subst hs
        intro i' p d h
        unfold startStep at h
        repeat' split at h
        · cases h
        · cases h
        · intro k hk; injection h with h _ _; omega
      | reap i p d =>
        rw [hpc] at hs; injection hs with hs; subst hs
        intro i' p' d' h k hk hkn hth hrk
        unfold reapStep at h hrk
        split at h
        · next hi =>
          rw [if_pos hi] at hrk
          split at h
          · next hp =>
            injection h with _ h _; omega
          next hp =>
          have hpid : (s.job i).pid = true := by cases h : (s.job i).pid <;> simp_all
          rw [if_neg hp] at hrk
          split at h
          · next hp =>
            rw [if_pos hp] at hrk
            injection h with h1 h2 _; subst h1 h2
            by_cases hki : k = i
            · subst hki
              change (s.job k).rs = .running at hrk
              rw [hp] at hrk; cases hrk
            · exact ih i p d hpc k (by omega) hkn hth hrk
          next hnr =>
          rw [if_neg hnr] at hrk
          split at h
          · next hp =>
            rw [if_pos hp] at hrk
            injection h with h1 h2 _; subst h1 h2
            change ((s.upd i (fun j => { j with rs := .reaped })).job k).rs = .running at hrk
            by_cases hki : k = i
            · subst hki; rw [upd_eq] at hrk; cases hrk
            · rw [upd_ne s _ hki] at hrk
              exact ih i p d hpc k (by omega) hkn hth hrk
          next hp =>
          rw [if_neg hp] at hrk
          split at h
          · next ht =>
            rw [if_pos ht] at hrk
            injection h with h1 h2 _; subst h1 h2
            by_cases hki : k = i
            · subst hki; rw [hth] at ht; cases ht
            · exact ih i p d hpc k (by omega) hkn hth hrk
          · injection h with _ h _; omega
        · exfalso
          dsimp only at h
          cases d <;> cases h
      | drain =>
        rw [hpc] at hs; injection hs with hs; subst hs
        intro i p d h k hk
        by_cases h0 : s.nrRunning = 0 <;> simp [h0] at h
        omega
      | done => rw [hpc] at hs; cases hs
    · intro i p d hpc k hk hkn hth hrk
      rw [(env_mono ha hP hs).1] at hpc
      refine ih i p d hpc k hk hkn hth ?_
      have hp := hI.pc
      unfold PcOk at hp
      rw [hpc] at hp
      cases a with
      | main => exact absurd rfl ha
      | semTimeout => exact hP.elim
      | stuck j => exact hP.elim
      | jobInit j =>
        simp only [step] at hs
        split at hs
        · next hc =>
          have := hp j hc.1
          rw [hc.2.1] at this; cases this
        · cases hs
      | jobExit j =>
        simp only [step] at hs
        split at hs
        · injection hs with hs; subst hs
          change ((s.upd j (fun q => { q with rs := .exited, ended := true })).job k).rs = .running at hrk
          by_cases hki : k = j
          · subst hki; rw [upd_eq] at hrk; cases hrk
          · rw [upd_ne s _ hki] at hrk; exact hrk
        · cases hs
      | die j =>
        simp only [step] at hs
        split at hs
        · injection hs with hs; subst hs
          change ((s.upd j (fun q => { q with dead := true })).job k).rs = .running at hrk
          by_cases hki : k = j
          · subst hki; rw [upd_eq] at hrk; exact hrk
          · rw [upd_ne s _ hki] at hrk; exact hrk
        · cases hs
      | term j =>
        simp only [step] at hs
        split at hs
        · injection hs with hs; subst hs
          by_cases hki : k = j
          · subst hki; rw [upd_eq] at hrk; exact hrk
          · rw [upd_ne s _ hki] at hrk; exact hrk
        · cases hs
      | tick d =>
        simp only [step] at hs
        injection hs with hs; subst hs
        exact hrk

/-- HOWTO: a job with cpuio "will never finish unless there is at least one non-cpuio job": but as long as any job
that is a process is running, be it one with cpuio, the end of reap_threads terminates nothing. -/
theorem C67_cpuio_process_counterexample {c : Cfg} {s s' : St} (hn : c.n ≤ 4096) (h : Reach c Calm s) {p : Nat} {d : Bool}
    (hpc : s.pc = .reap c.n p d) (h1 : mainStep c s = some s')
    {j : Nat} (hj : j < c.n) (hth : (c.job j).useThread = false) (hr : (s.job j).rs = .running) :
    s'.job = s.job := by
  have hp := pend_process hn h c.n p d hpc j hj hj hth hr
  unfold mainStep at h1
  rw [hpc] at h1
  injection h1 with h1
  subst h1
  unfold reapStep
  rw [if_neg (by omega)]
  dsimp only
  rw [if_neg (fun h => hp h.2.1)]

/-- And that happens: the job that did I/O has been reaped, the one with cpuio runs on. -/
example : chk (runsB (cpuCfg false) keptB (init (cpuCfg false)) (cpuRun 0)) (fun s =>
    decide (s.pc = .reap 2 1 false ∧ (s.job 0).rs = .reaped ∧ (s.job 1).rs = .running)) = true := by decide +kernel

end Fio.Jobs
