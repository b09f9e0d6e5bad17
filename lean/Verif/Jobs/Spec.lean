import Verif.Jobs.Model
/-
What is expected of the starting of jobs, in terms of what has happened.
-/
namespace Fio.Jobs

/-- The states that can be reached by steps allowed by `P`. -/
inductive Reach (c : Cfg) (P : St → Act → Prop) : St → Prop where
  | init : Reach c P (init c)
  | step {s s' : St} (a : Act) : Reach c P s → P s a → step c s a = some s' → Reach c P s'

/-- From one state to another by steps allowed by `P`. -/
inductive Steps (c : Cfg) (P : St → Act → Prop) (s : St) : St → Prop where
  | refl : Steps c P s s
  | step {s1 s2 : St} (a : Act) : Steps c P s s1 → P s1 a → step c s1 a = some s2 → Steps c P s s2

/-- Everything that may happen. -/
def Any (_ : St) (_ : Act) : Prop := True

/-- No job fails to get to TD_INITIALIZED within 10 seconds; none hangs for 300 seconds after having been
terminated. -/
def Calm (_ : St) : Act → Prop
  | .semTimeout => False
  | .stuck _ => False
  | _ => True

/-- Moreover no job is terminated before it has been created. -/
def Kept (s : St) : Act → Prop
  | .semTimeout => False
  | .stuck _ => False
  | .term j => (s.job j).rs ≠ .notCreated
  | _ => True

/-- Job `j` is over: its program has ended or it has been killed, or it was never to be run as its files could not
be set up. -/
def Over (c : Cfg) (l : List Ev) (j : Nat) : Prop := .exit j ∈ l ∨ .die j ∈ l ∨ (c.job j).failed = true

/-- HOWTO: "Wait for preceding jobs in the job file to exit, before starting this one", as to the jobs that have
been created: whenever a job with stonewall is created, all jobs created before are over and reaped. -/
def StonewallAlone (c : Cfg) (l : List Ev) : Prop :=
  ∀ post pre j, l = post ++ .create j :: pre → (c.job j).stonewall = true →
    ∀ k, .create k ∈ pre → Over c pre k ∧ .reap k ∈ pre

/-- In full: whenever a job with stonewall is created, all jobs before it in the job file are over. -/
def StonewallWaits (c : Cfg) (l : List Ev) : Prop :=
  ∀ post pre j, l = post ++ .create j :: pre → (c.job j).stonewall = true →
    ∀ k, k < j → Over c pre k

/-- No job behind a stonewall is created before the job that has the stonewall. -/
def StonewallHolds (c : Cfg) (l : List Ev) : Prop :=
  ∀ post pre k, l = post ++ .create k :: pre →
    ∀ j, j < k → (c.job j).stonewall = true → .create j ∈ pre ∨ (c.job j).failed = true

/-- wait_for: when a job is created all other jobs with the name it waits for are over. -/
def WaitsFor (c : Cfg) (l : List Ev) : Prop :=
  ∀ post pre j w, l = post ++ .create j :: pre → (c.job j).waitFor = some w →
    ∀ k, k < c.n → (c.job k).name = w → (c.job j).name ≠ w → Over c pre k

/-- Every job that is to be run is created once, is over and reaped once. -/
def AllDone (c : Cfg) (l : List Ev) : Prop :=
  ∀ j, j < c.n → (c.job j).failed = false →
    l.count (.create j) = 1 ∧ Over c l j ∧ l.count (.reap j) = 1

/-- Jobs wait for jobs before them in the job file only, and for no job of the same name: what wait_for_ok
(init.c:1573-1599) sees to when names are given once. -/
def WaitsBack (c : Cfg) : Prop :=
  ∀ j w k, j < c.n → (c.job j).waitFor = some w → k < c.n → (c.job k).name = w → (c.job j).name ≠ w → k < j

/-- No start_delay. -/
def NoDelay (c : Cfg) : Prop := ∀ j, (c.job j).delay = 0

end Fio.Jobs
