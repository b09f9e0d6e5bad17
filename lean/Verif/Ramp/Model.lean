/-
Model of the ramp period: /repo/time.c:119-252, called by the helper thread
(helper_thread.c:297-302), by the jobs (io_u.c:2154, 2424) and when jobs are added (init.c:1750).

Times are microseconds of fio's clock since its origin; utime_since_now is the difference (C41
says what it really is).  Offload workers (td->parent) are not modelled.  One round of
ramp_period_check is one step, but every job is looked at with its own time.
-/
namespace Fio.Ramp

/-- enum ramp_period_states, time.c:9-13. -/
inductive RS where
  | running | finishing | done
  deriving DecidableEq, Repr

/-- The options that matter: ramp_time, ramp_size, the group and group_reporting. -/
structure Opts where
  time : Nat
  size : Nat
  group : Nat
  rep : Bool
  deriving DecidableEq, Repr

/-- The fields of struct thread_data that matter: td->ramp_period_state, td->epoch, the sum of
td->io_bytes.  td->epoch is 0 until the job starts (the memory is cleared by setup_thread_area).
`resets` counts the calls of reset_all_stats from ramp_period_over. -/
structure Job where
  o : Opts
  st : RS
  epoch : Nat
  bytes : Nat
  resets : Nat
  deriving DecidableEq, Repr

/-- td_ramp_period_init, time.c:231-252, for a job with options `o` added after `jobs`; `none` when
it is rejected.  The loop over all jobs also meets the new job itself, which agrees with itself. -/
def add (jobs : List Job) (o : Opts) : Option (List Job) :=
  if o.time ≠ 0 ∨ o.size ≠ 0 then
    if o.time ≠ 0 ∧ o.size ≠ 0 then none
    else if jobs.any (fun j => o.group == j.o.group && o.size != j.o.size) then none
    else some (jobs ++ [{ o, st := .running, epoch := 0, bytes := 0, resets := 0 }])
  else some (jobs ++ [{ o, st := .done, epoch := 0, bytes := 0, resets := 0 }])

/-- All the jobs of a run, added in order (init.c:1634-1750). -/
def addAll : List Job → List Opts → Option (List Job)
  | jobs, [] => some jobs
  | jobs, o :: os => do
    let jobs ← add jobs o
    addAll jobs os

/-- The local variables of ramp_period_check, time.c:128-130; prev_groupid is -1 at first. -/
structure Loc where
  bytes : Nat
  prev : Option Nat
  over : Bool
  deriving DecidableEq, Repr

/-- `td->ramp_period_state = RAMP_FINISHING`. -/
def Job.finish (j : Job) : Job := { j with st := .finishing }

/-- The loop at time.c:172-175. -/
def markGroup (g : Nat) (jobs : List Job) : List Job :=
  jobs.map fun j => if j.o.group = g then j.finish else j

/-- The body of the loop of ramp_period_check for job `i`, time.c:133-178; `now` is the time at
which that job is looked at. -/
def checkJob (now : Nat) (i : Nat) (s : List Job × Loc) : List Job × Loc :=
  match s.1[i]? with
  | none => s
  | some j =>
    if j.st ≠ .running then s
    else if j.o.time ≠ 0 ∧ j.o.time ≤ now - j.epoch then (s.1.set i j.finish, s.2)
    else if j.o.size ≠ 0 then
      let l := if j.o.rep = false ∨ s.2.prev ≠ some j.o.group then
          { bytes := 0, prev := some j.o.group, over := false } else s.2
      let l := { l with bytes := l.bytes + j.bytes }
      if j.o.size ≤ l.bytes then
        let jobs := s.1.set i j.finish
        if j.o.rep = true ∧ l.over = false then
          (markGroup j.o.group jobs, { l with over := true })
        else (jobs, l)
      else (s.1, l)
    else s

/-- ramp_period_check, time.c:126-182; `now i` is the time at which job `i` is looked at. -/
def check (now : Nat → Nat) (jobs : List Job) : List Job :=
  ((List.range jobs.length).foldl (fun s i => checkJob (now i) i s)
    (jobs, { bytes := 0, prev := none, over := false })).1

/-- ramp_period_over, time.c:198-229, without a parent: the job and the value returned.
reset_all_stats clears td->io_bytes and sets td->epoch (libfio.c:152-179). -/
def over (now : Nat) (j : Job) : Job × Bool :=
  match j.st with
  | .done => (j, true)
  | .running => (j, false)
  | .finishing =>
    ({ j with st := .done, epoch := now, bytes := 0, resets := j.resets + 1 }, true)

/-- What happens during a run. -/
inductive Ev where
  /-- The helper thread runs ramp_period_check. -/
  | check (now : Nat → Nat)
  /-- Job `i` starts: set_epoch_time, backend.c:2182. -/
  | start (i now : Nat)
  /-- Job `i` does I/O: td->io_bytes grows (io_u.c:2261). -/
  | io (i n : Nat)
  /-- Job `i` calls ramp_period_over. -/
  | over (i now : Nat)

/-- One step. -/
def step (jobs : List Job) : Ev → List Job
  | .check now => check now jobs
  | .start i now =>
    match jobs[i]? with
    | none => jobs
    | some j => jobs.set i { j with epoch := now }
  | .io i n =>
    match jobs[i]? with
    | none => jobs
    | some j => jobs.set i { j with bytes := j.bytes + n }
  | .over i now =>
    match jobs[i]? with
    | none => jobs
    | some j => jobs.set i (over now j).1

/-- A run. -/
def exec (jobs : List Job) (evs : List Ev) : List Job := evs.foldl step jobs

end Fio.Ramp
