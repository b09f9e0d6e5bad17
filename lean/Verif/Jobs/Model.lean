/-
The main thread of fio: starting the jobs in their order, with stonewall, start_delay and wait_for, and reaping
those that have ended.

The main thread is a program that makes one step at a time; between its steps, and in any order, the jobs, the
clock and whoever terminates jobs make theirs.

Not modelled: sums of rates, exit status, debug and status output, rusage, disk utilization, idle profiling; calls
that fail in pthread_create and fork other than by leaving the main thread waiting for the job; TD_RAMP,
TD_SETTING_UP, TD_PRE_READING, TD_VERIFYING, TD_FSYNCING, TD_FINISHING are all `running`.
-/
namespace Fio.Jobs

/-- Values of runstate (fio.h:721-736), in their order. -/
inductive Rs where
  | notCreated
  | created
  | initialized
  | running
  | exited
  | reaped
deriving DecidableEq, Repr

/-- Options of a job: stonewall, start_delay, name, wait_for, thread; is the engine cpuio?; did the setup of its
files in the main thread fail (backend.c:2702-2733)? -/
structure JobCfg where
  stonewall : Bool := false
  delay : Nat := 0
  name : Nat
  waitFor : Option Nat := none
  useThread : Bool := false
  cpuio : Bool := false
  failed : Bool := false
deriving DecidableEq, Repr

/-- All jobs, in the order in which for_each_td visits them (fio.h:796-806); `n` is thread_number. -/
structure Cfg where
  n : Nat
  job : Nat → JobCfg

/-- What the main thread and others write of a job: runstate; is td->pid other than 0?; terminate; has the main
thread done fio_sem_up(td->sem)?; has thread_main set TD_EXITED?; has the process been killed?; has the job been
terminated 300 seconds ago, in a state before TD_FSYNCING (backend.c:2472-2474)? -/
structure Job where
  rs : Rs
  pid : Bool
  terminate : Bool
  go : Bool
  ended : Bool
  dead : Bool
  stuck : Bool
deriving DecidableEq, Repr

/-- Where the main thread is in run_threads. -/
inductive Pc where
  /-- at `while (todo)`, backend.c:2744 -/
  | top
  /-- at job `i` of the loop that creates, backend.c:2753-2851; `map` has the jobs of this pass -/
  | create (i : Nat) (map : List Nat)
  /-- waiting for job `i` at startup_sem, backend.c:2841 -/
  | sem (i : Nat) (map : List Nat)
  /-- waiting for the jobs of `map`, backend.c:2858-2878 -/
  | wait (map : List Nat)
  /-- at job `i` of the loop that starts, backend.c:2895-2908 -/
  | start (i : Nat)
  /-- at job `i` of the loop in reap_threads, backend.c:2409-2501; `drain`: called from the last loop of
  run_threads? -/
  | reap (i : Nat) (pending : Nat) (drain : Bool)
  /-- at `while (nr_running)`, backend.c:2916 -/
  | drain
  /-- run_threads has returned -/
  | done
deriving DecidableEq, Repr

/-- What happens to a job, as seen from outside: it is created, its thread_main ends, it is killed, it is
reaped. -/
inductive Ev where
  | create (j : Nat)
  | exit (j : Nat)
  | die (j : Nat)
  | reap (j : Nat)
deriving DecidableEq, Repr

/-- State: the jobs, the variables of run_threads (backend.c:2655), utime_since_genesis, fio_abort.  `log`, newest
first, is what has happened; no step reads it. -/
structure St where
  job : Nat → Job
  todo : Nat
  nrRunning : Nat
  nrStarted : Nat
  time : Nat
  abort : Bool
  pc : Pc
  log : List Ev

/-- `x--` for an unsigned int. -/
def dec (x : Nat) : Nat := (x + 4294967295) % 4294967296

/-- `x++` for an unsigned int. -/
def inc (x : Nat) : Nat := (x + 1) % 4294967296

/-- Changes job `j`. -/
def St.upd (s : St) (j : Nat) (f : Job → Job) : St :=
  { s with job := fun k => if k = j then f (s.job k) else s.job k }

/-- Number of jobs `j < n` with `p j`. -/
def cnt (n : Nat) (p : Nat → Bool) : Nat :=
  match n with
  | 0 => 0
  | n + 1 => cnt n p + if p n then 1 else 0

/-- backend.c:2697-2733: before the loop; a job whose files could not be set up is TD_REAPED and subtracted from
todo. -/
def init (c : Cfg) : St :=
  { job := fun j => { rs := if (c.job j).failed then .reaped else .notCreated, pid := false, terminate := false,
                      go := false, ended := false, dead := false, stuck := false }
    todo := c.n - cnt c.n (fun j => (c.job j).failed)
    nrRunning := 0, nrStarted := 0, time := 0, abort := false, pc := .top, log := [] }

/-- `td->runstate >= TD_EXITED`. -/
def Rs.over : Rs → Bool
  | .exited => true
  | .reaped => true
  | _ => false

/-- waitee_running, backend.c:2625-2647. -/
def waiteeRunning (c : Cfg) (s : St) (i : Nat) : Bool :=
  match (c.job i).waitFor with
  | none => false
  | some w => (List.range c.n).any fun k =>
      !((c.job k).name == (c.job i).name || (c.job k).name != w) && !(s.job k).rs.over

/-- fio_terminate_threads(TERMINATE_ALL, TERMINATE_ALL), libfio.c:222-257, as to the flags `terminate`. -/
def termAll (s : St) : St := { s with job := fun k => { s.job k with terminate := true } }

/-- One job of the loop that creates, backend.c:2753-2841. -/
def createStep (c : Cfg) (s : St) (i : Nat) (map : List Nat) : St :=
  if i < c.n then
    if (s.job i).rs ≠ .notCreated then { s with pc := .create (i + 1) map }
    else if (s.job i).terminate then { s with todo := dec s.todo, pc := .create (i + 1) map }
    else if (c.job i).delay ≠ 0 ∧ (c.job i).delay > s.time then { s with pc := .create (i + 1) map }
    else if (c.job i).stonewall ∧ (s.nrStarted ≠ 0 ∨ s.nrRunning ≠ 0) then { s with pc := .wait map }
    else if waiteeRunning c s i then { s with pc := .create (i + 1) map }
    else
      { s.upd i (fun j => { j with rs := .created }) with
        nrStarted := inc s.nrStarted, pc := .sem i (map ++ [i]), log := .create i :: s.log }
  else { s with pc := .wait map }

/-- One look at the jobs of the map, backend.c:2865-2877: what remains of the map, how many have ended. -/
def waitMap (s : St) : List Nat → List Nat × Nat
  | [] => ([], 0)
  | j :: r =>
    let q := waitMap s r
    if (s.job j).rs = .initialized then q
    else if (s.job j).rs.over then (q.1, q.2 + 1)
    else (j :: q.1, q.2)

/-- One look at the map; with fio_abort there is none, and if jobs are left the main thread goes to the last loop
(backend.c:2858-2890). -/
def waitStep (s : St) (map : List Nat) : St :=
  if s.abort then
    if map.isEmpty then { s with pc := .start 0 } else { s with pc := .drain }
  else
    let q := waitMap s map
    let s' := { s with todo := (s.todo + 4294967295 * q.2) % 4294967296,
                       nrRunning := (s.nrRunning + q.2) % 4294967296 }
    if q.1.isEmpty then { s' with pc := .start 0 } else { s' with pc := .wait q.1 }

/-- One job of the loop that starts, backend.c:2895-2910. -/
def startStep (c : Cfg) (s : St) (i : Nat) : St :=
  if i < c.n then
    if (s.job i).rs = .initialized then
      { s.upd i (fun j => { j with rs := .running, go := true }) with
        nrRunning := inc s.nrRunning, nrStarted := dec s.nrStarted, todo := dec s.todo, pc := .start (i + 1) }
    else { s with pc := .start (i + 1) }
  else { s with pc := .reap 0 0 false }

/-- Is job `i` reaped when it is looked at (backend.c:2422-2482)?  A thread is when it has set TD_EXITED; a process
when it has ended or has been killed, or is taken to be stuck. -/
def reapable (c : Cfg) (s : St) (i : Nat) : Bool :=
  if (c.job i).useThread then (s.job i).rs == .exited
  else (s.job i).rs == .exited || (s.job i).dead || ((s.job i).terminate && (s.job i).stuck)

/-- One job of the loop in reap_threads, and what follows it (backend.c:2409-2505, 2912-2919). -/
def reapStep (c : Cfg) (s : St) (i pending : Nat) (drain : Bool) : St :=
  if i < c.n then
    if (s.job i).pid = false then { s with pc := .reap (i + 1) (pending + 1) drain }
    else if (s.job i).rs = .reaped then { s with pc := .reap (i + 1) pending drain }
    else if reapable c s i then
      { s.upd i (fun j => { j with rs := .reaped }) with
        nrRunning := dec s.nrRunning, pc := .reap (i + 1) pending drain, log := .reap i :: s.log }
    else if (c.job i).useThread then { s with pc := .reap (i + 1) pending drain }
    else { s with pc := .reap (i + 1) (pending + 1) drain }
  else
    let cpu := cnt c.n (fun j => (c.job j).cpuio)
    let real := cnt c.n (fun j => !(c.job j).cpuio)
    let s' := if s.nrRunning = cpu ∧ pending = 0 ∧ real ≠ 0 then termAll s else s
    { s' with pc := if drain then .drain else .top }

/-- A step of the main thread; at startup_sem there is one when the job has got there. -/
def mainStep (c : Cfg) (s : St) : Option St :=
  match s.pc with
  | .top => some { s with pc := if s.todo = 0 then .drain else .create 0 [] }
  | .create i map => some (createStep c s i map)
  | .sem i map => if (s.job i).rs = .initialized then some { s with pc := .create (i + 1) map } else none
  | .wait map => some (waitStep s map)
  | .start i => some (startStep c s i)
  | .reap i p d => some (reapStep c s i p d)
  | .drain => some { s with pc := if s.nrRunning = 0 then .done else .reap 0 0 true }
  | .done => none

/-- What can happen. -/
inductive Act where
  /-- the main thread makes a step -/
  | main
  /-- startup_sem is not up after 10 seconds, backend.c:2841-2847 -/
  | semTimeout
  /-- job `j` gets to TD_INITIALIZED, backend.c:2001-2003 -/
  | jobInit (j : Nat)
  /-- thread_main of job `j` ends, backend.c:2366 -/
  | jobExit (j : Nat)
  /-- the process of job `j` is killed -/
  | die (j : Nat)
  /-- job `j` is terminated by somebody else than the main thread, libfio.c:240-241 -/
  | term (j : Nat)
  /-- 300 seconds pass without job `j`, terminated, getting anywhere -/
  | stuck (j : Nat)
  /-- time passes -/
  | tick (d : Nat)
deriving DecidableEq, Repr

/-- A step. -/
def step (c : Cfg) (s : St) : Act → Option St
  | .main => mainStep c s
  | .semTimeout =>
    match s.pc with
    | .sem i map =>
      if (s.job i).rs = .initialized then none
      else some { termAll s with abort := true, nrStarted := dec s.nrStarted, pc := .wait map }
    | _ => none
  | .jobInit j =>
    if j < c.n ∧ (s.job j).rs = .created ∧ (s.job j).dead = false then
      some (s.upd j (fun q => { q with rs := .initialized, pid := true }))
    else none
  | .jobExit j =>
    if j < c.n ∧ (s.job j).go = true ∧ (s.job j).ended = false ∧ (s.job j).dead = false then
      some { s.upd j (fun q => { q with rs := .exited, ended := true }) with log := .exit j :: s.log }
    else none
  | .die j =>
    if j < c.n ∧ (c.job j).useThread = false ∧ (s.job j).pid = true ∧ (s.job j).ended = false ∧
        (s.job j).dead = false then
      some { s.upd j (fun q => { q with dead := true }) with log := .die j :: s.log }
    else none
  | .term j => if j < c.n then some (s.upd j (fun q => { q with terminate := true })) else none
  | .stuck j =>
    if j < c.n ∧ (s.job j).terminate = true then some (s.upd j (fun q => { q with stuck := true })) else none
  | .tick d => some { s with time := s.time + d }

/-- A sequence of steps. -/
def runs (c : Cfg) : St → List Act → Option St
  | s, [] => some s
  | s, a :: as => match step c s a with
    | none => none
    | some s' => runs c s' as

end Fio.Jobs
