/-
The handshake in which the thread that prints statistics of running jobs asks a job for its resource usage
(stat.c:2831-2845, backend.c:415-422, 2384-2390).

One job.  (The statistics thread goes through the jobs one by one, and each job has its own variables.)  The
semaphore is that of Sem: a down waits for a token, an up adds one.  `tso` says what the memory is like: with
`false` stores take effect at once (sequential consistency), with `true` they pass through a store buffer, first in
first out, as on x86; the operations on the semaphore wait for the thread's buffer to be empty.
-/
namespace Fio.Rusage

/-- td->update_rusage (volatile, fio.h:229) and whether td->runstate is at least TD_EXITED. -/
inductive Var where
  | update
  | exited
deriving DecidableEq, Repr

/-- Where the statistics thread is in the loop of __show_running_run_stats (stat.c:2831-2845). -/
inductive SPc where
  | idle   -- before stat.c:2832
  | set    -- stat.c:2836
  | look   -- stat.c:2838
  | unset  -- stat.c:2839
  | wait   -- stat.c:2842
  | clear  -- stat.c:2844
deriving DecidableEq, Repr

/-- Where the job is: `run` outside check_update_rusage, otherwise backend.c:417-420, `ended` after backend.c:2390. -/
inductive WPc where
  | run
  | rd     -- backend.c:417
  | clr    -- backend.c:418
  | upd    -- backend.c:419
  | up     -- backend.c:420
  | ended
deriving DecidableEq, Repr

/-- `sbuf` and `wbuf` are the store buffers, oldest store first; `fin`: the job is in the last
check_update_rusage; for the specification: `fresh`, whether the job has updated its usage since it was asked, and
`got`, the number of answers, each with `fresh` at that time. -/
structure St where
  update : Bool
  exited : Bool
  value : Nat
  spc : SPc
  wpc : WPc
  fin : Bool
  sbuf : List (Var × Bool)
  wbuf : List (Var × Bool)
  fresh : Bool
  got : List Bool
deriving DecidableEq, Repr

/-- backend.c:2789-2790, with the job running. -/
def init : St := ⟨false, false, 0, .idle, .run, false, [], [], false, []⟩

/-- A variable in memory. -/
def mem (s : St) : Var → Bool
  | .update => s.update
  | .exited => s.exited

/-- A store that reaches the memory. -/
def put (s : St) : Var × Bool → St
  | (.update, b) => { s with update := b }
  | (.exited, b) => { s with exited := b }

/-- A load: the youngest store in the buffer, or the memory. -/
def load (s : St) (buf : List (Var × Bool)) (v : Var) : Bool :=
  match buf.reverse.find? (fun x => x.1 == v) with
  | some x => x.2
  | none => mem s v

/-- A store of the statistics thread. -/
def sstore (tso : Bool) (s : St) (v : Var) (b : Bool) : St :=
  if tso then { s with sbuf := s.sbuf ++ [(v, b)] } else put s (v, b)

/-- A store of the job. -/
def wstore (tso : Bool) (s : St) (v : Var) (b : Bool) : St :=
  if tso then { s with wbuf := s.wbuf ++ [(v, b)] } else put s (v, b)

/-- What happens next: the statistics thread makes a step, the job makes a step of check_update_rusage or begins it, the
job sets its state to TD_EXITED and begins the last one, a buffer is written to memory. -/
inductive Act where
  | stat
  | job
  | exit
  | sflush
  | wflush
deriving DecidableEq, Repr

/-- The statistics thread. -/
def stat (tso : Bool) (s : St) : Option St :=
  match s.spc with
  | .idle => if load s s.sbuf .exited then some s else some { s with spc := .set }
  | .set => some { sstore tso s .update true with spc := .look, fresh := false }
  | .look => if load s s.sbuf .exited then some { s with spc := .unset } else some { s with spc := .wait }
  | .unset => some { sstore tso s .update false with spc := .idle }
  | .wait =>
    if s.sbuf ≠ [] then none
    else if s.value = 0 then none
    else some { s with value := s.value - 1, spc := .clear, got := s.fresh :: s.got }
  | .clear => some { sstore tso s .update false with spc := .idle }

/-- After check_update_rusage. -/
def back (s : St) : WPc := if s.fin then .ended else .run

/-- The job in check_update_rusage. -/
def job (tso : Bool) (s : St) : Option St :=
  match s.wpc with
  | .run => some { s with wpc := .rd }
  | .rd => if load s s.wbuf .update then some { s with wpc := .clr } else some { s with wpc := back s }
  | .clr => some { wstore tso s .update false with wpc := .upd }
  | .upd => some { s with fresh := true, wpc := .up }
  | .up => if s.wbuf ≠ [] then none else some { s with value := s.value + 1, wpc := back s }
  | .ended => none

/-- A step; `none`: not possible. -/
def step (tso : Bool) (s : St) : Act → Option St
  | .stat => stat tso s
  | .job => job tso s
  | .exit => if s.wpc = .run then some { wstore tso s .exited true with wpc := .rd, fin := true } else none
  | .sflush => match s.sbuf with
    | [] => none
    | x :: l => some { put s x with sbuf := l }
  | .wflush => match s.wbuf with
    | [] => none
    | x :: l => some { put s x with wbuf := l }

/-- An execution. -/
def run (tso : Bool) (s : St) : List Act → Option St
  | [] => some s
  | a :: l => match step tso s a with
    | none => none
    | some s => run tso s l

end Fio.Rusage
