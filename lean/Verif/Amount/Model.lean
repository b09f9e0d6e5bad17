/-!
Model of how much I/O a job does: the limits in do_io (backend.c:1153-1440), keep_running (backend.c:1805-1854) and the
loop of thread_main around them (backend.c:2203-2310).

Simplifications: no verification, no replay, no time limit, no termination from outside, no errors; every transfer is
complete.  What get_io_u delivers, and whether all files are done, is decided by an environment.  An I/O in flight
counts as done: the checks look at the bytes issued, and do_io waits for all I/O before it returns.
-/

namespace Fio.Amount

/-- `unsigned long long`. -/
def w (x : Nat) : Nat := x % 18446744073709551616

/-- A job: size, io_size, loops, number_ios, the largest block; does the engine complete at once (FIO_Q_COMPLETED);
td_write, td_random, norandommap, td_trimwrite. -/
structure Cfg where
  size : Nat
  ioSize : Nat
  loops : Nat
  numberIos : Nat
  maxBs : Nat
  sync : Bool
  write : Bool
  random : Bool
  norandommap : Bool
  trimwrite : Bool

/-- td->loops, init.c:1066-1068. -/
def Cfg.tdLoops (c : Cfg) : Nat := if c.loops = 0 then 1 else c.loops

/-- `limit`, backend.c:835-838 and 1830-1833. -/
def Cfg.limit (c : Cfg) : Nat := if c.ioSize ≠ 0 then c.ioSize else c.size

/-- total_bytes in do_io, backend.c:1168-1195 (no verification); total_io_size is that of filesetup.c:1469-1472. -/
def Cfg.total (c : Cfg) : Nat :=
  let t := c.size
  let t := if c.write ∧ c.random ∧ c.norandommap then max t c.ioSize else t
  let t := if c.write ∧ ¬ c.random then max t c.ioSize else t
  if c.trimwrite then w (t + w (c.limit * c.loops)) else t

/-- Where the job is: at keep_running, in do_io, over. -/
inductive Pc where
  | keep
  | io
  | done
deriving DecidableEq, Repr

/-- State: bytes issued of the directions that count for the limit (backend.c:826-833) and of all directions, number of
I/Os, o.loops, o.number_ios; bytes issued since do_io was entered, and `bytes_issued` of do_io. -/
structure St where
  cnt : Nat
  all : Nat
  ios : Nat
  loops : Nat
  num : Nat
  call : Nat
  bi : Nat
  pc : Pc
deriving DecidableEq, Repr

/-- An I/O: does it count for the limit (not so a trim of trimwrite), its length. -/
structure Io where
  counted : Bool
  len : Nat
deriving DecidableEq, Repr

/-- The answers of the environment: fio_files_done, and what get_io_u delivers. -/
structure Ans where
  filesDone : Bool
  io : Option Io
deriving DecidableEq, Repr

/-- Before the loop of thread_main. -/
def init (c : Cfg) : St :=
  { cnt := 0, all := 0, ios := 0, loops := c.loops, num := c.numberIos, call := 0, bi := 0, pc := .keep }

/-- exceeds_number_ios, backend.c:809-820. -/
def exceedsIos (c : Cfg) (s : St) : Bool := decide (s.num ≠ 0 ∧ s.ios ≥ w (s.num * c.tdLoops))

/-- io_issue_bytes_exceeded, backend.c:822-847. -/
def exceeded (c : Cfg) (s : St) : Bool := decide (s.cnt ≥ w (c.limit * c.tdLoops)) || exceedsIos c s

/-- Entering do_io, backend.c:1153-1195; the number of I/Os is doubled for trimwrite. -/
def enter (c : Cfg) (s : St) : St :=
  { s with pc := .io, call := 0, bi := 0, num := if c.trimwrite then w (s.num * 2) else s.num }

/-- keep_running, backend.c:1805-1854. -/
def keepStep (c : Cfg) (s : St) (filesDone : Bool) : St :=
  if s.loops ≠ 0 then enter c { s with loops := s.loops - 1 }
  else if exceedsIos c s then { s with pc := .done }
  else if c.limit ≠ 18446744073709551615 ∧ s.all < c.limit then
    if c.limit - s.all < c.maxBs then { s with pc := .done }
    else if filesDone ∧ c.ioSize = 0 then { s with pc := .done }
    else enter c s
  else { s with pc := .done }

/-- The end of do_io; nothing done terminates the job (backend.c:2228-2230). -/
def leave (s : St) : St := { s with pc := if s.call = 0 then .done else .keep }

/-- One turn of the loop in do_io, backend.c:1197-1402.  An I/O completed at once is not added to bytes_issued
(io_queue_event, backend.c:456-505). -/
def ioStep (c : Cfg) (s : St) : Option Io → St
  | io =>
    if exceeded c s then leave s
    else if s.bi ≥ c.total then leave s
    else match io with
      | none => leave s
      | some i =>
        { s with cnt := if i.counted then s.cnt + i.len else s.cnt, all := s.all + i.len, ios := s.ios + 1,
                 call := s.call + i.len, bi := if c.sync then s.bi else s.bi + i.len }

/-- A step. -/
def step (c : Cfg) (s : St) (a : Ans) : Option St :=
  match s.pc with
  | .keep => some (keepStep c s a.filesDone)
  | .io => some (ioStep c s a.io)
  | .done => none

/-- Steps. -/
def runs (c : Cfg) : St → List Ans → Option St
  | s, [] => some s
  | s, a :: as => match step c s a with
    | none => none
    | some s' => runs c s' as

end Fio.Amount
