/-
The files of a job: their reference counts, and the choice of the file for the next I/O.

Not modelled: the counters of disk utilization, locks, fsync at close, the log of file actions, the contents of
fio_file_reset (positions within a file).  Reference counts are `int`s that do not overflow: there are at most
iodepth + 1 references to a file.
-/
namespace Fio.Files

/-- What the calls of the system say when a file is opened (ioengines.c:543-634): the engine cannot open it; the
engine opens it but one of the later steps (a random job on a pipe, dropping the cache, the write hint, direct
I/O) fails; all is well. -/
inductive Outcome where
  | noOpen
  | later
  | ok
deriving DecidableEq, Repr

/-- What of struct fio_file counts here (file.h:29-32, 163-164): the flags open, closing and done, `fd`: is `fd`
something else than -1, i.e. does the engine have the file open?, `references`. -/
structure File where
  opn : Bool
  closing : Bool
  done : Bool
  fd : Bool
  refs : Nat
deriving DecidableEq, Repr

/-- Values of file_service_type (file.h:53-59): round robin, sequential, random, and zipf, pareto or normal
(`uneven`). -/
inductive Service where
  | rr
  | seq
  | random
  | uneven
deriving DecidableEq, Repr

/-- Options: nr_files, open_files, file_service_type, file_service_nr. -/
structure Cfg where
  nr : Nat
  openFiles : Nat
  service : Service
  serviceNr : Nat
deriving DecidableEq, Repr

/-- State: files; nr_open_files, nr_done_files, next_file, file_service_file, file_service_left of struct
thread_data (fio.h:239-242, 490-492).  `holds i`: number of I/O units whose `file` is file i. -/
structure St where
  files : Nat → File
  nrOpen : Nat
  nrDone : Nat
  next : Nat
  svc : Option Nat
  left : Nat
  holds : Nat → Nat

/-- A file at the start. -/
def File.new : File := ⟨false, false, false, false, 0⟩

/-- A job at the start. -/
def init : St := ⟨fun _ => .new, 0, 0, 0, none, 0, fun _ => 0⟩

/-- A change of file i. -/
def setFile (s : St) (i : Nat) (f : File) : St :=
  { s with files := fun j => if j = i then f else s.files j }

/-- A change of the number of I/O units of file i. -/
def setHolds (s : St) (i : Nat) (n : Nat) : St :=
  { s with holds := fun j => if j = i then n else s.holds j }

/-- get_file (filesetup.c:1964-1969); `none`: the assertion fails. -/
def getFile (s : St) (i : Nat) : Option St :=
  let f := s.files i
  if f.opn then some (setFile s i { f with refs := f.refs + 1 }) else none

/-- put_file (filesetup.c:1971-2007); `none`: an assertion fails, or nr_open_files would become negative.  The engine's
close sets `fd` to -1, whether it succeeds or not (filesetup.c:662-676). -/
def putFile (s : St) (i : Nat) : Option St :=
  let f := s.files i
  if !f.opn then
    if f.fd then none else some s
  else if f.refs = 0 then none
  else if f.refs - 1 ≠ 0 then some (setFile s i { f with refs := f.refs - 1 })
  else if s.nrOpen = 0 then none
  else some (setFile { s with nrOpen := s.nrOpen - 1 } i
    { f with refs := 0, fd := false, closing := false, opn := false })

/-- td_io_open_file (ioengines.c:529-642): whether it failed, and the new state. -/
def openFile (s : St) (i : Nat) (o : Outcome) : Option (Bool × St) :=
  let f := s.files i
  if f.closing then
    (getFile (setFile s i { f with closing := false }) i).map (fun s => (false, s))
  else if f.opn || f.fd then none
  else match o with
    | .noOpen => some (true, s)
    | .ok => (getFile (setFile { s with nrOpen := s.nrOpen + 1 } i
        { f with fd := true, opn := true, closing := false }) i).map (fun s => (false, s))
    | .later => (getFile (setFile { s with nrOpen := s.nrOpen + 1 } i
        { f with fd := true, opn := true, closing := false }) i).map
          (fun s => (true, setFile s i { s.files i with fd := false }))

/-- td_io_close_file (ioengines.c:644-655). -/
def closeFile (s : St) (i : Nat) : Option St :=
  putFile (setFile s i { s.files i with closing := true }) i

/-- What a function choosing a file returns: a file, NULL, -EBUSY; it may also not return (`spin`), or fail an
assertion (`abort`). -/
inductive Pick where
  | file (i : Nat)
  | null
  | busy
  | spin
  | abort
deriving DecidableEq, Repr

/-- What becomes of one file in the loops of get_next_file_rr and get_next_file_rand: chosen, next please, or the loop
ends with -EBUSY or by an assertion. -/
inductive Try where
  | take
  | skip
  | busy
  | abort
deriving DecidableEq, Repr

/-- The body of these loops, which is the same for both (io_u.c:1415-1436, 1457-1486), `goodf` being open and `badf`
closing (io_u.c:1521-1523). -/
def tryFile (c : Cfg) (s : St) (i : Nat) (o : Outcome) : Try × St :=
  if (s.files i).done then (.skip, s)
  else if (s.files i).opn then
    if !(s.files i).closing then (.take, s) else (.skip, s)
  else if s.nrOpen ≥ c.openFiles then (.busy, s)
  else match openFile s i o with
    | none => (.abort, s)
    | some (true, s) => (.skip, s)
    | some (false, s) =>
      if (s.files i).opn && !(s.files i).closing then (.take, s)
      else match closeFile s i with
        | none => (.abort, s)
        | some s => (.skip, s)

/-- The loop of get_next_file_rr (io_u.c:1449-1489).  `e`: what comes of opening each of the files: none is tried
twice. -/
def rrLoop (c : Cfg) (old : Nat) (e : Nat → Outcome) : Nat → St → Pick × St
  | 0, s => (.spin, s)
  | n + 1, s =>
    let i := s.next
    let s := { s with next := if s.next + 1 ≥ c.nr then 0 else s.next + 1 }
    match tryFile c s i (e i) with
    | (.take, s) => (.file i, s)
    | (.busy, s) => (.busy, s)
    | (.abort, s) => (.abort, s)
    | (.skip, s) => if s.next ≠ old then rrLoop c old e n s else (.null, s)

/-- get_next_file_rr (io_u.c:1443-1493). -/
def nextRr (c : Cfg) (e : Nat → Outcome) (n : Nat) (s : St) : Pick × St :=
  rrLoop c s.next e n s

/-- get_next_file_rand (io_u.c:1403-1438); `d`: the file drawn at each turn, which is less than nr_files, and what
would come of opening it. -/
def randLoop (c : Cfg) (d : Nat → Nat × Outcome) : Nat → Nat → St → Pick × St
  | 0, _, s => (.spin, s)
  | n + 1, k, s =>
    match tryFile c s (d k).1 (d k).2 with
    | (.take, s) => (.file (d k).1, s)
    | (.busy, s) => (.busy, s)
    | (.abort, s) => (.abort, s)
    | (.skip, s) => randLoop c d n (k + 1) s

/-- What fill_io_u comes to (io_u.c:1554): success, failure, failure with ddir DDIR_TIMEOUT. -/
inductive Fill where
  | ok
  | fail
  | timeout
deriving DecidableEq, Repr

/-- What the environment does during one call of get_next_file and fill_io_u: what comes of opening each file, the
files drawn at random and what comes of opening them, what fill_io_u says if it is called for file i. -/
structure Env where
  opens : Nat → Outcome
  draws : Nat → Nat × Outcome
  fill : Nat → Fill

/-- file_service_nr - 1 as an unsigned number (io_u.c:1529); file_service_nr may be 0 (options.c:1109). -/
def leftInit (c : Cfg) : Nat := if c.serviceNr = 0 then 2 ^ 32 - 1 else c.serviceNr - 1

/-- The part of __get_next_file that searches (io_u.c:1519-1529). -/
def search (c : Cfg) (n : Nat) (e : Env) (s : St) : Pick × St :=
  let r := match c.service with
    | .rr | .seq => nextRr c e.opens n s
    | .random | .uneven => randLoop c e.draws n 0 s
  match r with
  | (.file i, s) => (.file i, { s with svc := some i, left := leftInit c })
  | (.null, s) => (.null, { s with svc := none, left := leftInit c })
  | r => r

/-- Is there a file being serviced that can be used (io_u.c:1509-1510)? -/
def current (s : St) : Option Nat :=
  match s.svc with
  | some i => if (s.files i).opn && !(s.files i).closing then some i else none
  | none => none

/-- __get_next_file (io_u.c:1495-1536).  `n`: bound for the number of turns. -/
def nextFile (c : Cfg) (n : Nat) (e : Env) (s : St) : Pick × St :=
  if s.nrDone ≥ c.nr then (.null, s)
  else match current s with
    | some i =>
      if c.service = .seq then (.file i, s)
      else if s.left ≠ 0 then (.file i, { s with left := s.left - 1 })
      else search c n e s
    | none => search c n e s

/-- What follows if fill_io_u fails (io_u.c:1560-1576): put_file_log, td_io_close_file, and, unless the direction is
DDIR_TIMEOUT, the file is done, except for the uneven distributions. -/
def giveUp (c : Cfg) (s : St) (i : Nat) (t : Bool) : Option St :=
  match putFile s i with
  | none => none
  | some s =>
    match closeFile s i with
    | none => none
    | some s =>
      if t || c.service = .uneven then some s
      else some (setFile { s with nrDone := s.nrDone + 1 } i { s.files i with done := true })

/-- set_io_u_file (io_u.c:1543-1580).  `env k`: what the environment does in the k-th turn. -/
def setLoop (c : Cfg) (n : Nat) (env : Nat → Env) : Nat → Nat → St → Pick × St
  | 0, _, s => (.spin, s)
  | m + 1, k, s =>
    match nextFile c n (env k) s with
    | (.file i, s) =>
      match getFile s i with
      | none => (.abort, s)
      | some s =>
        match (env k).fill i with
        | .ok => (.file i, setHolds s i (s.holds i + 1))
        | .timeout =>
          match giveUp c s i true with
          | none => (.abort, s)
          | some s => (.busy, s)
        | .fail =>
          match giveUp c s i false with
          | none => (.abort, s)
          | some s => setLoop c n env m (k + 1) s
    | r => r

/-- What happens to a job: it asks for an I/O (set_io_u_file, with bounds for the loops); an I/O unit of file i is put
(put_io_u, io_u.c:895-930); a written block of file i is to be verified, or trimmed (the part of get_next_verify and
get_next_trim about files, verify.c:1478-1490, trim.c:47-58); all files are closed, which clear_io_state does after
all I/O has ended, to start over (filesetup.c:1654-1662, libfio.c:104-126; nr_done_files is not set to 0 if the job
does not start over, which is not modelled); a replayed log says that file i is opened or closed
(ipo_special, iolog.c:135-158). -/
inductive Act where
  | io (m n : Nat) (env : Nat → Env)
  | put (i : Nat)
  | verify (i : Nat) (o : Outcome)
  | closeAll
  | logOpen (i : Nat) (o : Outcome)
  | logClose (i : Nat)

/-- close_files (filesetup.c:1654-1662) for files 0, …, n-1. -/
def closeFiles : Nat → St → Option St
  | 0, s => some s
  | n + 1, s =>
    match closeFiles n s with
    | none => none
    | some s => if (s.files n).opn then closeFile s n else some s

/-- A step; `none`: an assertion fails or a loop does not end.  Steps that cannot happen leave the state alone. -/
def step (c : Cfg) (s : St) : Act → Option St
  | .io m n env =>
    match setLoop c n env m 0 s with
    | (.spin, _) => none
    | (.abort, _) => none
    | (_, s) => some s
  | .put i =>
    if s.holds i = 0 then some s
    else putFile (setHolds s i (s.holds i - 1)) i
  | .verify i o =>
    if i ≥ c.nr then some s
    else if (s.files i).opn then
      (getFile s i).map (fun s => setHolds s i (s.holds i + 1))
    else match openFile s i o with
      | none => none
      | some (true, s) => some s
      | some (false, s) => (getFile s i).map (fun s => setHolds s i (s.holds i + 1))
  | .closeAll =>
    if (List.range c.nr).all (fun i => s.holds i == 0) then
      (closeFiles c.nr s).map (fun s =>
        { s with nrDone := 0, files := fun i => { s.files i with done := false } })
    else some s
  | .logOpen i o => if i ≥ c.nr then some s else (openFile s i o).map (·.2)
  | .logClose i => if i ≥ c.nr then some s else closeFile s i

/-- A run. -/
def run (c : Cfg) : St → List Act → Option St
  | s, [] => some s
  | s, a :: as => match step c s a with
    | none => none
    | some s => run c s as

end Fio.Files
