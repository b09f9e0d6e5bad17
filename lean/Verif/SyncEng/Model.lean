/-!
# The `sync` and `psync` engines: where a transfer takes place

`sync` does `lseek(2)` followed by `read(2)`/`write(2)`, and leaves the `lseek(2)` out when it believes the file
position to be right already; `psync` does `pread(2)`/`pwrite(2)`.

Simplifications: file numbers instead of `struct fio_file`; the kernel keeps one position per file, `lseek` of a valid
offset does not fail, a transfer that fails does not move the position, one that moves `r` bytes advances it by `r`;
data are not modelled, only where they are taken from or put; offsets are natural numbers (no wrap at 2^64); nobody
else uses the descriptor.  The value `-1ULL` of `engine_pos`, which the code asks for, is never stored by it.
-/

namespace Fio.SyncEng

/-- /repo/io_ddir.h:8-22 `enum fio_ddir`, all kinds of sync as one. -/
inductive Dir
  | read | write | trim | sync
deriving DecidableEq, Repr

/-- The parts of `struct io_u` (/repo/io_u.h:33-120) the engine looks at or sets. -/
structure U where
  file : Nat
  off : Nat
  len : Nat
  dir : Dir
  resid : Nat := 0
  err : Nat := 0
deriving DecidableEq, Repr

/-- What the kernel answers: bytes moved (at most what was asked for) or an error number. -/
inductive Res
  | ok (n : Nat)
  | fail (e : Nat)
deriving DecidableEq, Repr

/-- State: kernel position and `engine_pos` (/repo/file.h:129-132) of every file. -/
structure St where
  pos : Nat → Nat
  last : Nat → Nat

/-- New descriptors are at 0, and `engine_pos` is 0 (/repo/filesetup.c:655-675 `generic_close_file` resets it). -/
def init : St := { pos := fun _ => 0, last := fun _ => 0 }

/-- Change of one entry. -/
def upd (g : Nat → Nat) (i v : Nat) : Nat → Nat := fun j => if j = i then v else g j

/-- A transfer the kernel did: direction, file, place, bytes. -/
structure Xfer where
  dir : Dir
  file : Nat
  at_ : Nat
  got : Nat
deriving DecidableEq, Repr

/-- /repo/io_ddir.h:73-76 `ddir_rw`: reads, writes and trims. -/
def ddirRw : Dir → Bool
  | .read => true
  | .write => true
  | .trim => true
  | .sync => false

/-- /repo/engines/sync.c:91-107 `fio_syncio_prep`. -/
def prep (s : St) (u : U) : St :=
  if !ddirRw u.dir then s
  else if s.last u.file = u.off then s
  else { s with pos := upd s.pos u.file u.off }

/-- /repo/engines/sync.c:109-130 `fio_io_end`. -/
def ioEnd (s : St) (u : U) (r : Res) : St × U :=
  match r with
  | .ok n =>
    let s := if ddirRw u.dir then { s with last := upd s.last u.file (u.off + n) } else s
    if n ≠ u.len then (s, { u with resid := u.len - n, err := 0 }) else (s, u)
  | .fail e => (s, { u with err := e })

/-- The kernel's `read(2)`/`write(2)` of `u.len` bytes at the position of the file. -/
def kernelRw (s : St) (u : U) (r : Res) : St × Res × Option Xfer :=
  match r with
  | .ok n =>
    let n := min n u.len
    ({ s with pos := upd s.pos u.file (s.pos u.file + n) }, .ok n, some ⟨u.dir, u.file, s.pos u.file, n⟩)
  | .fail e => (s, .fail e, none)

/-- The kernel's `pread(2)`/`pwrite(2)`: at the offset given. -/
def kernelPrw (u : U) (r : Res) : Res × Option Xfer :=
  match r with
  | .ok n => (.ok (min n u.len), some ⟨u.dir, u.file, u.off, min n u.len⟩)
  | .fail e => (.fail e, none)

/-- /repo/io_u.c:2582-2607 `do_io_u_trim`: given offset and length, the position is not used; `error` is set if it
fails. -/
def doTrim (u : U) (r : Res) : U × Option Xfer :=
  match r with
  | .ok _ => (u, some ⟨.trim, u.file, u.off, u.len⟩)
  | .fail e => ({ u with err := e }, none)

/-- /repo/engines/sync.c:218-238 `fio_syncio_queue`, with what the kernel did. -/
def queue (s : St) (u : U) (r : Res) : St × U × Option Xfer :=
  match u.dir with
  | .trim => let (u', x) := doTrim u r; (s, u', x)
  | .sync => let (s', u') := ioEnd s u r; (s', u', none)
  | _ =>
    let (s1, r1, x) := kernelRw s u r
    let (s2, u') := ioEnd s1 u r1
    (s2, u', x)

/-- /repo/engines/sync.c:197-216 `fio_psyncio_queue` (the one of `pvsync`, 133-157, does the same with a vector of
one). -/
def pqueue (s : St) (u : U) (r : Res) : St × U × Option Xfer :=
  match u.dir with
  | .trim => let (u', x) := doTrim u r; (s, u', x)
  | .sync => let (s', u') := ioEnd s u r; (s', u', none)
  | _ =>
    let (r1, x) := kernelPrw u r
    let (s2, u') := ioEnd s u r1
    (s2, u', x)

/-- What a job does with the engine.  `io`: `get_io_u` prepares the unit (/repo/io_u.c:2007-2017) and `do_io` queues
it.  `drop`: a unit is prepared and put back, because the verify state says to skip it
(/repo/backend.c:1294-1304).  `reopen`: the file is closed and opened again. -/
inductive Ev
  | io (u : U) (r : Res)
  | drop (u : U)
  | reopen (f : Nat)
deriving Repr

/-- One event with the `sync` engine; the transfer together with the unit as it was queued. -/
def step (s : St) : Ev → St × Option (U × Xfer)
  | .io u r =>
    let q := queue (prep s u) u r
    (q.1, q.2.2.map fun x => (u, x))
  | .drop u => (prep s u, none)
  | .reopen f => ({ pos := upd s.pos f 0, last := upd s.last f 0 }, none)

/-- A job with the `sync` engine: all transfers it does. -/
def run : St → List Ev → List (U × Xfer)
  | _, [] => []
  | s, e :: es =>
    let r := step s e
    match r.2 with
    | none => run r.1 es
    | some x => x :: run r.1 es

/-- The same with `psync`, which has no `prep`. -/
def pstep (s : St) : Ev → St × Option (U × Xfer)
  | .io u r =>
    let q := pqueue s u r
    (q.1, q.2.2.map fun x => (u, x))
  | .drop _ => (s, none)
  | .reopen f => ({ pos := upd s.pos f 0, last := upd s.last f 0 }, none)

def prun : St → List Ev → List (U × Xfer)
  | _, [] => []
  | s, e :: es =>
    let r := pstep s e
    match r.2 with
    | none => prun r.1 es
    | some x => x :: prun r.1 es

/-! ## A transfer in parts -/

/-- /repo/backend.c:452-500 `io_queue_event` for `FIO_Q_COMPLETED`: a unit with a rest gets the rest as its new
transfer and is queued again; `none`: finished, or an error (also the "full resid" error of no bytes at all). -/
def rest (u : U) : Option U :=
  if u.err ≠ 0 then none
  else if u.resid = 0 then none
  else if u.len - u.resid = 0 then none
  else some { u with off := u.off + (u.len - u.resid), len := u.resid, resid := 0 }

/-- One unit to its end: the kernel answers with `rs`, one for each attempt.  Result: the transfers, and whether all of
it was moved. -/
def complete (s : St) (u : U) : List Res → List Xfer × Bool
  | [] => ([], false)
  | r :: rs =>
    let q := queue (prep s u) u r
    let xs := q.2.2.toList
    match rest q.2.1 with
    | some u' => let c := complete q.1 u' rs; (xs ++ c.1, c.2)
    | none => (xs, q.2.1.err = 0 ∧ q.2.1.resid = 0)

end Fio.SyncEng
