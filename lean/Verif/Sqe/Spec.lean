import Verif.Sqe.Model

/-!
# What the kernel does with an entry, and what the job asks for

The kernel's side is the documented interface (io_uring_enter(2); `io_prep_rw`, `io_fsync_prep`, `io_sfr_prep`, `io_uring_cmd_prep` and
`blkdev_uring_cmd` in Linux), which is not part of /repo.
-/

namespace Fio.Sqe.Spec

open Fio.Sqe

/-- A file by its number in the table registered, or by its descriptor. -/
inductive FileRef
  | registered (i : Int)
  | descriptor (fd : Int)
deriving DecidableEq, Repr

/-- Requests. -/
inductive Req
  | rw (write : Bool) (segs : List (Nat × Nat)) (off : Nat) (dontcache nowait atomic : Bool) (prio : Nat) (fixed : Option Nat)
      (pi : Option Nat)
  | fsync (data : Bool)
  | syncRange (off len flags : Nat)
  | discard (off len : Nat)
  | rejected
deriving DecidableEq, Repr

/-- The vector at an address. -/
def iovAt (ld : Ld) (a : Nat) : Nat × Nat := ld.iovs ((a - ld.iovAt) / 16)

/-- Reads and writes: unknown flags or attributes are rejected. -/
def meansRw (write : Bool) (segs : List (Nat × Nat)) (fixed : Option Nat) (s : Sqe) : Req :=
  if s.mask > 1 then .rejected
  else .rw write segs s.off (s.rw.testBit 7) (s.rw.testBit 3) (s.rw.testBit 6) s.ioprio fixed
    (if s.mask = 1 then some s.addr3 else none)

/-- What the kernel does with an entry. -/
def means (ld : Ld) (s : Sqe) : Req :=
  if s.opcode = 1 ∧ s.len = 1 then meansRw false [iovAt ld s.addr] none s
  else if s.opcode = 2 ∧ s.len = 1 then meansRw true [iovAt ld s.addr] none s
  else if s.opcode = 22 then meansRw false [(s.addr, s.len)] none s
  else if s.opcode = 23 then meansRw true [(s.addr, s.len)] none s
  else if s.opcode = 4 then meansRw false [(s.addr, s.len)] (some s.bufIndex) s
  else if s.opcode = 5 then meansRw true [(s.addr, s.len)] (some s.bufIndex) s
  else if s.opcode = 3 ∧ s.addr = 0 ∧ s.bufIndex = 0 ∧ s.fileIndex = 0 ∧ s.ioprio = 0 ∧ s.rw ≤ 1 ∧ s.off = 0 ∧ s.len = 0 then
    .fsync (s.rw = 1)
  else if s.opcode = 8 ∧ s.addr = 0 ∧ s.bufIndex = 0 ∧ s.fileIndex = 0 ∧ s.ioprio = 0 then .syncRange s.off s.len s.rw
  else if s.opcode = 46 ∧ s.off = 0x1200 ∧ s.ioprio = 0 ∧ s.len = 0 ∧ s.rw = 0 ∧ s.fileIndex = 0 then .discard s.addr s.addr3
  else .rejected

/-- The file an entry is for. -/
def fileOf (s : Sqe) : FileRef := if s.flags % 2 = 1 then .registered s.fd else .descriptor s.fd

/-- What the job asks for. -/
def asked (o : Opts) (f : File) (u : IoU) : Req :=
  match u.ddir with
  | .read => .rw false [(u.buf, u.len)] u.offset (o.uncached && !o.odirect) o.nowait false o.ioprio
      (if o.fixedbufs then some u.index else none) (if o.md then some u.pi else none)
  | .write => .rw true [(u.buf, u.len)] u.offset (o.uncached && !o.odirect) o.nowait o.oatomic o.ioprio
      (if o.fixedbufs then some u.index else none) (if o.md then some u.pi else none)
  | .sync => .fsync false
  | .datasync => .fsync true
  | .syncRange => .syncRange f.firstWrite (f.lastWrite - f.firstWrite) o.syncRange
  | .trim => .discard u.offset u.len
  | .syncfs => .rejected

/-- The file the job means. -/
def fileAsked (o : Opts) (f : File) : FileRef := if o.registerfiles then .registered f.pos else .descriptor f.fd

end Fio.Sqe.Spec
