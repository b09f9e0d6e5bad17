/-!
# What the entries of the io_uring submission ring say (engines/io_uring.c)

`fio_ioring_prep` fills in the entry of a unit, over what the last unit in the same place has left there; `fio_ioring_event` and
`fio_ioring_cmd_event` read what comes back.  Fields are numbers; those of a union are one field.  Addresses are numbers.
Little endian (`cmd_op` is the lower half of `off`).  Metadata buffers are only an address.
-/

namespace Fio.Sqe

/-- /repo/io_ddir.h:7-20 -/
inductive Ddir
  | read | write | trim | sync | datasync | syncRange | syncfs
deriving DecidableEq, Repr

/-- `struct io_uring_sqe`, /repo/os/linux/io_uring.h:17-83: `rw` is `rw_flags`, `fsync_flags` and `sync_range_flags`; `off` is also
`cmd_op` and `__pad1`; `addr3` is also `attr_ptr`. -/
structure Sqe where
  opcode : Nat
  flags : Nat
  ioprio : Nat
  fd : Int
  off : Nat
  addr : Nat
  len : Nat
  rw : Nat
  userData : Nat
  bufIndex : Nat
  fileIndex : Nat
  addr3 : Nat
  mask : Nat
deriving DecidableEq, Repr

/-- The options used (/repo/engines/io_uring.c:64-128) and `td->ioprio`, `td->o.sync_file_range`. -/
structure Opts where
  registerfiles : Bool
  fixedbufs : Bool
  nonvectored : Bool
  md : Bool
  odirect : Bool
  uncached : Bool
  nowait : Bool
  oatomic : Bool
  forceAsync : Nat
  ioprio : Nat
  syncRange : Nat
deriving DecidableEq, Repr

/-- The file of a unit. -/
structure File where
  fd : Int
  pos : Int
  firstWrite : Nat
  lastWrite : Nat
deriving DecidableEq, Repr

/-- A unit: `ptr` is its address, `pi` that of its metadata attributes. -/
structure IoU where
  index : Nat
  ddir : Ddir
  buf : Nat
  len : Nat
  offset : Nat
  ptr : Nat
  pi : Nat
deriving DecidableEq, Repr

/-- The entries, the vectors (at the address `iovAt`, 16 bytes each), and `prepped`. -/
structure Ld where
  sqes : Nat → Sqe
  iovAt : Nat
  iovs : Nat → Nat × Nat
  prepped : Nat

/-- /repo/engines/io_uring.c:1625, /repo/engines/io_uring.c:1867 -/
def init (iovAt : Nat) : Ld :=
  { sqes := fun _ => ⟨0, 0, 0, 0, 0, 0, 0, 0, 0, 0, 0, 0, 0⟩
    iovAt := iovAt
    iovs := fun _ => (0, 0)
    prepped := 0 }

/-- /repo/engines/io_uring.c:726-732 -/
def prepFile (o : Opts) (f : File) (s : Sqe) : Sqe :=
  if o.registerfiles then { s with fd := f.pos, flags := 1 } else { s with fd := f.fd, flags := 0 }

/-- /repo/engines/io_uring.c:231-239 -/
def rwOp (o : Opts) (u : IoU) : Nat :=
  if o.fixedbufs then (if u.ddir = .read then 4 else 5)
  else if o.nonvectored then (if u.ddir = .read then 22 else 23)
  else (if u.ddir = .read then 1 else 2)

/-- /repo/engines/io_uring.c:735-758 -/
def prepBuf (o : Opts) (ld : Ld) (u : IoU) (s : Sqe) : Sqe :=
  if o.fixedbufs then
    { s with opcode := rwOp o u, addr := u.buf, len := u.len % 2 ^ 32, bufIndex := u.index % 2 ^ 16 }
  else if o.nonvectored then { s with opcode := rwOp o u, addr := u.buf, len := u.len % 2 ^ 32 }
  else { s with opcode := rwOp o u, addr := ld.iovAt + 16 * u.index, len := 1 }

/-- /repo/engines/io_uring.c:747-748 -/
def prepIov (o : Opts) (u : IoU) (iovs : Nat → Nat × Nat) : Nat → Nat × Nat :=
  if !o.fixedbufs ∧ (u.ddir = .read ∨ u.ddir = .write) then fun i => if i = u.index then (u.buf, u.len) else iovs i else iovs

/-- /repo/engines/io_uring.c:759-760, /repo/engines/io_uring.c:707-708 -/
def prepMd (o : Opts) (u : IoU) (s : Sqe) : Sqe :=
  if o.md then { s with mask := 1, addr3 := u.pi } else s

/-- /repo/engines/io_uring.c:761-767 -/
def rwFlags (o : Opts) (u : IoU) : Nat :=
  let r := 0
  let r := if !o.odirect ∧ o.uncached then r ||| 0x80 else r
  let r := if o.nowait then r ||| 0x8 else r
  if o.oatomic ∧ u.ddir = .write then r ||| 0x40 else r

/-- /repo/engines/io_uring.c:734-806 -/
def prepOp (o : Opts) (ld : Ld) (f : File) (u : IoU) (s : Sqe) : Sqe :=
  match u.ddir with
  | .read | .write =>
    { prepMd o u (prepBuf o ld u s) with
      rw := rwFlags o u
      ioprio := o.ioprio
      off := u.offset }
  | .syncRange =>
    { s with
      ioprio := 0
      off := f.firstWrite
      len := (f.lastWrite + 2 ^ 64 - f.firstWrite) % 2 ^ 32
      rw := o.syncRange
      opcode := 8 }
  | .sync | .syncfs => { s with ioprio := 0, off := 0, addr := 0, len := 0, opcode := 3 }
  | .datasync => { s with ioprio := 0, off := 0, addr := 0, len := 0, rw := s.rw ||| 1, opcode := 3 }
  | .trim =>
    { s with
      opcode := 46
      addr := u.offset
      addr3 := u.len
      rw := 0
      len := 0
      off := 0x1200
      ioprio := 0
      fileIndex := 0 }

/-- /repo/engines/io_uring.c:808 -/
def isAsync (o : Opts) (prepped : Nat) : Bool := o.forceAsync ≠ 0 ∧ prepped + 1 = o.forceAsync

/-- /repo/engines/io_uring.c:717-815 `fio_ioring_prep` -/
def prep (o : Opts) (ld : Ld) (x : File × IoU) : Ld :=
  let u := x.2
  let s := prepOp o ld x.1 u (prepFile o x.1 (ld.sqes u.index))
  let s := if isAsync o ld.prepped then { s with flags := s.flags ||| 16 } else s
  let s := { s with userData := u.ptr }
  { ld with
    sqes := fun i => if i = u.index then s else ld.sqes i
    iovs := prepIov o u ld.iovs
    prepped := if o.forceAsync = 0 then ld.prepped else if isAsync o ld.prepped then 0 else ld.prepped + 1 }

/-- One unit after the other. -/
def preps (o : Opts) (iovAt : Nat) (xs : List (File × IoU)) : Ld := xs.foldl (prep o) (init iovAt)

/-! ## What comes back -/

/-- What the unit then says; `trimFail`: trims are done synchronously from now on. -/
structure Ev where
  error : Nat
  resid : Nat
  trimFail : Bool
deriving DecidableEq, Repr

/-- /repo/engines/io_uring.c:967-989 `fio_ioring_event`, without metadata: `res` is converted to 64 bits without a sign for the
comparisons; `error` and `resid` are 0 before. -/
def event (ddir : Ddir) (len : Nat) (res : Int) : Ev :=
  if (res % 2 ^ 64).toNat = len ∨ (ddir = .trim ∧ res = 0) then ⟨0, 0, false⟩
  else
    let r := if ddir = .trim then 0 else res
    if (r % 2 ^ 64).toNat > len then ⟨(-r % 2 ^ 32).toNat, 0, decide (ddir = .trim)⟩
    else ⟨0, len - (r % 2 ^ 64).toNat, decide (ddir = .trim)⟩

/-- /repo/engines/io_uring.c:1007-1044 `fio_ioring_cmd_event`: the error, and whether it is one of the device
(`IO_U_F_DEVICE_ERROR`).  `bsg` is `big_cqe[0]` for SCSI generic devices; `met` is `rmode = prefetch` and a read. -/
def cmdEvent (res : Int) (bsg : Option Int) (met : Bool) : Nat × Bool :=
  let e :=
    if res ≠ 0 then res
    else
      match bsg with
      | none => res
      | some ret =>
        if ret ≠ 0 then (if met ∧ ret % 256 = 4 then ret - ret % 256 else ret)
        else res
  (e.natAbs, decide (e > 0))

end Fio.Sqe
