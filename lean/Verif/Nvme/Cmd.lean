import Verif.Nvme.Model
/-
The commands of the io_uring_cmd engine for NVMe, engines/nvme.c:316-479 and 827-905.
-/
namespace Fio.Nvme

/-- Direction of an I/O. -/
inductive Dir | read | write | trim | sync | other
  deriving DecidableEq, Repr

/-- What `addr` and `data_len` of a command refer to: nothing, the iovec for the data buffer of the
I/O, that buffer, or the ranges of a deallocation. -/
inductive Payload
  | none
  | iov (len : Nat)
  | buf (len : Nat)
  | ranges (r : List (Nat × Nat)) (len : Nat)
  deriving DecidableEq, Repr

/-- struct nvme_uring_cmd, engines/nvme.h:18-37, without the fields that stay zero and the
namespace. -/
structure Cmd where
  opcode : Nat
  cdw3 : Nat := 0
  cdw10 : Nat := 0
  cdw11 : Nat := 0
  cdw12 : Nat := 0
  cdw13 : Nat := 0
  cdw14 : Nat := 0
  cdw15 : Nat := 0
  payload : Payload := .none
  metadataLen : Nat := 0
  deriving DecidableEq, Repr

/-- What the commands depend on besides the device: the fields of the I/O and the options. -/
structure IoU where
  dir : Dir
  offset : Nat
  buflen : Nat
  dtype : Nat := 0
  dspec : Nat := 0
  /-- the ranges of a trim with several ranges: start and len of each struct trim_range -/
  ranges : List (Nat × Nat) := []
  /-- zbd_info->zone_size of the file, if there is one -/
  zoneSize : Option Nat := none

/-- fio_nvme_uring_cmd_trim_prep, engines/nvme.c:316-347.  `nr` is dsm->nr_ranges, the option
num_range; sizeof(struct nvme_dsm_range) is 16. -/
def trimPrep (d : NsData) (io : IoU) (nr : Nat) : Cmd :=
  if nr = 1 then
    { opcode := 0x09, cdw11 := 4, cdw10 := 0,
      payload := .ranges [(getSlba d io.offset, (getNlb d io.buflen + 1) % 2 ^ 32)] 16 }
  else
    { opcode := 0x09, cdw11 := 4, cdw10 := (io.ranges.length + 2 ^ 32 - 1) % 2 ^ 32,
      payload := .ranges (io.ranges.map fun r => (getSlba d r.1, (getNlb d r.2 + 1) % 2 ^ 32)) (io.ranges.length * 16) }

/-- The offset a command addresses, engines/nvme.c:381-387: zone appends go to the start of the zone,
`offset & ~(zone_size - 1)`. -/
def cmdOffset (io : IoU) (op : Nat) : Nat :=
  match io.zoneSize with
  | some z => if op = 0x7d then io.offset &&& (2 ^ 64 - 1 - (z + 2 ^ 64 - 1) % 2 ^ 64) else io.offset
  | none => io.offset

/-- fio_nvme_uring_cmd_prep, engines/nvme.c:349-427; `none` is -ENOTSUP. -/
def prep (d : NsData) (io : IoU) (vec : Bool) (nr readOp writeOp cdw12Flags : Nat) : Option Cmd :=
  let rdwr (op : Nat) : Option Cmd :=
    let slba := getSlba d (cmdOffset io op)
    let nlb := getNlb d io.buflen
    let c : Cmd :=
      { opcode := op, cdw10 := slba &&& 0xffffffff, cdw11 := slba >>> 32 % 2 ^ 32,
        cdw12 := nlb ||| (io.dtype <<< 20 % 2 ^ 32) ||| cdw12Flags, cdw13 := io.dspec <<< 16 % 2 ^ 32 }
    let oc : Option Cmd :=
      if vec then some { c with payload := .iov io.buflen }
      else if op = 0x02 ∨ op = 0x01 ∨ op = 0x05 ∨ op = 0x7d then some { c with payload := .buf (io.buflen % 2 ^ 32) }
      else if op = 0x08 ∨ op = 0x04 ∨ op = 0x0c then some c
      else none
    oc.map fun c =>
      if d.lbaShift ≠ 0 ∧ d.ms ≠ 0 then { c with metadataLen := ((nlb + 1) % 2 ^ 32 * d.ms) % 2 ^ 32 } else c
  match io.dir with
  | .read => rdwr readOp
  | .write => rdwr writeOp
  | .trim => some (trimPrep d io nr)
  | .sync => some { opcode := 0x00 }
  | .other => none

/-- fio_nvme_pi_fill, engines/nvme.c:441-479, without the call of fio_nvme_generate_guard.  `apptag_mask << 16`
of a 16 bit number is computed in a signed int; the model takes the bits the compilers give. -/
def piFill (d : NsData) (io : IoU) (flags apptag mask : Nat) (c : Cmd) : Cmd :=
  let slba := getSlba d io.offset
  let c := { c with cdw12 := c.cdw12 ||| flags }
  let app (c : Cmd) : Cmd := if flags.testBit 27 then { c with cdw15 := mask <<< 16 ||| apptag } else c
  if d.piType = 1 ∨ d.piType = 2 then
    let c := if d.guardType = 0 then
        if flags.testBit 26 then { c with cdw14 := slba % 2 ^ 32 } else c
      else if d.guardType = 2 then
        if flags.testBit 26 then { c with cdw14 := slba % 2 ^ 32, cdw3 := slba >>> 32 &&& 0xffff } else c
      else c
    app c
  else if d.piType = 3 then app c
  else c

/-- The zones addressed by fio_nvme_reset_wp, engines/nvme.c:843-858, and fio_nvme_finish_zone,
engines/nvme.c:882-899, when all commands succeed: cdw10 and cdw11 of each command.  `none`: no
zone size (a division by zero). -/
def zoneCmds (d : NsData) (zoneSize offset length : Nat) : Option (List (Nat × Nat)) :=
  if zoneSize = 0 then none else
  let nr := ((length + zoneSize - 1) / zoneSize) % 2 ^ 32
  let rec go : Nat → Nat → List (Nat × Nat)
    | 0, _ => []
    | n + 1, z => (z &&& 0xffffffff, z >>> 32) :: go n ((z + zoneSize >>> d.lbaShift) % 2 ^ 64)
  some (go nr (offset >>> d.lbaShift))

/-- The flags of the commands with write_mode=zeroes, engines/io_uring.c:1694-1714 in
fio_ioring_cmd_init: deac sets bit 25, writefua bit 30. -/
def writeFlags (zeroes deac writefua : Bool) : Nat :=
  let x := if zeroes ∧ deac then 2 ^ 25 else 0
  if writefua then 2 ^ 30 else x

end Fio.Nvme
