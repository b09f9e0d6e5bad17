import Verif.Common.Le
import Verif.Crc.Model
/-
Protection information of the io_uring_cmd engine for NVMe (engines/nvme.c, engines/nvme.h): the
geometry read from the device, the generation of the protection information of a write, its
verification on a read, and the encoding of the commands.

The fields of the structures are natural numbers; where the C arithmetic on them can wrap it is
written with the modulus.  A memory access outside the data or metadata buffer of the I/O is `none`.
-/
namespace Fio.Nvme
open Fio.Crc

/-- struct nvme_data, engines/nvme.h:117-127 (nsid is only copied into the commands). -/
structure NsData where
  lbaShift : Nat := 0
  lbaSize : Nat := 0
  lbaExt : Nat := 0
  ms : Nat := 0
  piSize : Nat := 0
  piType : Nat := 0
  guardType : Nat := 0
  piLoc : Bool := false
  deriving Repr, DecidableEq

/-- The answer of the device to the identify commands, engines/nvme.c:521-593: the fields of
struct nvme_id_ns, nvme_id_ctrl and nvme_nvm_id_ns that fio_nvme_get_info reads. -/
structure Ident where
  nlbaf : Nat
  flbas : Nat
  dps : Nat
  /-- lbaf[].ds and lbaf[].ms -/
  lbaf : List (Nat × Nat)
  /-- ctratt has the ELBAS bit -/
  elbas : Bool
  elbaf : List Nat

/-- fio_nvme_get_info, engines/nvme.c:562-638, after the identify commands succeeded.  `none`: a
shift or an array index without defined meaning; `some none`: the error return for storage tags.
`ilog2` of a power of two is its exponent. -/
def getInfo (x : Ident) (piAct : Bool) : Option (Option NsData) :=
  let idx := if x.nlbaf < 16 then x.flbas % 16 else x.flbas % 16 + (x.flbas / 2 ^ 5 % 4) * 16
  match x.lbaf[idx]? with
  | none => none
  | some (ds, ms) =>
    if ds ≥ 31 then none else
    let d : NsData := { lbaSize := 2 ^ ds, ms := ms }
    let fin (d : NsData) : NsData :=
      if d.ms ≠ 0 ∧ x.flbas / 2 ^ 4 % 2 = 1 then { d with lbaExt := d.lbaSize + d.ms }
      else { d with lbaShift := ds }
    let piType := if ms ≠ 0 then x.dps % 8 else 0
    if piType = 0 then some (some (fin d)) else
    let d := { d with piType := piType }
    let rest (d : NsData) : NsData :=
      let d := if piAct ∧ d.ms = d.piSize then { d with ms := 0 } else d
      fin { d with piLoc := x.dps.testBit 3 }
    if x.elbas then
      match x.elbaf[idx]? with
      | none => none
      | some e =>
        if e % 128 ≠ 0 then some none else
        let g := e / 2 ^ 7 % 4
        let d := { d with guardType := g, piSize := if g = 0 then 8 else if g = 2 then 16 else 0 }
        some (some (rest d))
    else some (some (rest { d with guardType := 0, piSize := 8 }))

/-- get_slba, engines/nvme.h:486-492. -/
def getSlba (d : NsData) (offset : Nat) : Nat :=
  if d.lbaExt ≠ 0 then offset / d.lbaExt else offset / 2 ^ d.lbaShift

/-- get_nlb, engines/nvme.h:494-500: 64 bit arithmetic, cut to the 32 bits of the result. -/
def getNlb (d : NsData) (len : Nat) : Nat :=
  if d.lbaExt ≠ 0 then (len / d.lbaExt + 2 ^ 64 - 1) % 2 ^ 32
  else (len / 2 ^ d.lbaShift + 2 ^ 64 - 1) % 2 ^ 32

/-- The two formats of the protection information: the functions for them differ only in the
definitions by cases below. -/
inductive Guard | g16 | g64
  deriving DecidableEq, Repr

/-- sizeof(struct nvme_16b_guard_pif), sizeof(struct nvme_64b_guard_pif), engines/nvme.h:158-170. -/
def pifSize : Guard → Nat
  | .g16 => 8
  | .g64 => 16

/-- Offset of apptag in the structures, engines/nvme.h:158-170. -/
def appOff : Guard → Nat
  | .g16 => 2
  | .g64 => 8

/-- Offset of srtag in the structures, engines/nvme.h:158-170. -/
def refOff : Guard → Nat
  | .g16 => 4
  | .g64 => 10

/-- cpu_to_be16 and its relatives followed by the store: the bytes in memory. -/
def be (n v : Nat) : List Byte := (le n v).reverse

/-- be16_to_cpu and its relatives of bytes in memory. -/
def fromBe (l : List Byte) : Nat := fromLe l.reverse

/-- struct nvme_pi_data, engines/nvme.h:145-150. -/
structure PiData where
  interval : Nat := 0
  ioFlags : Nat
  apptag : Nat
  apptagMask : Nat
  deriving Repr, DecidableEq

/-- pi_data->interval, engines/nvme.c:25-35 and 177-187: a 32 bit unsigned number. -/
def interval (g : Guard) (d : NsData) : Nat :=
  if d.piLoc then
    if d.lbaExt ≠ 0 then (d.lbaExt + 2 ^ 32 - d.ms) % 2 ^ 32 else 0
  else
    if d.lbaExt ≠ 0 then (d.lbaExt + 2 ^ 32 - pifSize g) % 2 ^ 32
    else (d.ms + 2 ^ 32 - pifSize g) % 2 ^ 32

/-- fio_crc_t10dif resp. fio_crc64_nvme, engines/nvme.c:47-52 and 199-204. -/
def crcStep : Guard → Nat → List Byte → Nat
  | .g16, c, x => (crcT10dif (BitVec.ofNat 16 c) x).toNat
  | .g64, c, x => (crc64nvme (BitVec.ofNat 64 c) x).toNat

/-- The two buffers of an I/O: io_u->xfer_buf and io_u->mmap_data. -/
structure Bufs where
  buf : List Byte
  md : List Byte
  deriving DecidableEq

/-- The guard of a block, engines/nvme.c:47-52, 109-114, 199-204 and 262-267. -/
def guardVal (g : Guard) (d : NsData) (iv bo mo : Nat) (s : Bufs) : Option Nat :=
  if d.lbaExt ≠ 0 then do
    let x ← memRead s.buf bo iv
    some (crcStep g 0 x)
  else do
    let x ← memRead s.buf bo d.lbaSize
    let y ← memRead s.md mo iv
    some (crcStep g (crcStep g 0 x) y)

/-- A store through `pi`, engines/nvme.c:41-44 and 193-196: at `buf + interval` or at
`md_buf + interval`. -/
def piWrite (d : NsData) (iv bo mo off : Nat) (src : List Byte) (s : Bufs) : Option Bufs :=
  if d.lbaExt ≠ 0 then (memWrite s.buf (bo + iv + off) src).map fun b => { s with buf := b }
  else (memWrite s.md (mo + iv + off) src).map fun b => { s with md := b }

/-- A load through `pi`, engines/nvme.c:93-96 and 246-249. -/
def piRead (d : NsData) (iv bo mo off len : Nat) (s : Bufs) : Option (List Byte) :=
  if d.lbaExt ≠ 0 then memRead s.buf (bo + iv + off) len else memRead s.md (mo + iv + off) len

/-- Length of the guard. -/
def guardLen : Guard → Nat
  | .g16 => 2
  | .g64 => 8

/-- Length of the reference tag. -/
def refLen : Guard → Nat
  | .g16 => 4
  | .g64 => 6

/-- The stored reference tag: `cpu_to_be32((__u32)slba + lba_num)`, engines/nvme.c:63, and
put_unaligned_be48, engines/nvme.c:215 and engines/nvme.h:463-471. -/
def refBytes : Guard → Nat → Nat → List Byte
  | .g16, slba, lba => be 4 ((slba % 2 ^ 32 + lba) % 2 ^ 32)
  | .g64, slba, lba =>
    let v := (slba + lba) % 2 ^ 64
    [v / 2 ^ 40, v / 2 ^ 32, v / 2 ^ 24, v / 2 ^ 16, v / 2 ^ 8, v].map (BitVec.ofNat 8)

/-- engines/nvme.c:46-54 and 198-206. -/
def genGuard (g : Guard) (d : NsData) (flags iv bo mo : Nat) (s : Bufs) : Option Bufs :=
  if flags.testBit 28 then do
    let c ← guardVal g d iv bo mo s
    piWrite d iv bo mo 0 (be (guardLen g) c) s
  else some s

/-- engines/nvme.c:56-57 and 208-209. -/
def genApp (g : Guard) (d : NsData) (flags apptag iv bo mo : Nat) (s : Bufs) : Option Bufs :=
  if flags.testBit 27 then piWrite d iv bo mo (appOff g) (be 2 apptag) s else some s

/-- engines/nvme.c:59-68 and 211-220. -/
def genRef (g : Guard) (d : NsData) (flags slba lba iv bo mo : Nat) (s : Bufs) : Option Bufs :=
  if flags.testBit 26 then
    if d.piType = 1 ∨ d.piType = 2 then piWrite d iv bo mo (refOff g) (refBytes g slba lba) s else some s
  else some s

/-- The body of the loops of fio_nvme_generate_pi_16b_guard and fio_nvme_generate_pi_64b_guard,
engines/nvme.c:41-68 and 193-220. -/
def genBlock (g : Guard) (d : NsData) (flags apptag slba lba iv bo mo : Nat) (s : Bufs) : Option Bufs :=
  ((genGuard g d flags iv bo mo s).bind (genApp g d flags apptag iv bo mo)).bind
    (genRef g d flags slba lba iv bo mo)

/-- The loops, engines/nvme.c:40-76 and 192-228; `n` blocks are left. -/
def genLoop (g : Guard) (d : NsData) (flags apptag slba iv : Nat) : Nat → Nat → Nat → Nat → Bufs → Option Bufs
  | 0, _, _, _, s => some s
  | n + 1, lba, bo, mo, s => do
    let s ← genBlock g d flags apptag slba lba iv bo mo s
    if d.lbaExt ≠ 0 then genLoop g d flags apptag slba iv n (lba + 1) (bo + d.lbaExt) mo s
    else genLoop g d flags apptag slba iv n (lba + 1) (bo + d.lbaSize) (mo + d.ms) s

/-- fio_nvme_generate_pi_16b_guard, engines/nvme.c:12-77, and fio_nvme_generate_pi_64b_guard,
engines/nvme.c:164-229. -/
def genPi (g : Guard) (d : NsData) (write : Bool) (flags : Nat) (pi : PiData) (offset len : Nat) (s : Bufs) :
    Option (PiData × Bufs) :=
  let pi := { pi with interval := interval g d }
  if ¬ write then some (pi, s) else
  let slba := getSlba d offset
  let nlb := (getNlb d len + 1) % 2 ^ 32
  (genLoop g d flags pi.apptag slba pi.interval nlb 0 0 0 s).map fun s => (pi, s)

/-- fio_nvme_generate_guard, engines/nvme.c:429-439. -/
def generateGuard (d : NsData) (write : Bool) (flags : Nat) (pi : PiData) (offset len : Nat) (s : Bufs) :
    Option (PiData × Bufs) :=
  if d.piType ≠ 0 ∧ ¬ flags.testBit 29 then
    if d.guardType = 0 then genPi .g16 d write flags pi offset len s
    else if d.guardType = 2 then genPi .g64 d write flags pi offset len s
    else some (pi, s)
  else some (pi, s)

/-- `pi->srtag == NVME_PI_REF_DISABLE`, engines/nvme.c:100, resp. fio_nvme_pi_ref_escape,
engines/nvme.h:479-484. -/
def refEscape : Guard → List Byte → Bool
  | .g16, l => fromLe l == 0xFFFFFFFF
  | .g64, l => l == [0xff#8, 0xff#8, 0xff#8, 0xff#8, 0xff#8, 0xff#8]

/-- `be32_to_cpu(pi->srtag) == (__u32)slba + lba_num`, engines/nvme.c:138-139, resp.
get_unaligned_be48 compared with the low 48 bits, engines/nvme.c:291-293 and engines/nvme.h:473-477. -/
def refMatch : Guard → List Byte → Nat → Nat → Bool
  | .g16, l, slba, lba => fromBe l == (slba % 2 ^ 32 + lba) % 2 ^ 32
  | .g64, l, slba, lba =>
    let b (i : Nat) := (l.getD i 0#8).toNat
    (b 0 <<< 40 ||| b 1 <<< 32 ||| b 2 <<< 24 ||| b 3 <<< 16 ||| b 4 <<< 8 ||| b 5) ==
      ((slba + lba) % 2 ^ 64) % 2 ^ 48

/-- The body of the loops of fio_nvme_verify_pi_16b_guard and fio_nvme_verify_pi_64b_guard,
engines/nvme.c:93-150 and 246-303: `some false` is the return of `-EIO`. -/
def verBlock (g : Guard) (d : NsData) (pi : PiData) (slba lba bo mo : Nat) (s : Bufs) : Option Bool := do
  let app ← piRead d pi.interval bo mo (appOff g) 2 s
  let ref ← piRead d pi.interval bo mo (refOff g) (refLen g) s
  let esc := if d.piType = 3 then fromLe app == 0xFFFF && refEscape g ref
    else if d.piType = 1 ∨ d.piType = 2 then fromLe app == 0xFFFF else false
  if esc then some true else
  let okg ← if pi.ioFlags.testBit 28 then do
      let c ← guardVal g d pi.interval bo mo s
      let st ← piRead d pi.interval bo mo 0 (guardLen g) s
      some (fromBe st == c)
    else some true
  if ¬ okg then some false else
  let oka := if pi.ioFlags.testBit 27 then fromBe app &&& pi.apptagMask == pi.apptag &&& pi.apptagMask else true
  if ¬ oka then some false else
  if pi.ioFlags.testBit 26 then
    if d.piType = 1 ∨ d.piType = 2 then some (refMatch g ref slba lba) else some true
  else some true

/-- The loops, engines/nvme.c:92-161 and 245-314; `n` blocks are left. -/
def verLoop (g : Guard) (d : NsData) (pi : PiData) (slba : Nat) : Nat → Nat → Nat → Nat → Bufs → Option Bool
  | 0, _, _, _, _ => some true
  | n + 1, lba, bo, mo, s => do
    let ok ← verBlock g d pi slba lba bo mo s
    if ¬ ok then some false else
    if d.lbaExt ≠ 0 then verLoop g d pi slba n (lba + 1) (bo + d.lbaExt) mo s
    else verLoop g d pi slba n (lba + 1) (bo + d.lbaSize) (mo + d.ms) s

/-- fio_nvme_pi_verify, engines/nvme.c:481-497, with fio_nvme_verify_pi_16b_guard,
engines/nvme.c:79-162, and fio_nvme_verify_pi_64b_guard, engines/nvme.c:231-315. -/
def piVerify (d : NsData) (pi : PiData) (offset len : Nat) (s : Bufs) : Option Bool :=
  let slba := getSlba d offset
  let nlb := (getNlb d len + 1) % 2 ^ 32
  if d.guardType = 0 then verLoop .g16 d pi slba nlb 0 0 0 s
  else if d.guardType = 2 then verLoop .g64 d pi slba nlb 0 0 0 s
  else some true

end Fio.Nvme
