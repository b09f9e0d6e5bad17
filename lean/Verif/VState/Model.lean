import Verif.Common.Le
import Verif.Common.Mem
import Verif.Crc.Model
/-
The saved verify state: get_all_io_list, write_thread_list_state, verify_load_state, verify_assign_state,
verify_state_should_skip and verify_state_should_stop (verify.c:1656-2076).
-/
namespace Fio.VState

abbrev U64 := BitVec 64

/-- INVALID_NUMBERIO, verify-state.h:105. -/
def invalid : U64 := BitVec.allOnes 64

/-- struct thread_io_list, verify-state.h:30-37, with the generator state of verify-state.h:9-23.  The
union of the two generator states is 48 bytes, kept as such. -/
structure St where
  depth : BitVec 32
  numberio : U64
  index : U64
  use64 : U64
  rand : List Byte
  name : List Byte
  inflight : List U64
deriving DecidableEq

/-- The fields have the sizes of the C struct, and the array has `depth` entries. -/
structure St.Wf (s : St) : Prop where
  rand : s.rand.length = 48
  name : s.name.length = 64
  depth : s.inflight.length = s.depth.toNat

/-- What get_all_io_list reads of a job. -/
structure Td where
  iodepth : Nat
  /-- `td->inflight_numberio`; `none` is the null pointer. -/
  slots : Option (List U64)
  issued : U64
  safe : U64
  fsynced : Bool
  failed : List U64
  index : U64
  use64 : U64
  rand : List Byte
  name : List Byte

/-- The state saved for one job, verify.c:1694-1755, when the job does not run meanwhile.  The buffer comes
from calloc, so without an in-flight array its entries are 0. -/
def saveState (td : Td) : St where
  inflight := td.slots.getD (List.replicate td.iodepth 0) ++ td.failed
  numberio := if td.fsynced then (if td.safe ≠ 0 then td.safe - 1 else 0) else td.issued
  depth := BitVec.ofNat 32 (td.iodepth + td.failed.length)
  index := td.index
  use64 := td.use64
  rand := td.rand
  name := td.name

/-! ## The file -/

/-- The bytes of the structure in memory: little endian, four bytes of padding after `depth`
(zero: the buffer comes from calloc). -/
def encode (s : St) : List Byte :=
  le 4 s.depth.toNat ++ le 4 0 ++ le 8 s.numberio.toNat ++ le 8 s.index.toNat ++ le 8 s.use64.toNat ++ s.rand ++ s.name ++
    s.inflight.flatMap fun x => le 8 x.toNat

/-- write_thread_list_state, verify.c:1790-1823: the file contents when all writes succeed. -/
def stateFile (s : St) : List Byte :=
  let body := encode s
  le 8 7 ++ le 8 body.length ++ le 8 (Crc.crc32c body).toNat ++ body

/-- `n` little-endian 64-bit words at `off`; `none` past the end of the allocation. -/
def words (b : List Byte) (off : Nat) : Nat → Option (List U64)
  | 0 => some []
  | n + 1 => (memRead b off 8).bind fun x => (words b (off + 8) n).bind fun l => some (BitVec.ofNat 64 (fromLe x) :: l)

/-- The structure seen through the pointer by verify_assign_state, verify.c:1873-1893. -/
def decode (b : List Byte) : Option St :=
  (memRead b 0 4).bind fun d =>
  (memRead b 8 8).bind fun n =>
  (memRead b 16 8).bind fun i =>
  (memRead b 24 8).bind fun u =>
  (memRead b 32 48).bind fun r =>
  (memRead b 80 64).bind fun name =>
  (words b 144 (fromLe d)).bind fun fl => some {
    depth := BitVec.ofNat 32 (fromLe d)
    numberio := BitVec.ofNat 64 (fromLe n)
    index := BitVec.ofNat 64 (fromLe i)
    use64 := BitVec.ofNat 64 (fromLe u)
    rand := r
    name := name
    inflight := fl }

/-- Outcome of verify_load_state. -/
inductive Load where
  | refused
  /-- accepted, and the bytes are those handed to verify_assign_state -/
  | loaded (body : List Byte)
deriving DecidableEq

/-- verify_load_state, verify.c:1940-1997, on the contents of the state file (read returns what is there;
allocation succeeds). -/
def load (file : List Byte) : Load :=
  let hdr := file.take 24
  if hdr.length ≠ 24 then .refused
  else if fromLe (hdr.take 8) ≠ 7 then .refused
  else
    let size := fromLe ((hdr.drop 8).take 8)
    let body := (file.drop 24).take size
    if body.length ≠ size then .refused
    else if (Crc.crc32c body).toNat ≠ fromLe ((hdr.drop 16).take 8) then .refused
    else .loaded body

/-- verify_state_hdr, verify.c:1922-1938, on a header and the memory that follows it; `none`: the checksum
reads past the end. -/
def stateHdr (hdr mem : List Byte) : Option Bool :=
  if fromLe (hdr.take 8) ≠ 7 then some false
  else (memRead mem 0 (fromLe ((hdr.drop 8).take 8))).bind fun body =>
    some ((Crc.crc32c body).toNat == fromLe ((hdr.drop 16).take 8))

/-! ## Use of a loaded state -/

/-- The part of verify_assign_state that restores the failed writes, verify.c:1899-1917, before sorting. -/
def failedOf (iodepth : Nat) (s : St) : List U64 :=
  if iodepth < s.depth.toNat then
    ((s.inflight.take s.depth.toNat).drop iodepth).filter fun x => decide (x ≠ invalid)
  else []

/-- The loop of verify_state_should_skip, verify.c:2012-2025. -/
def search (failed : List U64) (numberio : U64) : Nat → Nat → Nat → Option Bool
  | fuel, lo, hi =>
    if lo < hi then
      match fuel with
      | 0 => none
      | fuel + 1 =>
        match failed[lo + (hi - lo) / 2]? with
        | none => none
        | some x =>
          if x = numberio then some true
          else if x < numberio then search failed numberio fuel (lo + (hi - lo) / 2 + 1) hi
          else search failed numberio fuel lo (lo + (hi - lo) / 2)
    else some false

/-- verify_state_should_skip, verify.c:2003-2026; `failed` is the sorted array. -/
def shouldSkip (failed : List U64) (numberio : U64) : Option Bool :=
  if failed.length = 0 then some false else search failed numberio failed.length 0 failed.length

/-- Job options and state consulted by verify_state_should_stop. -/
structure Vt where
  iodepth : Nat
  fsynced : Bool
  safe : U64

/-- verify_state_should_stop, verify.c:2031-2076; the state `none` is online verification. -/
def shouldStop (vt : Vt) (st : Option St) (numberio : U64) : Option Bool :=
  match st with
  | none => some (if vt.fsynced then decide (vt.safe = 0) || decide (vt.safe - 1 ≤ numberio) else false)
  | some s =>
    if numberio < s.numberio then
      let actual := if vt.iodepth < s.depth.toNat then vt.iodepth else s.depth.toNat
      if s.inflight.length < actual then none
      else some ((s.inflight.take actual).any fun x => decide (x = numberio))
    else some true

/-- The checks of do_io, backend.c:1291-1304, for the writes numbered `n, n+1, …` (`k` of them): the
numbers that are verified. -/
def verifyRun (skip stop : U64 → Option Bool) : Nat → Nat → Option (List Nat)
  | 0, _ => some []
  | k + 1, n =>
    (skip (BitVec.ofNat 64 n)).bind fun sk =>
    if sk then verifyRun skip stop k (n + 1)
    else (stop (BitVec.ofNat 64 n)).bind fun st =>
      if st then some [] else (verifyRun skip stop k (n + 1)).bind fun l => some (n :: l)

/-- The checks of do_dry_run, backend.c:1898-1933: the numbers that are logged for verification. -/
def dryRun (skip stop : U64 → Option Bool) : Nat → Nat → Option (List Nat)
  | 0, _ => some []
  | k + 1, n =>
    (stop (BitVec.ofNat 64 n)).bind fun st =>
    if st then some []
    else (skip (BitVec.ofNat 64 n)).bind fun sk =>
      (dryRun skip stop k (n + 1)).bind fun l => some (if sk then l else n :: l)

end Fio.VState
