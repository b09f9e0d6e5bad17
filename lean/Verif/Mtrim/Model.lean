/-
Model of trims with several ranges: `fill_multi_range_io_u` and the part of `fill_io_u` after it
(io_u.c), `mark_random_map`, and the command the NVMe engine builds from the ranges
(engines/nvme.c).

The offset and length generators are the environment: they say what offset and length each round
draws, and whether the draw fails.  Zoned devices (zbd_adjust_block) and data placement are left
out.  `none` is undefined behaviour or a failed assert.
-/
import Verif.Common.Mem
import Verif.Common.Le
import Verif.Nvme.Model
namespace Fio.Mtrim

/-- What `get_next_offset` and `get_next_buflen` do in one round (io_u.c:1032-1042): whether there
is an offset, the offset left in the io_u, the length, and whether the io_u is flagged
IO_U_F_BUSY_OK. -/
structure Draw where
  ok : Bool
  off : Nat
  len : Nat
  busy : Bool := false

/-- Options and the file: `num_range`, `real_file_size`, `file_offset`, the smallest block size,
and `td_random(td) && file_randommap(td, f)`. -/
structure Cfg where
  numRange : Nat
  size : Nat
  fileOff : Nat
  minBs : Nat
  useMap : Bool

/-- The io_u and what it works on.  `buf` is where its buffer starts in the memory of all buffers;
`marked` is the random map (`axmap`, C01 and C02). -/
structure St where
  offset : Nat
  buflen : Nat
  number : Nat
  buf : Nat
  mem : List Byte
  marked : Nat → Bool
  lastStart : Nat
  lastPos : Nat

/-- Free blocks from block `b` on, at most `n`: what `axmap_set_nr` marks (C02). -/
def freeRun (m : Nat → Bool) : Nat → Nat → Nat
  | _, 0 => 0
  | b, n + 1 => if m b then 0 else freeRun m (b + 1) n + 1

/-- `mark_random_map` (io_u.c:36-57): the new map and the length that is left; a block that is
marked already fails the assert. -/
def markMap (c : Cfg) (busy : Bool) (off len : Nat) (m : Nat → Bool) :
    Option (Nat × (Nat → Bool)) :=
  if c.minBs = 0 then none else
  let b := (off + 2 ^ 64 - c.fileOff) % 2 ^ 64 / c.minBs
  let nr := (len + c.minBs - 1) % 2 ^ 64 / c.minBs
  if nr = 0 then none else
  if busy then some (if nr * c.minBs % 2 ^ 64 < len then nr * c.minBs % 2 ^ 64 else len, m) else
  let k := freeRun m b nr
  if k = 0 then none else
  some (if k * c.minBs % 2 ^ 64 < len then k * c.minBs % 2 ^ 64 else len,
    fun x => m x || (decide (b ≤ x) && decide (x < b + k)))

/-- The loop of `fill_multi_range_io_u` (io_u.c:1030-1064) with `n` rounds left, in round `i` and
with the lengths so far: the number of ranges, the sum of the lengths and the state.  The length
`mark_random_map` returns is thrown away. -/
def fillLoop (c : Cfg) (draw : Nat → Draw) : Nat → Nat → Nat → St → Option (Nat × Nat × St)
  | 0, i, tot, s => some (i, tot, s)
  | n + 1, i, tot, s =>
    let d := draw i
    if d.ok = false then some (i, tot, { s with offset := d.off }) else
    let s := { s with offset := d.off, buflen := d.len }
    if d.len = 0 then some (i, tot, s) else
    if (d.off + d.len) % 2 ^ 64 > c.size then some (i, tot, s) else
    match memWrite s.mem (s.buf + 16 * i) (le 8 d.off) with
    | none => none
    | some m =>
      match memWrite m (s.buf + 16 * i + 8) (le 8 d.len) with
      | none => none
      | some m =>
        let s := { s with mem := m, lastStart := d.off, lastPos := (d.off + d.len) % 2 ^ 64 }
        let tot := (tot + d.len) % 2 ^ 64
        if c.useMap then
          match markMap c d.busy d.off d.len s.marked with
          | none => none
          | some (_, mk) => fillLoop c draw n (i + 1) tot { s with marked := mk }
        else fillLoop c draw n (i + 1) tot s

/-- `fill_multi_range_io_u` (io_u.c:1019-1076): `true` for return value 0. -/
def fillMulti (c : Cfg) (draw : Nat → Draw) (s : St) : Option (Bool × St) :=
  match fillLoop c draw c.numRange 0 0 s with
  | none => none
  | some (i, tot, s) =>
    if tot ≠ 0 then some (true, { s with buflen := tot, number := i % 2 ^ 32 }) else some (false, s)

/-- `fill_io_u` (io_u.c:1078-1146) for a trim with several ranges, from `multi_range_trim` on:
`true` for return value 0.  With anything else the caller marks the file as done
(io_u.c:1560-1571). -/
def fillIoU (c : Cfg) (draw : Nat → Draw) (s : St) : Option (Bool × St) :=
  match fillMulti c draw s with
  | none => none
  | some (false, s) => some (false, s)
  | some (true, s) =>
    if (s.offset + s.buflen) % 2 ^ 64 > c.size then some (false, s) else some (true, s)

/-- The loop of `fio_nvme_uring_cmd_trim_prep` (engines/nvme.c:337-343) over `n` ranges from range
`i` on; `cap` ranges fit the array.  `slba` and `nlb` of each. -/
def dsmLoop (d : Nvme.NsData) (cap buf : Nat) (mem : List Byte) :
    Nat → Nat → Option (List (Nat × Nat))
  | 0, _ => some []
  | n + 1, i =>
    if ¬ i < cap then none else
    match memRead mem (buf + 16 * i) 8, memRead mem (buf + 16 * i + 8) 8 with
    | some st, some ln =>
      (dsmLoop d cap buf mem n (i + 1)).map fun l =>
        (Nvme.getSlba d (fromLe st), (Nvme.getNlb d (fromLe ln) + 1) % 2 ^ 32) :: l
    | _, _ => none

/-- A dataset management command: the ranges, dword 10, and the bytes of ranges the device reads. -/
structure Dsm where
  ranges : List (Nat × Nat)
  cdw10 : Nat
  dataLen : Nat
deriving DecidableEq

/-- `fio_nvme_uring_cmd_trim_prep` (engines/nvme.c:316-347), `nr` being `dsm->nr_ranges`, which
`fio_ioring_init` sets to `num_range` and makes room for (engines/io_uring.c:1885-1893). -/
def trimPrep (d : Nvme.NsData) (nr : Nat) (s : St) : Option Dsm :=
  if nr = 1 then
    some ⟨[(Nvme.getSlba d s.offset, (Nvme.getNlb d s.buflen + 1) % 2 ^ 32)], 0, 16⟩
  else
    (dsmLoop d nr s.buf s.mem s.number 0).map fun l =>
      ⟨l, (s.number + 2 ^ 32 - 1) % 2 ^ 32, s.number * 16 % 2 ^ 32⟩

end Fio.Mtrim
