import Verif.Common.Le
import Verif.Crc.Model
import Verif.Pattern.Model
/-
Verify headers: verify.c on the write side (__fill_hdr, populate_hdr, fill_pattern_headers) and on the
read side (verify_header, verify_io_u).

`none` is undefined behaviour, a failed assertion, or an access outside the I/O buffer.  Fields are stored
little endian, struct verify_header (verify.h:58-70) is laid out as on 64-bit Linux: magic 0, version 2,
verify_type 3, len 4, rand_seed 8, offset 16, time_sec 24, time_nsec 28, numberio 32, thread 40, two bytes
of padding, crc32 44, size 48.
-/
namespace Fio.Verify

/-- The options of a job that matter to verification. -/
structure Cfg where
  /-- `td->o.verify`, a value of the enumeration verify.h:10-34. -/
  verify : Nat
  /-- `verify_interval`. -/
  interval : BitVec 32
  /-- `verify_offset`. -/
  voffset : Nat
  /-- `bs_unaligned`. -/
  unaligned : Bool
  /-- `verify_header_seed`. -/
  checkSeed : Bool
  /-- whether the sequence number is checked: td_write, one block size, not time_based,
  verify_write_sequence (verify.c:961-963). -/
  checkSeq : Bool
  /-- `verify_fatal`. -/
  fatal : Bool
  /-- `td->thread_number`, stored in 16 bits. -/
  thread : BitVec 16
  /-- the parsed `verify_pattern`, its formats, and `verify_pattern_interval`. -/
  pattern : List Byte
  fmts : List Nat
  pinterval : Nat

/-- The fields of the io_u. -/
structure Io where
  /-- `io_u->verify_offset` (and `io_u->offset`). -/
  offset : BitVec 64
  seed : BitVec 64
  numberio : BitVec 64
  sec : BitVec 32
  nsec : BitVec 32

/-- get_hdr_inc, verify.c:99-113 (`buflen` fits an unsigned int). -/
def hdrInc (cfg : Cfg) (buflen : Nat) : Nat :=
  if cfg.interval.toNat ≠ 0 ∧ cfg.interval.toNat ≤ buflen ∧ cfg.unaligned = false then cfg.interval.toNat else buflen

/-- Size of the checksum header for a verify type, verify.c:157-214 and verify.h:72-110; `none`: assert(0). -/
def digLen : Nat → Option Nat
  | 0 | 1 | 17 | 18 | 19 => some 0
  | 2 => some 16
  | 3 => some 8
  | 4 | 5 | 6 => some 4
  | 7 => some 2
  | 8 => some 1
  | 9 => some 64
  | 10 => some 128
  | 11 => some 28
  | 12 => some 32
  | 13 => some 48
  | 14 => some 64
  | 15 => some 4
  | 16 => some 20
  | _ => none

/-- __hdr_size, verify.c:157-215. -/
def hdrSize (t : Nat) : Option Nat := if t = 18 then some 0 else (digLen t).map (48 + ·)

/-- The checksum stored after the header, for a payload: fill_crc64 … fill_crc7, verify.c:1223-1256; all
other checksums (md5, sha*, xxhash) are an arbitrary function `H`. -/
def digest (H : Nat → List Byte → List Byte) : Nat → List Byte → List Byte
  | 3, l => le 8 (Crc.crc64 l).toNat
  | 4, l => le 4 (Crc.crc32 l).toNat
  | 5, l => le 4 (Crc.crc32c l).toNat
  | 6, l => le 4 (Crc.crc32c l).toNat
  | 7, l => le 2 (Crc.crc16 l).toNat
  | 8, l => le 1 (Crc.crc7 l).toNat
  | t, l => H t l

/-- Types with a checksum of the payload. -/
def hasDigest (t : Nat) : Bool := 2 ≤ t && t ≤ 16

/-- The offset stored in header `num`: `io_u->verify_offset + header_num * td->o.verify_interval`, the
product in 32 bits (verify.c:946, 1281). -/
def hdrOffset (cfg : Cfg) (io : Io) (num : Nat) : BitVec 64 :=
  io.offset + (BitVec.ofNat 32 num * cfg.interval).zeroExtend 64

/-- __fill_hdr, verify.c:1270-1287, on the 48 bytes `old`: the padding keeps its contents. -/
def fillHdr (cfg : Cfg) (io : Io) (num len : Nat) (old : List Byte) : List Byte :=
  let body := le 2 0xacca ++ le 1 0x81 ++ le 1 cfg.verify ++ le 4 len ++ le 8 io.seed.toNat ++
    le 8 (hdrOffset cfg io num).toNat ++ le 4 io.sec.toNat ++ le 4 io.nsec.toNat ++ le 8 io.numberio.toNat ++
    le 2 cfg.thread.toNat ++ (old.drop 42).take 2
  body ++ le 4 (Crc.crc32c body).toNat

/-- A field of the header. -/
def field (h : List Byte) (off n : Nat) : Nat := fromLe ((h.drop off).take n)

/-- verify_header, verify.c:918-990: `true` is the return value 0. -/
def verifyHeader (cfg : Cfg) (io : Io) (num len : Nat) (h : List Byte) : Bool :=
  if field h 0 2 ≠ 0xacca then false
  else if field h 2 1 ≠ 0x81 then false
  else if field h 4 4 ≠ len then false
  else if cfg.checkSeed ∧ field h 8 8 ≠ io.seed.toNat then false
  else if field h 16 8 ≠ (hdrOffset cfg io num).toNat then false
  else if cfg.checkSeq ∧ field h 32 8 ≠ io.numberio.toNat then false
  else if (Crc.crc32c (h.take 44)).toNat ≠ field h 44 4 then false
  else true

/-- memswp, verify.c:133-142: the assertion on the size, and memcpy's ban on overlap. -/
def memswp (buf : List Byte) (a b len : Nat) : Option (List Byte) :=
  if 200 < len then none
  else if len = 0 then some buf
  else if a + len ≤ b then
    (memRead buf a len).bind fun x =>
    (memRead buf b len).bind fun y =>
    (memWrite buf a y).bind fun buf => memWrite buf b x
  else none

/-- populate_hdr, verify.c:1298-1401, for the header at `p`.  Too small a block (verify.c:1312-1315)
stops the job: `none`. -/
def populateHdr (H : Nat → List Byte → List Byte) (cfg : Cfg) (io : Io) (buf : List Byte) (p num len : Nat) : Option (List Byte) :=
  (if cfg.verify ≠ 18 then
    (memRead buf p 48).bind fun old => memWrite buf p (fillHdr cfg io num len old)
  else some buf).bind fun buf =>
  (hdrSize cfg.verify).bind fun hs =>
  if len ≤ hs then none else
  (memRead buf (p + hs) (len - hs)).bind fun data =>
  (if hasDigest cfg.verify then memWrite buf (p + 48) (digest H cfg.verify data) else some buf).bind fun buf =>
  if cfg.voffset ≠ 0 ∧ hs ≠ 0 then memswp buf p (p + cfg.voffset) hs else some buf

/-- The loop of fill_pattern_headers, verify.c:124-130. -/
def populateLoop (H : Nat → List Byte → List Byte) (cfg : Cfg) (io : Io) (inc : Nat) : Nat → List Byte → Nat → Option (List Byte)
  | fuel, buf, num =>
    if num * inc < buf.length then
      match fuel with
      | 0 => none
      | fuel + 1 => (populateHdr H cfg io buf (num * inc) num inc).bind fun buf => populateLoop H cfg io inc fuel buf (num + 1)
    else some buf

/-- fill_pattern_headers, verify.c:115-130, once the data is in place. -/
def populate (H : Nat → List Byte → List Byte) (cfg : Cfg) (io : Io) (buf : List Byte) : Option (List Byte) :=
  populateLoop H cfg io (hdrInc cfg buf.length) buf.length buf 0

/-- What happens to one interval: a bad header (verify_io_u returns at once), or the result of the data check. -/
inductive Res where
  | badHeader
  | data (ok : Bool)
deriving DecidableEq, Repr

/-- The checksum functions verify_io_u_crc32c and the like (verify.c:519-846): the payload is located by
the fields `len` and `verify_type` of the header. -/
def checkDigest (H : Nat → List Byte → List Byte) (vt : Nat) (buf : List Byte) (p num : Nat) : Option Bool :=
  (memRead buf p 48).bind fun h =>
  (hdrSize (field h 3 1)).bind fun hs =>
  (digLen vt).bind fun dl =>
  (memRead buf (num * field h 4 4 + hs) ((field h 4 4 + 2 ^ 32 - hs) % 2 ^ 32)).bind fun data =>
  (memRead buf (p + 48) dl).bind fun stored => some (stored == digest H vt data)

/-- One round of the loop of verify_io_u, verify.c:1037-1117. -/
def verifyOne (H : Nat → List Byte → List Byte) (cfg : Cfg) (io : Io) (inc : Nat) (buf : List Byte) (num : Nat) : Option (List Byte × Res) :=
  let p := num * inc
  (hdrSize cfg.verify).bind fun hs =>
  (if cfg.voffset ≠ 0 then memswp buf p (p + cfg.voffset) hs else some buf).bind fun buf =>
  (if cfg.verify ≠ 18 then (memRead buf p 48).bind fun h => some (verifyHeader cfg io num inc h)
    else some true).bind fun hok =>
  if hok = false then some (buf, .badHeader) else
  (if cfg.verify ≠ 0 then some cfg.verify else (memRead buf p 48).bind fun h => some (field h 3 1)).bind fun vt =>
  if vt = 1 then
    if cfg.pattern.length ≠ 0 then
      (Pattern.verifyIoUPattern cfg.pattern cfg.fmts cfg.pinterval buf inc hs num io.offset).bind fun ok => some (buf, .data ok)
    else some (buf, .data true)
  else if vt = 17 ∨ vt = 18 then
    (Pattern.verifyIoUPattern cfg.pattern cfg.fmts cfg.pinterval buf inc hs num io.offset).bind fun ok => some (buf, .data ok)
  else if hasDigest vt then (checkDigest H vt buf p num).bind fun ok => some (buf, .data ok)
  else some (buf, .data false)

/-- The loop of verify_io_u, verify.c:1027-1122: `ret` is the result so far. -/
def verifyLoop (H : Nat → List Byte → List Byte) (cfg : Cfg) (io : Io) (inc : Nat) : Nat → List Byte → Nat → Bool → Option Bool
  | fuel, buf, num, ret =>
    if num * inc < buf.length then
      if ret = false ∧ cfg.fatal = true then some ret else
      match fuel with
      | 0 => none
      | fuel + 1 =>
        (verifyOne H cfg io inc buf num).bind fun r =>
        match r.2 with
        | .badHeader => some false
        | .data ok => verifyLoop H cfg io inc fuel r.1 (num + 1) ok
    else some ret

/-- verify_io_u, verify.c:992-1127, for a completed read that was neither trimmed nor zeroed. -/
def verifyIoU (H : Nat → List Byte → List Byte) (cfg : Cfg) (io : Io) (buf : List Byte) : Option Bool :=
  verifyLoop H cfg io (hdrInc cfg buf.length) buf.length buf 0 true

end Fio.Verify
