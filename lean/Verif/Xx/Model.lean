/-
xxHash (crc/xxhash.c), as used for verify=xxhash (verify.c:519-540, 1124-1135).

Unsigned 32-bit words are `BitVec 32`; the machine is little-endian (on others XXH_readLE32 swaps, crc/xxhash.c:147-153).
A buffer is the list of its bytes.  The lengths are `int`s: buffers are shorter than 2 GiB.
-/
namespace Fio.Xx

/-- A byte. -/
abbrev Byte := BitVec 8

/-- A word. -/
abbrev Word := BitVec 32

/-- PRIME32_1 (crc/xxhash.c:118). -/
def p1 : Word := 2654435761#32
/-- PRIME32_2 (crc/xxhash.c:119). -/
def p2 : Word := 2246822519#32
/-- PRIME32_3 (crc/xxhash.c:120). -/
def p3 : Word := 3266489917#32
/-- PRIME32_4 (crc/xxhash.c:121). -/
def p4 : Word := 668265263#32
/-- PRIME32_5 (crc/xxhash.c:122). -/
def p5 : Word := 374761393#32

/-- XXH_rotl32 (crc/xxhash.c:99). -/
def rotl (x : Word) (r : Nat) : Word := (x <<< r) ||| (x >>> (32 - r))

/-- XXH_readLE32 (crc/xxhash.c:147-155) at the start of a buffer that has four bytes. -/
def read32 : List Byte → Word
  | b0 :: b1 :: b2 :: b3 :: _ => ((b3 ++ b2) ++ b1) ++ b0
  | _ => 0

/-- v1 to v4. -/
structure Lanes where
  v1 : Word
  v2 : Word
  v3 : Word
  v4 : Word
deriving DecidableEq

/-- crc/xxhash.c:177-180, 251-254. -/
def start (seed : Word) : Lanes := ⟨seed + p1 + p2, seed + p2, seed + 0, seed - p1⟩

/-- One lane: v += read * PRIME32_2; v = rotl(v, 13); v *= PRIME32_1. -/
def round (v w : Word) : Word := rotl (v + w * p2) 13 * p1

/-- 16 bytes (crc/xxhash.c:184-187, 288-292, 309-312). -/
def stripe (v : Lanes) (l : List Byte) : Lanes :=
  ⟨round v.v1 (read32 l), round v.v2 (read32 (l.drop 4)), round v.v3 (read32 (l.drop 8)), round v.v4 (read32 (l.drop 12))⟩

/-- The loop over stripes (crc/xxhash.c:182-188, 307-313, with the test before it); the result and what is left. -/
def stripes (v : Lanes) (l : List Byte) : Lanes × List Byte :=
  if 16 ≤ l.length then stripes (stripe v l) (l.drop 16) else (v, l)
termination_by l.length
decreasing_by simp; omega

/-- rotl(v1, 1) + rotl(v2, 7) + rotl(v3, 12) + rotl(v4, 18) (crc/xxhash.c:190, 354). -/
def merge (v : Lanes) : Word := rotl v.v1 1 + rotl v.v2 7 + rotl v.v3 12 + rotl v.v4 18

/-- The loop over the words that are left (crc/xxhash.c:199-204, 363-368). -/
def words (h : Word) (l : List Byte) : Word × List Byte :=
  if 4 ≤ l.length then words (rotl (h + read32 l * p3) 17 * p4) (l.drop 4) else (h, l)
termination_by l.length
decreasing_by simp; omega

/-- The loop over the bytes that are left (crc/xxhash.c:206-211, 370-375). -/
def bytes (h : Word) : List Byte → Word
  | [] => h
  | b :: l => bytes (rotl (h + b.setWidth 32 * p5) 11 * p1) l

/-- crc/xxhash.c:213-217, 377-381. -/
def avalanche (h : Word) : Word :=
  let h := h ^^^ (h >>> 15)
  let h := h * p2
  let h := h ^^^ (h >>> 13)
  let h := h * p3
  h ^^^ (h >>> 16)

/-- What comes after the stripes, with `n` the length. -/
def finish (h : Word) (n : Nat) (l : List Byte) : Word :=
  let r := words (h + BitVec.ofNat 32 n) l
  avalanche (bytes r.1 r.2)

/-- XXH32 (crc/xxhash.c:161-220). -/
def xxh32 (l : List Byte) (seed : Word) : Word :=
  if 16 ≤ l.length then
    let r := stripes (start seed) l
    finish (merge r.1) l.length r.2
  else finish (seed + p5) l.length l

/-- struct XXH_state32_t (crc/xxhash.h:68-78); `mem` are the first `memsize` bytes of `memory`. -/
structure State where
  total : Nat
  seed : Word
  v : Lanes
  mem : List Byte

/-- XXH32_resetState (crc/xxhash.c:247-258). -/
def reset (seed : Word) : State := ⟨0, seed, start seed, []⟩

/-- The end of XXH32_update_endian (crc/xxhash.c:299-325), with `v` and the bytes `l` still to do. -/
def updateTail (s : State) (v : Lanes) (l : List Byte) : State :=
  let r := stripes v l
  { s with v := r.1, mem := r.2 }

/-- XXH32_update_endian (crc/xxhash.c:269-328). -/
def update (s : State) (l : List Byte) : State :=
  let s := { s with total := s.total + l.length }
  if s.mem.length + l.length < 16 then { s with mem := s.mem ++ l }
  else if s.mem ≠ [] then
    updateTail s (stripe s.v (s.mem ++ l.take (16 - s.mem.length))) (l.drop (16 - s.mem.length))
  else updateTail s s.v l

/-- XXH32_digest (crc/xxhash.c:343-407). -/
def digest (s : State) : Word :=
  finish (if 16 ≤ s.total then merge s.v else s.seed + p5) s.total s.mem

end Fio.Xx
