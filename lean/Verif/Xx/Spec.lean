/-
XXH32 as its specification defines it, by positions in the message.
-/
namespace Fio.Xx.Spec

/-- The constants. -/
def P1 : Nat := 0x9E3779B1
def P2 : Nat := 0x85EBCA77
def P3 : Nat := 0xC2B2AE3D
def P4 : Nat := 0x27D4EB2F
def P5 : Nat := 0x165667B1

/-- Numbers are taken modulo 2^32. -/
abbrev W := BitVec 32

/-- A number. -/
def w (n : Nat) : W := BitVec.ofNat 32 n

/-- The byte at a position. -/
def byte (d : List (BitVec 8)) (i : Nat) : Nat := (d.getD i 0).toNat

/-- The little-endian word at a position. -/
def lane (d : List (BitVec 8)) (i : Nat) : W :=
  w (byte d i + 256 * byte d (i + 1) + 65536 * byte d (i + 2) + 16777216 * byte d (i + 3))

/-- Accumulator `j` after `n` stripes of 16 bytes. -/
def acc (d : List (BitVec 8)) (a0 : W) (j : Nat) : Nat → W
  | 0 => a0
  | n + 1 => (acc d a0 j n + lane d (16 * n + 4 * j) * w P2).rotateLeft 13 * w P1

/-- Step 3: the accumulators are merged; short messages have none. -/
def converge (d : List (BitVec 8)) (seed : W) : W :=
  if d.length < 16 then seed + w P5
  else
    let n := d.length / 16
    (acc d (seed + w P1 + w P2) 0 n).rotateLeft 1 + (acc d (seed + w P2) 1 n).rotateLeft 7 +
      (acc d seed 2 n).rotateLeft 12 + (acc d (seed - w P1) 3 n).rotateLeft 18

/-- Step 5, words: after `n` of them, from position `p`. -/
def tailWords (d : List (BitVec 8)) (p : Nat) (h : W) : Nat → W
  | 0 => h
  | n + 1 => (tailWords d p h n + lane d (p + 4 * n) * w P3).rotateLeft 17 * w P4

/-- Step 5, bytes. -/
def tailBytes (d : List (BitVec 8)) (p : Nat) (h : W) : Nat → W
  | 0 => h
  | n + 1 => (tailBytes d p h n + w (byte d (p + n)) * w P5).rotateLeft 11 * w P1

/-- Step 6. -/
def mix (h : W) : W :=
  let a := (h ^^^ (h >>> 15)) * w P2
  let b := (a ^^^ (a >>> 13)) * w P3
  b ^^^ (b >>> 16)

/-- XXH32. -/
def xxh32 (d : List (BitVec 8)) (seed : W) : W :=
  let n := d.length
  let h := converge d seed + w n
  let h := tailWords d (16 * (n / 16)) h (n % 16 / 4)
  mix (tailBytes d (4 * (n / 4)) h (n % 4))

end Fio.Xx.Spec
