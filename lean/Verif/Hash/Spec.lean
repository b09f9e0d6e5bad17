/-!
# The hash functions as their standards define them

MD5 (RFC 1321), SHA-1, SHA-256, SHA-512 (FIPS 180-4), SHA-3 (FIPS 202), for messages of whole bytes.  Written from the
standards, without reference to the code.  The constants of SHA-2 are computed from the primes they are derived from,
those of Keccak by the procedures of FIPS 202.
-/

namespace Fio.Hash

/-- A byte. -/
abbrev Byte := BitVec 8

namespace Spec

/-! ## Bytes and words -/

/-- Big-endian: the number a string of bytes denotes, first byte most significant. -/
def beNum (l : List Byte) : Nat := l.foldl (fun a b => 256 * a + b.toNat) 0

/-- Little-endian: first byte least significant. -/
def leNum (l : List Byte) : Nat := l.foldr (fun b a => b.toNat + 256 * a) 0

/-- `k` bytes of `n`, most significant first. -/
def toBe : Nat → Nat → List Byte
  | 0, _ => []
  | k + 1, n => toBe k (n / 256) ++ [BitVec.ofNat 8 n]

/-- `k` bytes of `n`, least significant first. -/
def toLe : Nat → Nat → List Byte
  | 0, _ => []
  | k + 1, n => BitVec.ofNat 8 n :: toLe k (n / 256)

/-- Word `i`, of `k` bytes, of a block. -/
def slice (k i : Nat) (b : List Byte) : List Byte := (b.drop (k * i)).take k

/-- The blocks of `n` bytes of a string; what is left over is dropped. -/
def blocks (n : Nat) (l : List Byte) : List (List Byte) := (List.range (l.length / n)).map fun i => slice n i l

/-- Padding: a byte 80h, zeros, and the length in bits in the last `lf` bytes, up to a multiple of `bs` bytes
(FIPS 180-4, 5.1; RFC 1321, 3.1 and 3.2). -/
def pad (bs lf : Nat) (enc : Nat → List Byte) (m : List Byte) : List Byte :=
  m ++ (0x80#8 :: (List.replicate ((bs - (m.length + 1 + lf) % bs) % bs) 0#8 ++ enc (8 * m.length)))

/-! ## SHA-256 and SHA-512 -/

/-- The primes below `n`. -/
def primesBelow (n : Nat) : List Nat :=
  (List.range n).filter fun p => decide (2 ≤ p) && (List.range p).all fun d => decide (d < 2) || decide (p % d ≠ 0)

/-- The largest `k` below `2 ^ b` with `(acc + k) ^ e ≤ n`, found bit by bit, added to `acc`. -/
def root (e n : Nat) : Nat → Nat → Nat
  | 0, acc => acc
  | b + 1, acc => root e n b (if (acc + 2 ^ b) ^ e ≤ n then acc + 2 ^ b else acc)

/-- The first `w` bits of the fractional part of the `e`-th root of `p` (4.2.2, 4.2.3, 5.3.3, 5.3.5). -/
def fracRoot (w e p : Nat) : BitVec w := BitVec.ofNat w (root e (p * 2 ^ (w * e)) (w + 5) 0)

/-- Ch (4.1.2). -/
def ch {w : Nat} (x y z : BitVec w) : BitVec w := (x &&& y) ^^^ (~~~x &&& z)

/-- Maj (4.1.2). -/
def maj {w : Nat} (x y z : BitVec w) : BitVec w := (x &&& y) ^^^ (x &&& z) ^^^ (y &&& z)

/-- What distinguishes SHA-256 from SHA-512. -/
structure Sha2 where
  /-- bits of a word -/
  w : Nat
  rounds : Nat
  /-- the rotations of Σ0 and Σ1; of σ0 and σ1 the rotations and the shift (4.1.2, 4.1.3) -/
  S0 : Nat × Nat × Nat
  S1 : Nat × Nat × Nat
  s0 : Nat × Nat × Nat
  s1 : Nat × Nat × Nat

/-- SHA-256 (4.1.2). -/
abbrev sha256P : Sha2 := ⟨32, 64, (2, 13, 22), (6, 11, 25), (7, 18, 3), (17, 19, 10)⟩

/-- SHA-512 (4.1.3). -/
abbrev sha512P : Sha2 := ⟨64, 80, (28, 34, 39), (14, 18, 41), (1, 8, 7), (19, 61, 6)⟩

/-- Σ0 and Σ1. -/
def bigSigma {w : Nat} (r : Nat × Nat × Nat) (x : BitVec w) : BitVec w :=
  x.rotateRight r.1 ^^^ x.rotateRight r.2.1 ^^^ x.rotateRight r.2.2

/-- σ0 and σ1. -/
def smallSigma {w : Nat} (r : Nat × Nat × Nat) (x : BitVec w) : BitVec w :=
  x.rotateRight r.1 ^^^ x.rotateRight r.2.1 ^^^ (x >>> r.2.2)

/-- The message schedule (6.2.2, 6.4.2 step 1). -/
def sched2 (p : Sha2) (m : Nat → BitVec p.w) (t : Nat) : BitVec p.w :=
  if t < 16 then m t
  else smallSigma p.s1 (sched2 p m (t - 2)) + sched2 p m (t - 7) + smallSigma p.s0 (sched2 p m (t - 15)) +
    sched2 p m (t - 16)
termination_by t
decreasing_by all_goals omega

/-- The eight working variables or hash values. -/
structure Regs (w : Nat) where
  a : BitVec w
  b : BitVec w
  c : BitVec w
  d : BitVec w
  e : BitVec w
  f : BitVec w
  g : BitVec w
  h : BitVec w
  deriving DecidableEq

/-- One round (6.2.2, 6.4.2 step 3). -/
def round2 (p : Sha2) (k wt : BitVec p.w) (r : Regs p.w) : Regs p.w :=
  let t1 := r.h + bigSigma p.S1 r.e + ch r.e r.f r.g + k + wt
  let t2 := bigSigma p.S0 r.a + maj r.a r.b r.c
  ⟨t1 + t2, r.a, r.b, r.c, r.d + t1, r.e, r.f, r.g⟩

/-- Adding registers (step 4). -/
def Regs.add {w : Nat} (x y : Regs w) : Regs w :=
  ⟨x.a + y.a, x.b + y.b, x.c + y.c, x.d + y.d, x.e + y.e, x.f + y.f, x.g + y.g, x.h + y.h⟩

/-- The constants: cube roots of the first primes (4.2.2, 4.2.3). -/
def consts2 (p : Sha2) : List (BitVec p.w) := ((primesBelow 410).take p.rounds).map (fracRoot p.w 3)

/-- Word `i` of a block. -/
def word2 (p : Sha2) (b : List Byte) (i : Nat) : BitVec p.w := BitVec.ofNat p.w (beNum (slice (p.w / 8) i b))

/-- Rounds `t, t + 1, …` with the constants `ks`. -/
def rounds2 (p : Sha2) (ws : Nat → BitVec p.w) : Nat → List (BitVec p.w) → Regs p.w → Regs p.w
  | _, [], r => r
  | t, k :: ks, r => rounds2 p ws (t + 1) ks (round2 p k (ws t) r)

/-- One block (6.2.2, 6.4.2). -/
def comp2 (p : Sha2) (h : Regs p.w) (b : List Byte) : Regs p.w :=
  (rounds2 p (sched2 p (word2 p b)) 0 (consts2 p) h).add h

/-- The initial hash value: square roots of the first eight primes (5.3.3, 5.3.5). -/
def init2 (p : Sha2) : Regs p.w :=
  let s := fun q => fracRoot p.w 2 q
  ⟨s 2, s 3, s 5, s 7, s 11, s 13, s 17, s 19⟩

/-- The registers as bytes. -/
def Regs.bytes {w : Nat} (r : Regs w) : List Byte :=
  [r.a, r.b, r.c, r.d, r.e, r.f, r.g, r.h].flatMap fun x => toBe (w / 8) x.toNat

/-- SHA-256 (6.2) or SHA-512 (6.4). -/
def sha2 (p : Sha2) (m : List Byte) : List Byte :=
  ((blocks (2 * p.w) (pad (2 * p.w) (p.w / 4) (toBe (p.w / 4)) m)).foldl (comp2 p) (init2 p)).bytes

/-! ## SHA-1 -/

/-- The five hash values or working variables. -/
structure Regs5 where
  a : BitVec 32
  b : BitVec 32
  c : BitVec 32
  d : BitVec 32
  e : BitVec 32
  deriving DecidableEq

/-- The functions f_t (4.1.1). -/
def f1 (t : Nat) (x y z : BitVec 32) : BitVec 32 :=
  if t < 20 then ch x y z else if t < 40 then x ^^^ y ^^^ z else if t < 60 then maj x y z else x ^^^ y ^^^ z

/-- The constants K_t (4.2.1). -/
def k1 (t : Nat) : BitVec 32 :=
  if t < 20 then 0x5a827999#32 else if t < 40 then 0x6ed9eba1#32 else if t < 60 then 0x8f1bbcdc#32 else 0xca62c1d6#32

/-- The message schedule (6.1.2 step 1). -/
def sched1 (m : Nat → BitVec 32) (t : Nat) : BitVec 32 :=
  if t < 16 then m t
  else (sched1 m (t - 3) ^^^ sched1 m (t - 8) ^^^ sched1 m (t - 14) ^^^ sched1 m (t - 16)).rotateLeft 1
termination_by t
decreasing_by all_goals omega

/-- One round (6.1.2 step 3). -/
def round1 (t : Nat) (wt : BitVec 32) (r : Regs5) : Regs5 :=
  ⟨r.a.rotateLeft 5 + f1 t r.b r.c r.d + r.e + k1 t + wt, r.a, r.b.rotateLeft 30, r.c, r.d⟩

/-- Rounds `t … t + n - 1`. -/
def rounds1 (ws : Nat → BitVec 32) (t : Nat) : Nat → Regs5 → Regs5
  | 0, r => r
  | n + 1, r => rounds1 ws (t + 1) n (round1 t (ws t) r)

/-- Word `i` of a block. -/
def word1 (b : List Byte) (i : Nat) : BitVec 32 := BitVec.ofNat 32 (beNum (slice 4 i b))

/-- One block (6.1.2). -/
def comp1 (h : Regs5) (b : List Byte) : Regs5 :=
  let r := rounds1 (sched1 (word1 b)) 0 80 h
  ⟨r.a + h.a, r.b + h.b, r.c + h.c, r.d + h.d, r.e + h.e⟩

/-- The initial hash value (5.3.1). -/
def init1 : Regs5 := ⟨0x67452301#32, 0xefcdab89#32, 0x98badcfe#32, 0x10325476#32, 0xc3d2e1f0#32⟩

/-- SHA-1 (6.1), as five words. -/
def sha1 (m : List Byte) : Regs5 := (blocks 64 (pad 64 8 (toBe 8) m)).foldl comp1 init1

/-! ## MD5 -/

/-- The four words. -/
structure Regs4 where
  a : BitVec 32
  b : BitVec 32
  c : BitVec 32
  d : BitVec 32
  deriving DecidableEq

/-- F, G, H, I (3.4). -/
def fmd5 (t : Nat) (x y z : BitVec 32) : BitVec 32 :=
  if t < 16 then (x &&& y) ||| (~~~x &&& z)
  else if t < 32 then (x &&& z) ||| (y &&& ~~~z)
  else if t < 48 then x ^^^ y ^^^ z
  else y ^^^ (x ||| ~~~z)

/-- The index of the word used in step `t` (3.4, the tables of the four rounds). -/
def xmd5 (t : Nat) : Nat :=
  if t < 16 then t else if t < 32 then (5 * t + 1) % 16 else if t < 48 then (3 * t + 5) % 16 else 7 * t % 16

/-- The rotation of step `t` (3.4). -/
def smd5 (t : Nat) : Nat :=
  (if t < 16 then [7, 12, 17, 22] else if t < 32 then [5, 9, 14, 20] else if t < 48 then [4, 11, 16, 23]
    else [6, 10, 15, 21]).getD (t % 4) 0

/-- `n` terms of the sine series at `x` in units of `2 ^ -1000`, starting with the term `t` of degree `k`. -/
def sinSeries (x : Nat) : Nat → Nat → Int → Int
  | 0, _, _ => 0
  | n + 1, k, t => t + sinSeries x n (k + 2) (-(t * x * x / ((k + 1) * (k + 2))))

/-- `T[i]`, the integer part of `2 ^ 32 * abs(sin(i))`, `i` in radians (3.4).  The series is summed with 1000 bits,
far more than the distance of any of the values from an integer. -/
def tmd5 (i : Nat) : Nat := (sinSeries i 400 1 (i * 2 ^ 1000)).natAbs * 2 ^ 32 / 2 ^ 1000

/-- One step: `a = b + ((a + f(b,c,d) + X[k] + T[i]) <<< s)`, then the roles of the words move on. -/
def step5 (ts : Nat → Nat) (x : Nat → BitVec 32) (t : Nat) (r : Regs4) : Regs4 :=
  ⟨r.d, r.b + (r.a + fmd5 t r.b r.c r.d + x (xmd5 t) + BitVec.ofNat 32 (ts (t + 1))).rotateLeft (smd5 t), r.b, r.c⟩

/-- Steps `t … t + n - 1`. -/
def steps5 (ts : Nat → Nat) (x : Nat → BitVec 32) (t : Nat) : Nat → Regs4 → Regs4
  | 0, r => r
  | n + 1, r => steps5 ts x (t + 1) n (step5 ts x t r)

/-- Word `i` of a block. -/
def word5 (b : List Byte) (i : Nat) : BitVec 32 := BitVec.ofNat 32 (leNum (slice 4 i b))

/-- One block (3.4). -/
def comp5 (h : Regs4) (b : List Byte) : Regs4 :=
  let r := steps5 tmd5 (word5 b) 0 64 h
  ⟨r.a + h.a, r.b + h.b, r.c + h.c, r.d + h.d⟩

/-- The initial words (3.3). -/
def init5 : Regs4 := ⟨0x67452301#32, 0xefcdab89#32, 0x98badcfe#32, 0x10325476#32⟩

/-- MD5, as four words. -/
def md5 (m : List Byte) : Regs4 := (blocks 64 (pad 64 8 (toLe 8) m)).foldl comp5 init5

/-! ## SHA-3 -/

/-- A state: the lane at `(x, y)`. -/
abbrev Lanes := Nat → Nat → BitVec 64

/-- θ (3.2.1). -/
def theta (a : Lanes) : Lanes :=
  let c := fun x => a x 0 ^^^ a x 1 ^^^ a x 2 ^^^ a x 3 ^^^ a x 4
  fun x y => a x y ^^^ (c ((x + 4) % 5) ^^^ (c ((x + 1) % 5)).rotateLeft 1)

/-- The offsets of ρ: starting at (1, 0), step `t` has offset (t+1)(t+2)/2 (3.2.2); found by walking. -/
def rhoOff : Nat → Nat → Nat → Nat → Nat → Nat → Nat
  | 0, _, _, _, _, _ => 0
  | n + 1, t, px, py, x, y =>
    if px = x ∧ py = y then (t + 1) * (t + 2) / 2 else rhoOff n (t + 1) py ((2 * px + 3 * py) % 5) x y

/-- ρ (3.2.2). -/
def rho (a : Lanes) : Lanes := fun x y => (a x y).rotateLeft (rhoOff 24 0 1 0 x y % 64)

/-- π (3.2.3). -/
def pi (a : Lanes) : Lanes := fun x y => a ((x + 3 * y) % 5) x

/-- χ (3.2.4). -/
def chi (a : Lanes) : Lanes := fun x y => a x y ^^^ (~~~a ((x + 1) % 5) y &&& a ((x + 2) % 5) y)

/-- The register of rc (algorithm 5), eight bits, first bit least significant. -/
def rcReg : Nat → Nat
  | 0 => 1
  | t + 1 =>
    let r := rcReg t * 2
    if r ≥ 256 then (r - 256) ^^^ 0x71 else r

/-- rc(t): the first bit of the register after `t mod 255` steps (algorithm 5). -/
def rc (t : Nat) : Bool := rcReg (t % 255) % 2 = 1

/-- The round constant: bit `2 ^ j - 1` is `rc(j + 7 i)` (3.2.5). -/
def roundConst (i : Nat) : BitVec 64 :=
  BitVec.ofNat 64 (((List.range 7).map fun j => if rc (j + 7 * i) then 2 ^ (2 ^ j - 1) else 0).sum)

/-- ι (3.2.5). -/
def iota (i : Nat) (a : Lanes) : Lanes := fun x y => if x = 0 ∧ y = 0 then a x y ^^^ roundConst i else a x y

/-- Round `i` of Keccak-f[1600] (3.3). -/
def keccakRound (i : Nat) (a : Lanes) : Lanes := iota i (chi (pi (rho (theta a))))

/-- Rounds `i … i + n - 1`. -/
def keccakRounds (i : Nat) : Nat → Lanes → Lanes
  | 0, a => a
  | n + 1, a => keccakRounds (i + 1) n (keccakRound i a)

/-- Keccak-f[1600]. -/
def keccakF : Lanes → Lanes := keccakRounds 0 24

/-- Absorb a block of `8 * k` bytes (algorithm 8): lane `(x, y)` is word `5 y + x` (3.1.2). -/
def absorb (k : Nat) (a : Lanes) (b : List Byte) : Lanes :=
  keccakF fun x y => if 5 * y + x < k then a x y ^^^ BitVec.ofNat 64 (leNum (slice 8 (5 * y + x) b)) else a x y

/-- The suffix 01 and the padding 10*1 as bytes (B.2), for a rate of `r` bytes. -/
def pad3 (r : Nat) (m : List Byte) : List Byte :=
  let q := r - m.length % r
  m ++ if q = 1 then [0x86#8] else 0x06#8 :: (List.replicate (q - 2) 0#8 ++ [0x80#8])

/-- The first `n` bytes of the state; never more than the rate. -/
def squeeze (n : Nat) (a : Lanes) : List Byte :=
  ((List.range 25).flatMap fun i => toLe 8 (a (i % 5) (i / 5)).toNat).take n

/-- SHA3 with a digest of `d` bytes (6.1): rate 200 - 2 d. -/
def sha3 (d : Nat) (m : List Byte) : List Byte :=
  squeeze d ((blocks (200 - 2 * d) (pad3 (200 - 2 * d) m)).foldl (absorb ((200 - 2 * d) / 8)) fun _ _ => 0)

end Spec
end Fio.Hash
