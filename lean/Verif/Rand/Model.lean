import Verif.Common.Double
/-
Model of the Tausworthe generators and of rand_between: /repo/lib/rand.c, /repo/lib/rand.h.
-/
namespace Fio.Rand

/-- One component of a Tausworthe step, `((s & c) << d) ^ (((s << a) ^ s) >> b)`
(lib/rand.h:67 for 32 bits, 80-93 for 64 bits, where the second term is called `xval`).
The constants `4294967294UL`... make the 32-bit computation 64 bits wide before it is stored into
an `unsigned int`; the stored low 32 bits are those of the 32-bit computation. -/
def taus {w : Nat} (s : BitVec w) (a b : Nat) (c : BitVec w) (d : Nat) : BitVec w :=
  ((s &&& c) <<< d) ^^^ (((s <<< a) ^^^ s) >>> b)

/-- struct taus88_state, lib/rand.h:13-15. -/
structure Taus88 where
  s1 : BitVec 32
  s2 : BitVec 32
  s3 : BitVec 32
  deriving DecidableEq

/-- struct taus258_state, lib/rand.h:17-19. -/
structure Taus258 where
  s1 : BitVec 64
  s2 : BitVec 64
  s3 : BitVec 64
  s4 : BitVec 64
  s5 : BitVec 64
  deriving DecidableEq

/-- State change of __rand32, lib/rand.h:69-71. -/
def step32 (t : Taus88) : Taus88 where
  s1 := taus t.s1 13 19 4294967294#32 12
  s2 := taus t.s2 2 25 4294967288#32 4
  s3 := taus t.s3 3 11 4294967280#32 17

/-- __rand32, lib/rand.h:65-74: the value returned and the new state. -/
def rand32 (t : Taus88) : BitVec 32 × Taus88 :=
  let t := step32 t
  (t.s1 ^^^ t.s2 ^^^ t.s3, t)

/-- State change of __rand64, lib/rand.h:80-93. -/
def step64 (t : Taus258) : Taus258 where
  s1 := taus t.s1 1 53 18446744073709551614#64 10
  s2 := taus t.s2 24 50 18446744073709551104#64 5
  s3 := taus t.s3 3 23 18446744073709547520#64 29
  s4 := taus t.s4 5 24 18446744073709420544#64 23
  s5 := taus t.s5 3 33 18446744073701163008#64 8

/-- __rand64, lib/rand.h:76-96. -/
def rand64 (t : Taus258) : BitVec 64 × Taus258 :=
  let t := step64 t
  (t.s1 ^^^ t.s2 ^^^ t.s3 ^^^ t.s4 ^^^ t.s5, t)

/-- __seed, lib/rand.c:43-46; the 64-bit argument and result are converted from and to the width of
the component (no wrap: the sum is only formed for `x < m`). -/
def seedFix {w : Nat} (x : BitVec w) (m : BitVec w) : BitVec w := if x < m then x + m else x

/-- The constant `(2^31) + (2^17) + (2^7)`, lib/rand.c:54: `^` is exclusive or in C. -/
def lcgStart (w : Nat) : BitVec w := (2#w ^^^ 31#w) + (2#w ^^^ 17#w) + (2#w ^^^ 7#w)

/-- `LCG(x, seed)`, lib/rand.c:52. -/
def lcg (x seed : BitVec 32) : BitVec 32 := (x * 69069#32) ^^^ seed

/-- `LCG64(x, seed)`, lib/rand.c:66. -/
def lcg64 (x seed : BitVec 64) : BitVec 64 := (x * 6906969069#64) ^^^ seed

/-- lib/rand.c:54-56. -/
def seed32 (seed : BitVec 32) : Taus88 :=
  let s1 := seedFix (lcg (lcgStart 32) seed) 1#32
  let s2 := seedFix (lcg s1 seed) 7#32
  let s3 := seedFix (lcg s2 seed) 15#32
  ⟨s1, s2, s3⟩

/-- lib/rand.c:68-72. -/
def seed64 (seed : BitVec 64) : Taus258 :=
  let s1 := seedFix (lcg64 (lcgStart 64) seed) 1#64
  let s2 := seedFix (lcg64 s1 seed) 7#64
  let s3 := seedFix (lcg64 s2 seed) 15#64
  let s4 := seedFix (lcg64 s3 seed) 33#64
  let s5 := seedFix (lcg64 s4 seed) 49#64
  ⟨s1, s2, s3, s4, s5⟩

/-- `n` draws of __rand32, the values thrown away. -/
def crank32 : Nat → Taus88 → Taus88
  | 0, t => t
  | n + 1, t => crank32 n (rand32 t).2

def crank64 : Nat → Taus258 → Taus258
  | 0, t => t
  | n + 1, t => crank64 n (rand64 t).2

/-- __init_rand32, lib/rand.c:48-60. -/
def initRand32 (seed : BitVec 32) : Taus88 := crank32 6 (seed32 seed)

/-- __init_rand64, lib/rand.c:62-76. -/
def initRand64 (seed : BitVec 64) : Taus258 := crank64 6 (seed64 seed)

/-- struct frand_state, lib/rand.h:21-27; the union as a sum type, tagged by `use64`. -/
inductive FRand where
  | st32 (t : Taus88)
  | st64 (t : Taus258)
  deriving DecidableEq

/-- init_rand_seed, lib/rand.c:88-96. -/
def initRandSeed (seed : BitVec 64) (use64 : Bool) : FRand :=
  if use64 then .st64 (initRand64 seed) else .st32 (initRand32 (seed.setWidth 32))

/-- init_rand, lib/rand.c:78-86. -/
def initRand (use64 : Bool) : FRand :=
  if use64 then .st64 (initRand64 1#64) else .st32 (initRand32 1#32)

/-- __rand, lib/rand.h:98-104. -/
def rand : FRand → BitVec 64 × FRand
  | .st32 t => let (v, t) := rand32 t; (v.setWidth 64, .st32 t)
  | .st64 t => let (v, t) := rand64 t; (v, .st64 t)

/-- rand_max, lib/rand.h:29-35. -/
def randMax : FRand → Nat
  | .st32 _ => 2 ^ 32 - 1
  | .st64 _ => 2 ^ 64 - 1

/-- `(int) ((double)end * (r / FRAND32_MAX_PLUS_ONE))`, lib/rand.h:127, converted to uint32_t.
`r / 2^32` and `(double) end` are exact, the product is rounded once; the conversion to `int` is
undefined (`none`) if the truncated value does not fit. -/
def scaleInt32 (end_ r : Nat) : Option Nat :=
  let v := round53 (end_ * r) / 2 ^ 32
  if v < 2 ^ 31 then some v else none

/-- rand32_upto, lib/rand.h:119-128; `end` is a uint32_t and `end++` wraps. -/
def rand32Upto (t : Taus88) (end_ : Nat) : Option Nat × Taus88 :=
  let (r, t) := rand32 t
  (scaleInt32 ((end_ % 2 ^ 32 + 1) % 2 ^ 32) r.toNat, t)

/-- `(uint64_t) ((double)end * (r / FRAND64_MAX_PLUS_ONE))`, lib/rand.h:138.  Both conversions to
double round, the product rounds again; division by 2^64 is exact. -/
def scaleInt64 (end_ r : Nat) : Option Nat :=
  let v := round53 (round53 end_ * round53 r) / 2 ^ 64
  if v < 2 ^ 64 then some v else none

/-- rand64_upto, lib/rand.h:130-139. -/
def rand64Upto (t : Taus258) (end_ : Nat) : Option Nat × Taus258 :=
  let (r, t) := rand64 t
  (scaleInt64 ((end_ % 2 ^ 64 + 1) % 2 ^ 64) r.toNat, t)

/-- rand_between, lib/rand.h:144-151; all arithmetic modulo 2^64. -/
def randBetween (f : FRand) (start end_ : Nat) : Option Nat × FRand :=
  let range := (end_ + (2 ^ 64 - start)) % 2 ^ 64
  match f with
  | .st64 t => let (v, t) := rand64Upto t range; (v.map fun v => (start + v) % 2 ^ 64, .st64 t)
  | .st32 t => let (v, t) := rand32Upto t range; (v.map fun v => (start + v) % 2 ^ 64, .st32 t)

end Fio.Rand
