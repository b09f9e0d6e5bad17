import Mathlib.Data.Rat.Floor
import Mathlib.Tactic.Linarith
import Mathlib.Tactic.Ring
import Mathlib.Tactic.FieldSimp
import Mathlib.Tactic.NormNum
import Mathlib.Tactic.Positivity
import Mathlib.Tactic.IntervalCases
/-
`pack754` and `unpack754` (lib/ieee754.c:10-84), which carry every double of a job's options and of
its statistics over the network (lib/ieee754.h:8-9; users: cconv.c, server.c, client.c).

The functions compute with `long double`.  A long double is a rational number, an infinity or not a
number.  Every arithmetic result is rounded by a function `rnd` that is a parameter, so that the
theorems hold for every format the compiler may choose for `long double` (x87 extended, binary128,
or plain double) as long as it holds all doubles exactly.
-/
namespace Fio.Fp

/-- A value of type `long double`. -/
inductive LD where
  | fin (q : ℚ)
  | inf (neg : Bool)
  | nan
deriving DecidableEq

/-- How the compiler evaluates floating point: the rounding of results (`rnd`), and the value of
`(1LL << significandbits) + 0.5f` (lib/ieee754.c:42).  That expression has type `float`; evaluated as
a float it is `2^significandbits`, evaluated with more precision (FLT_EVAL_METHOD = 2, as on i386) it
keeps the half. -/
structure Arith where
  rnd : ℚ → ℚ
  half : Bool

variable (A : Arith)

/-- `x / 2.0` -/
def LD.half (x : LD) : LD := match x with
  | .fin q => .fin (A.rnd (q / 2))
  | .inf n => .inf n
  | .nan => .nan

/-- `x * 2.0` -/
def LD.twice (x : LD) : LD := match x with
  | .fin q => .fin (A.rnd (q * 2))
  | .inf n => .inf n
  | .nan => .nan

/-- `x >= c` for a constant `c`; false if `x` is not a number. -/
def LD.ge (x : LD) (c : ℚ) : Bool := match x with
  | .fin q => decide (c ≤ q)
  | .inf n => !n
  | .nan => false

/-- `x < c` for a constant `c`; false if `x` is not a number. -/
def LD.lt (x : LD) (c : ℚ) : Bool := match x with
  | .fin q => decide (q < c)
  | .inf n => n
  | .nan => false

/-- `-x` -/
def LD.neg (x : LD) : LD := match x with
  | .fin q => .fin (-q)
  | .inf n => .inf (!n)
  | .nan => .nan

/-- `while (fnorm >= 2.0) { fnorm /= 2.0; shift++; }` (lib/ieee754.c:32-35).  The first argument
bounds the number of tests of the condition; `none`: the loop has not ended by then. -/
def down : Nat → LD → Int → Option (LD × Int)
  | 0, _, _ => none
  | n + 1, x, s => if x.ge 2 then down n (x.half A) (s + 1) else some (x, s)

/-- `while (fnorm < 1.0) { fnorm *= 2.0; shift--; }` (lib/ieee754.c:36-39). -/
def up : Nat → LD → Int → Option (LD × Int)
  | 0, _, _ => none
  | n + 1, x, s => if x.lt 1 then up n (x.twice A) (s - 1) else some (x, s)

/-- `significand = (fnorm - 1.0) * ((1LL << significandbits) + 0.5f)` (lib/ieee754.c:40-43): the
conversion to `long long` cuts the fraction off; it is undefined (`none`) for values that do not fit,
infinities and not-a-number. -/
def significand (sb : Nat) (x : LD) : Option Int := match x with
  | .fin q =>
    let c : ℚ := if A.half then 2 ^ sb + 1 / 2 else 2 ^ sb
    let r := A.rnd (A.rnd (q - 1) * c)
    let z := if 0 ≤ r then ⌊r⌋ else ⌈r⌉
    if -(2 : Int) ^ 63 ≤ z ∧ z < 2 ^ 63 then some z else none
  | _ => none

/-- `pack754` (lib/ieee754.c:10-50).  `fuel` bounds the two loops.  The left shifts of
`sign` and `exp`, both `long long`, are taken to be shifts of the 64-bit two's complement word, which
is what gcc and clang do also for negative values (ISO C leaves these undefined). -/
def pack (fuel : Nat) (f : LD) (bits expbits : Nat) : Option (BitVec 64) :=
  let sb := bits - expbits - 1
  if f = .fin 0 then some 0 else
  let sign : Int := if f.lt 0 then 1 else 0
  let fnorm := if f.lt 0 then f.neg else f
  match down A fuel fnorm 0 with
  | none => none
  | some (x, s) =>
    match up A fuel x s with
    | none => none
    | some (x, s) =>
      match significand A sb x with
      | none => none
      | some z =>
        let exp := s + (2 ^ (expbits - 1) - 1)
        some ((BitVec.ofInt 64 sign <<< (bits - 1)) ||| (BitVec.ofInt 64 exp <<< sb) |||
          BitVec.ofInt 64 z)

/-- `while (shift > 0) { result *= 2.0; shift--; }  while (shift < 0) { result /= 2.0; shift++; }`
(lib/ieee754.c:71-78): the first loop runs `shift` times if it is positive, the second `-shift` times
if it is negative. -/
def scale (x : LD) (shift : Int) : LD :=
  Nat.repeat (LD.half A) (-shift).toNat (Nat.repeat (LD.twice A) shift.toNat x)

/-- Multiplication of a finite long double by ±1 (lib/ieee754.c:81). -/
def LD.sign (x : LD) (neg : Bool) : LD := if neg then x.neg else x

/-- `unpack754` (lib/ieee754.c:52-84).  `bias` is an `unsigned`, the subtraction is done in
`uint64_t` and stored in a `long long`. -/
def unpack (i : BitVec 64) (bits expbits : Nat) : LD :=
  let sb := bits - expbits - 1
  if i = 0 then .fin 0 else
  let m := (i &&& ((1 : BitVec 64) <<< sb - 1)).toNat
  let r0 := A.rnd (m : ℚ)
  let r1 := A.rnd (r0 / 2 ^ sb)
  let r2 := A.rnd (r1 + 1)
  let bias : BitVec 64 := BitVec.ofNat 64 (2 ^ (expbits - 1) - 1)
  let shift := (((i >>> sb) &&& ((1 : BitVec 64) <<< expbits - 1)) - bias).toInt
  (scale A (.fin r2) shift).sign ((i >>> (bits - 1)).getLsbD 0)

/-- `fio_double_to_uint64` (lib/ieee754.h:8). -/
def toWire (fuel : Nat) (f : LD) : Option (BitVec 64) := pack A fuel f 64 11

/-- `fio_uint64_to_double` (lib/ieee754.h:9), before the result is stored in a double. -/
def ofWire (i : BitVec 64) : LD := unpack A i 64 11

end Fio.Fp
