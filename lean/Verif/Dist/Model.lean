import Verif.Rand.Model
/-
Model of the skewed distributions: /repo/lib/zipf.c, /repo/lib/gauss.c, /repo/hash.h.
-/
namespace Fio.Dist
open Fio.Rand

/-- __hash_u64, hash.h:54-57. -/
def hashU64 (v : Nat) : Nat := v * 0x61C8864680B583EB % 2 ^ 64

/-- The integer part of zipf_next, lib/zipf.c:67-72.  `val` is the value of the variable `val` after
line 65, whose computation in floating point (pow) is not modelled: it is an arbitrary 64-bit number
(a conversion of a NaN or of a number outside the range is undefined in C; every machine delivers
some 64-bit number).  `val--` wraps. -/
def zipfFinish (nranges randOff : Nat) (disableHash : Bool) (val : Nat) : Nat :=
  let val := (val + (2 ^ 64 - 1)) % 2 ^ 64
  let val := if disableHash then val else hashU64 val
  ((val + randOff) % 2 ^ 64) % nranges

/-- The integer part of pareto_next, lib/zipf.c:89-92; `n` as computed on line 87 is arbitrary. -/
def paretoFinish (nranges randOff : Nat) (disableHash : Bool) (n : Nat) : Nat :=
  let n := if disableHash then n else hashU64 n
  ((n + randOff) % 2 ^ 64) % nranges

/-- struct gauss_state, lib/gauss.h:7-13.  The generator is the 32-bit one (gauss.c:50). -/
structure Gauss where
  r : Taus88
  nranges : Nat
  stddev : Nat
  randOff : Nat
  disableHash : Bool

/-- The sum of `k` draws, each modulo `nranges + 1`, lib/gauss.c:27-28. -/
def gaussSum (nranges : Nat) : Nat → Nat → Taus88 → Nat × Taus88
  | 0, sum, t => (sum, t)
  | k + 1, sum, t =>
    let (v, t) := rand32 t
    gaussSum nranges k ((sum + v.toNat % ((nranges + 1) % 2 ^ 64)) % 2 ^ 64) t

/-- A 32-bit pattern read as a C `int`. -/
def toInt32 (n : Nat) : Int := if n % 2 ^ 32 < 2 ^ 31 then (n % 2 ^ 32 : Nat) else (n % 2 ^ 32 : Nat) - 2 ^ 32

/-- An integer converted to `unsigned long long`. -/
def toU64 (i : Int) : Nat := (i % 2 ^ 64).toNat

/-- gauss_dev, lib/gauss.c:8-20.  `vr` is an `int`; `vr - stddev / 2` is computed unsigned and
converted back. `none`: the conversion of the double to `int` overflows. -/
def gaussDev (stddev : Nat) (t : Taus88) : Option Int × Taus88 :=
  if stddev = 0 then (some 0, t)
  else
    let (r, t) := rand32 t
    ((scaleInt32 stddev r.toNat).map fun vr => toInt32 (vr + (2 ^ 32 - stddev / 2)), t)

/-- The loop of gauss_next, lib/gauss.c:35-36, with at most `fuel` tests of the condition; `dev` is
an `int` converted to unsigned long long for the comparison; `/=` truncates towards zero. -/
def gaussLoop (nranges sum : Nat) : Nat → Int → Option Int
  | 0, _ => none
  | fuel + 1, dev =>
    if nranges ≤ toU64 (dev + sum) then gaussLoop nranges sum fuel (dev.tdiv 2) else some dev

/-- gauss_next, lib/gauss.c:22-44. -/
def gaussNext (fuel : Nat) (g : Gauss) : Option (Nat × Gauss) :=
  let (sum, t) := gaussSum g.nranges 12 0 g.r
  let sum := (sum + 12 - 1) / 12
  let finish (sum : Nat) (t : Taus88) : Nat × Gauss :=
    let sum := if g.disableHash then sum else hashU64 sum
    (((sum + g.randOff) % 2 ^ 64) % g.nranges, { g with r := t })
  if g.stddev ≠ 0 then
    match gaussDev g.stddev t with
    | (none, _) => none
    | (some dev, t) =>
      match gaussLoop g.nranges sum fuel dev with
      | none => none
      | some dev => some (finish (toU64 (dev + sum)) t)
  else some (finish sum t)

/-- gauss_init, lib/gauss.c:46-62.  The double `ceil(nranges * dev / 100)` and `nranges * (center -
0.5)` are arbitrary 32-bit values `rawDev` and `off`. -/
def gaussInit (nranges rawDev off : Nat) (seed : BitVec 32) : Gauss where
  r := initRand32 seed
  nranges := nranges
  stddev := if rawDev > nranges / 2 then (nranges / 2) % 2 ^ 32 else rawDev % 2 ^ 32
  randOff := off % 2 ^ 32
  disableHash := false

end Fio.Dist
