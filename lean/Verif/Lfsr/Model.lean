/-
Model of lib/lfsr.c: the XNOR Galois LFSR fio uses as a permutation of the block range.
64-bit words are `BitVec 64`; counters that stay far below 2^64 are `Nat`.
-/
namespace Fio.Lfsr

/-- lib/lfsr.c:13-77 `lfsr_taps[64][FIO_MAX_TAPS]` (trailing zero entries dropped, the zero that
`{0}` spells out kept). -/
def lfsrTaps : List (List Nat) := [
  [0],
  [0],
  [0],
  [3, 2],
  [4, 3],
  [5, 3],
  [6, 5],
  [7, 6],
  [8, 6, 5, 4],
  [9, 5],
  [10, 7],
  [11, 9],
  [12, 6, 4, 1],
  [13, 4, 3, 1],
  [14, 5, 3, 1],
  [15, 14],
  [16, 15, 13, 4],
  [17, 14],
  [18, 11],
  [19, 6, 2, 1],
  [20, 17],
  [21, 19],
  [22, 21],
  [23, 18],
  [24, 23, 22, 17],
  [25, 22],
  [26, 6, 2, 1],
  [27, 5, 2, 1],
  [28, 25],
  [29, 27],
  [30, 6, 4, 1],
  [31, 28],
  [32, 31, 29, 1],
  [33, 20],
  [34, 27, 2, 1],
  [35, 33],
  [36, 25],
  [37, 5, 4, 3, 2, 1],
  [38, 6, 5, 1],
  [39, 35],
  [40, 38, 21, 19],
  [41, 38],
  [42, 41, 20, 19],
  [43, 42, 38, 37],
  [44, 43, 18, 17],
  [45, 44, 42, 41],
  [46, 45, 26, 25],
  [47, 42],
  [48, 47, 21, 20],
  [49, 40],
  [50, 49, 24, 23],
  [51, 50, 36, 35],
  [52, 49],
  [53, 52, 38, 37],
  [54, 53, 18, 17],
  [55, 31],
  [56, 55, 35, 34],
  [57, 50],
  [58, 39],
  [59, 58, 38, 37],
  [60, 59],
  [61, 60, 46, 45],
  [62, 61, 6, 5],
  [63, 62]]

/-- lib/lfsr.h:14-24 `struct fio_lfsr`.  `num_vals` counts calls and is a `Nat` here (in C it
wraps after 2^64 calls). -/
structure Lfsr where
  xormask : BitVec 64
  lastVal : BitVec 64
  cachedBit : BitVec 64
  maxVal : BitVec 64
  numVals : Nat
  cycleLength : Nat
  cachedCycleLength : Nat
  spin : Nat
deriving DecidableEq, Repr

/-- lib/lfsr.c:79-81 `__LFSR_NEXT`. -/
def lfsrStep (xormask cachedBit v : BitVec 64) : BitVec 64 :=
  ((v >>> 1) ||| cachedBit) ^^^ (((v &&& 1#64) - 1#64) &&& xormask)

/-- Apply a function `k` times. -/
def times {α : Type} (f : α → α) : Nat → α → α
  | 0, x => x
  | k + 1, x => times f k (f x)

/-- lib/lfsr.c:89-123: the number of `__LFSR_NEXT` steps the fall-through switch performs; a
`spin` above 15 hits `default`. -/
def switchSteps (spin : Nat) : Nat := if spin ≤ 15 then spin + 1 else 0

/-- lib/lfsr.c:83-124 `__lfsr_next`. -/
def lfsrNext0 (fl : Lfsr) (spin : Nat) : Lfsr :=
  { fl with lastVal := times (lfsrStep fl.xormask fl.cachedBit) (switchSteps spin) fl.lastVal }

/-- lib/lfsr.c:148-152, body of the do/while loop of `lfsr_next`. -/
def inner (fl : Lfsr) : Lfsr :=
  if fl.cycleLength ≠ 0 ∧ fl.cycleLength - 1 = 0 then
    { lfsrNext0 fl (fl.spin + 1) with cycleLength := fl.cachedCycleLength }
  else
    { lfsrNext0 fl fl.spin with cycleLength := fl.cycleLength - 1 }

/-- lib/lfsr.c:147-156, the do/while loop, with a bound on the number of iterations (`none`: not
finished within the bound). -/
def nextLoop : (fuel : Nat) → Lfsr → Option (Lfsr × Option Nat)
  | 0, _ => none
  | fuel + 1, fl =>
    let fl' := inner fl
    if fl'.lastVal.toNat > fl'.maxVal.toNat then nextLoop fuel fl'
    else some (fl', some fl'.lastVal.toNat)

/-- lib/lfsr.c:142-157 `lfsr_next`.  Inner `none` is "return 1", `some v` is "return 0 with
*off = v". -/
def lfsrNext (fuel : Nat) (fl : Lfsr) : Option (Lfsr × Option Nat) :=
  if fl.numVals > fl.maxVal.toNat then some ({ fl with numVals := fl.numVals + 1 }, none)
  else nextLoop fuel { fl with numVals := fl.numVals + 1 }

/-- lib/lfsr.c:159-168 `lfsr_create_xormask`: `count` further entries may be looked at. -/
def createXormask : (count : Nat) → List Nat → BitVec 64 → BitVec 64
  | 0, _, m => m
  | _ + 1, [], m => m
  | c + 1, t :: ts, m => if t = 0 then m else createXormask c ts (m ||| (1#64 <<< (t - 1)))

/-- lib/lfsr.c:170-184 `find_lfsr`, loop over `i` with `fuel` entries left. -/
def findLfsrFrom (size : Nat) : (fuel i : Nat) → Option (List Nat)
  | 0, _ => none
  | fuel + 1, i => if 2 ^ i > size then lfsrTaps[i]? else findLfsrFrom size fuel (i + 1)

/-- lib/lfsr.c:170-184 `find_lfsr`: `for (i = 3; i < 64; i++)`. -/
def findLfsr (size : Nat) : Option (List Nat) := findLfsrFrom size 61 3

/-- lib/lfsr.c:218-223: the loop of `prepare_spin`; returns the cycle length, 0 if none. -/
def spinCycle (x y spin : Nat) : (fuel i : Nat) → Nat
  | 0, _ => 0
  | fuel + 1, i =>
    if i ≤ spin then
      if (y * i) % (spin + 1) = 0 then x * i + y * i / (spin + 1) else spinCycle x y spin fuel (i + 1)
    else 0

/-- lib/lfsr.c:204-233 `prepare_spin`; `none` is "return 1". -/
def prepareSpin (fl : Lfsr) (spin : Nat) : Option Lfsr :=
  let max := ((fl.cachedBit <<< 1) - 1#64).toNat
  if spin > 15 then none else
    let c := spinCycle (max / (spin + 1)) (max % (spin + 1)) spin 15 1
    some { fl with spin := spin, cachedCycleLength := c, cycleLength := c + 1 }

/-- lib/lfsr.c:235-247 `lfsr_reset`; the Boolean is true for "return 0". -/
def lfsrReset (fl : Lfsr) (seed : BitVec 64) : Lfsr × Bool :=
  let bitmask := (fl.cachedBit <<< 1) - 1#64
  let fl' := { fl with numVals := 0, lastVal := seed &&& bitmask }
  (fl', decide (fl'.lastVal ≠ bitmask))

/-- lib/lfsr.c:249-269 `lfsr_init`; `none` is "return 1". -/
def lfsrInit (nums : BitVec 64) (seed : BitVec 64) (spin : Nat) : Option Lfsr := do
  let taps ← findLfsr nums.toNat
  let t0 ← taps[0]?
  let fl : Lfsr :=
    { xormask := createXormask 6 taps 0#64, lastVal := 0#64, cachedBit := 1#64 <<< (t0 - 1),
      maxVal := nums - 1#64, numVals := 0, cycleLength := 0, cachedCycleLength := 0, spin := 0 }
  let fl ← prepareSpin fl spin
  let (fl, ok) := lfsrReset fl seed
  if ok then some fl else none

/-- A number of consecutive `lfsr_next` calls and their answers. -/
def calls (fuel : Nat) : Nat → Lfsr → Option (Lfsr × List (Option Nat))
  | 0, fl => some (fl, [])
  | k + 1, fl => do
    let (fl', o) ← lfsrNext fuel fl
    let (fl'', os) ← calls fuel k fl'
    return (fl'', o :: os)

end Fio.Lfsr
