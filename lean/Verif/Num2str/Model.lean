import Mathlib.Data.Nat.Log
/-
lib/num2str.c: human-readable numbers.
-/
namespace Fio.Num2str

/-- Length of the decimal text of `n` (strlen after sprintf "%llu"). -/
def ndigits (n : Nat) : Nat := Nat.log 10 n + 1

/-- `thousand`, lib/num2str.c:63. -/
def thousand (pow2 : Bool) : Nat := if pow2 then 1024 else 1000

/-- FIO_ARRAY_SIZE(sistr), lib/num2str.c:52. -/
def nPrefix : Nat := 7

/-- `for (post_index = 0; base > 1; post_index++) base /= thousand;`, lib/num2str.c:77-78.  The fuel
31 covers every int. -/
def basePost (t : Nat) : Nat → Nat → Nat
  | 0, _ => 0
  | fuel + 1, base => if base > 1 then basePost t fuel (base / t) + 1 else 0

/-- The division loop, lib/num2str.c:101-110, with `k` = 7 - post_index steps left.  The modulo is
`none` as long as it is -1U. -/
def divLoop (t maxlen : Nat) : Nat → Nat → Option Nat → Nat × Option Nat × Nat
  | 0, num, m => (num, m, 0)
  | k + 1, num, m =>
    if ndigits num ≤ maxlen then (num, m, k + 1)
    else divLoop t maxlen k (num / t) (some (num % t))

/-- `sprintf(tmp, "%.*f", d, (double)modulo / (double)thousand)` as an integer number of 10^-d units,
lib/num2str.c:140-141: the nearest one; at an exact tie either neighbour (`up`).  (A non-tie quotient is
at least 1/1024 of a unit away from a tie, much more than the rounding error of the division.) -/
def fmtFrac (t d m : Nat) (up : Bool) : Nat :=
  let q := 10 ^ d * m / t
  let r := 10 ^ d * m % t
  if 2 * r < t then q else if 2 * r > t then q + 1 else if up then q + 1 else q

/-- The text printed: integer part, number of decimals and decimals as a number, prefix index. -/
structure Out where
  int : Nat
  decimals : Nat
  frac : Nat
  pref : Nat
deriving DecidableEq, Repr

/-- num2str, lib/num2str.c:50-150, after the multiplication by 8 for bits; `none` is a failed
assertion.  All arguments are of the C types: num < 2^64, 0 < base < 2^31. -/
def num2str (num maxlen base : Nat) (pow2 up : Bool) : Option Out :=
  let t := thousand pow2
  let post := basePost t 31 base
  let (n, m, k) := divLoop t maxlen (nPrefix - post) num none
  -- post_index ≥ 7 becomes 0
  let pref := if k = 0 then 0 else nPrefix - k
  match m with
  | none => some ⟨n, 0, 0, pref⟩
  | some m =>
    let carry : Bool := decide (m ≥ t / 2)
    if (maxlen : Int) - ndigits n ≤ 1 then some ⟨if carry then n + 1 else n, 0, 0, pref⟩
    else if m < t then
      let d := maxlen - ndigits n - 1
      let f := fmtFrac t d m up
      -- tmp[0] is '1' exactly if the rounded fraction is 1
      if f ≥ 10 ^ d then some ⟨n + 1, d, f - 10 ^ d, pref⟩ else some ⟨n, d, f, pref⟩
    else none

/-- num2str with its `units` argument: the two bit units multiply the number by 8 (uint64_t),
lib/num2str.c:80-97. -/
def num2strUnits (num maxlen base : Nat) (pow2 isBits up : Bool) : Option Out :=
  num2str (if isBits then num * 8 % 2 ^ 64 else num) maxlen base pow2 up

end Fio.Num2str
