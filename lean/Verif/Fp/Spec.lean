import Verif.Fp.Model
/-
What a 64-bit word means as a double (IEEE 754-2008, section 3.4, binary64), and what is asked of
the arithmetic of `long double`.  Nothing here uses the model of `pack754`/`unpack754`.
-/
namespace Fio.Fp

/-- The fields of a binary64 word: sign, exponent field, trailing significand. -/
structure Fields where
  s : Bool
  e : Nat
  m : Nat
deriving DecidableEq

def Fields.Valid (w : Fields) : Prop := w.e < 2 ^ 11 ∧ w.m < 2 ^ 52

/-- The word: sign in bit 63, exponent in bits 62..52, significand in bits 51..0. -/
def Fields.word (w : Fields) : Nat := (if w.s then 2 ^ 63 else 0) + w.e * 2 ^ 52 + w.m

/-- A normal number: neither zero nor subnormal nor infinite nor not-a-number. -/
def Fields.Normal (w : Fields) : Prop := 1 ≤ w.e ∧ w.e ≤ 2046 ∧ w.m < 2 ^ 52

/-- The value of a double. -/
def Fields.value (w : Fields) : LD :=
  if w.e = 2047 then (if w.m = 0 then .inf w.s else .nan)
  else if w.e = 0 then .fin ((if w.s then -1 else 1) * (w.m / 2 ^ 52) * 2 ^ (-1022 : ℤ))
  else .fin ((if w.s then -1 else 1) * (1 + w.m / 2 ^ 52) * 2 ^ ((w.e : ℤ) - 1023))

/-- Rounding leaves every double alone: what holds of every `long double` at least as wide as
`double` (53 bits of significand, exponents down to the smallest subnormal). -/
def KeepsDoubles (rnd : ℚ → ℚ) : Prop :=
  ∀ (m : ℤ) (k : ℤ), |m| < 2 ^ 53 → -1074 ≤ k → k ≤ 971 → rnd (m * 2 ^ k) = m * 2 ^ k

/-- The arithmetic of a `long double` that holds all doubles: rounding is monotone, as in every
rounding mode, and leaves doubles alone. -/
structure Sound (A : Arith) : Prop where
  keeps : KeepsDoubles A.rnd
  mono : Monotone A.rnd

end Fio.Fp
