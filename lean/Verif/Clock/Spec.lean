import Verif.Clock.Model
/-
What the clocks should do, in terms of nanoseconds on a line of integers.
-/
namespace Fio.Clock

/-- The instant a timespec stands for, in nanoseconds. -/
def TS.ns (t : TS) : Int := t.sec * 1000000000 + t.nsec

/-- The nanoseconds are less than a second. -/
def TS.Norm (t : TS) : Prop := 0 ≤ t.nsec ∧ t.nsec < 1000000000

/-- The two instants are at most 2^33 seconds (272 years) apart and each is at most 2^62 seconds
from the origin. -/
def Near (s e : TS) : Prop :=
  -2 ^ 33 ≤ e.sec - s.sec ∧ e.sec - s.sec ≤ 2 ^ 33 ∧
  -2 ^ 62 ≤ s.sec ∧ s.sec ≤ 2 ^ 62 ∧ -2 ^ 62 ≤ e.sec ∧ e.sec ≤ 2 ^ 62

/-- `n` nanoseconds are a fair measure of `e` cycles of a clock with `c` cycles in a millisecond:
never more than one nanosecond too many, and too few by no more than one nanosecond in 2^22 = 4194304 cycles,
one in half an hour, and four. -/
def Fair (c e n : Nat) : Prop :=
  n * c ≤ e * 1000000 + c ∧
  e * 1000000 ≤ (n + e / 4194304 + e / (1800000 * c) + 4) * c

end Fio.Clock
