import Mathlib.Order.Interval.Finset.Nat

/-!
# What a split asks for

An option is a list of sizes, each with a percentage from 1 to 100 or without.
-/

namespace Fio.Split

/-- The percentages that are written down. -/
def given (l : List (Nat × Option Nat)) : Nat := (l.map fun x => x.2.getD 0).sum

/-- The number of entries without. -/
def unset (l : List (Nat × Option Nat)) : Nat := (l.filter fun x => x.2.isNone).length

/-- The percentage of an entry: as written, or an equal part of what is left. -/
def share (l : List (Nat × Option Nat)) (x : Nat × Option Nat) : Nat :=
  x.2.getD ((100 - given l) / unset l)

/-- The percentage of I/Os of size `s`. -/
def want (l : List (Nat × Option Nat)) (s : Nat) : Nat :=
  ((l.filter fun x => x.1 = s).map (share l)).sum

/-- All percentages; less than 100 if what is left cannot be divided evenly. -/
def total (l : List (Nat × Option Nat)) : Nat := (l.map (share l)).sum

/-- Of the numbers below `2 ^ bits`, how many satisfy `p`. -/
def howMany (bits : Nat) (p : Nat → Bool) : Nat := ((Finset.range (2 ^ bits)).filter fun r => p r).card

end Fio.Split
