/-
What an averaged log is: the samples of a direction, in order, are cut into groups, and each group
has one entry.
-/
namespace Fio.LogAvg.Spec

/-- The mean of the values, rounded to the nearest integer, halves up. -/
def rounded (g : List Nat) : Nat := (2 * g.sum + g.length) / (2 * g.length)

/-- `m` is the largest of the values. -/
def largest (g : List Nat) (m : Nat) : Prop := m ∈ g ∧ ∀ x ∈ g, x ≤ m

/-- All but the last of the times are in one window of `avg` milliseconds. -/
def oneWindow (avg : Nat) (ts : List Nat) : Prop :=
  ∃ k, ∀ t ∈ ts.dropLast, k * avg ≤ t ∧ t < (k + 1) * avg

end Fio.LogAvg.Spec
