/-
What a log is for: the I/Os of a job, numbered in the order of their completion, are in the file in
that order, none missing, none twice.
-/
namespace Fio.Log.Spec

/-- The file has the first `k` of the I/Os. -/
def first (k : Nat) (w : List Nat) : Prop :=
  w.length = k ∧ ∀ i, i < k → w[i]? = some i

/-- The file has all of the `n` I/Os. -/
def complete (n : Nat) (w : List Nat) : Prop := first n w

end Fio.Log.Spec
