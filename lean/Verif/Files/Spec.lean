/-
What the reference counts of files and the choice of a file are for, without reference to how it is done.
-/
namespace Fio.Files

/-- Number of i < n with p i. -/
def cnt (n : Nat) (p : Nat → Bool) : Nat :=
  match n with
  | 0 => 0
  | n + 1 => cnt n p + (if p n then 1 else 0)

/-- The files in the order of round robin: `k` times each of the n files, and again. -/
def roundRobin (n k j : Nat) : Nat := j / k % n

/-- The files one after the other, file i as often as `quota i` says. -/
def inOrder (quota : Nat → Nat) : Nat → List Nat
  | 0 => []
  | n + 1 => inOrder quota n ++ List.replicate (quota n) n

end Fio.Files
