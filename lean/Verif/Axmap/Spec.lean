/-
Specification of the axmap: a set of block numbers below a fixed size.  Nothing in this file
refers to the model of lib/axmap.c.
-/
namespace Fio.Axmap.Spec

/-- A set of marked blocks. -/
abbrev Marks := Nat → Bool

def empty : Marks := fun _ => false

/-- Mark block `b`. -/
def set (m : Marks) (b : Nat) : Marks := fun i => m i || i == b

/-- Length of the longest run of unmarked blocks `b, b+1, ...`, looking at `k` blocks. -/
def freeRun (m : Marks) (b : Nat) : Nat → Nat
  | 0 => 0
  | k + 1 => if m b then 0 else 1 + freeRun m (b + 1) k

/-- Mark the blocks of that run. -/
def setRun (m : Marks) (b k : Nat) : Marks :=
  fun i => m i || (decide (b ≤ i) && decide (i < b + freeRun m b k))

/-- The operations of the interface that change the set. -/
inductive Op
  | set (b : Nat)
  | setNr (b k : Nat)
  | reset
deriving DecidableEq, Repr

/-- Operations the interface allows on a map of `n` blocks. -/
def Op.Valid (n : Nat) : Op → Prop
  | .set b => b < n
  | .setNr b k => b < n ∧ b + k ≤ n
  | .reset => True

/-- Effect of one operation and the number it returns (0 for those that return nothing). -/
def step (m : Marks) : Op → Marks × Nat
  | .set b => (set m b, 0)
  | .setNr b k => (setRun m b k, freeRun m b k)
  | .reset => (empty, 0)

/-- A whole sequence of operations, with everything returned along the way. -/
def run (m : Marks) : List Op → Marks × List Nat
  | [] => (m, [])
  | o :: os =>
    let (m', r) := step m o
    let (m'', rs) := run m' os
    (m'', r :: rs)

/-- The first unmarked block met going up from `b + 1`, wrapping at `n`, all `n` blocks
(`b` last). -/
def nextFree (m : Marks) (n b : Nat) : Option Nat :=
  ((List.range n).map fun j => (b + 1 + j) % n).find? fun x => !m x

end Fio.Axmap.Spec
