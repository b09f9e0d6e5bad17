import Verif.Vsync.Model

/-! What is asked of the `vsync` engine, in terms of the bytes the kernel moves. -/

namespace Fio.Vsync

/-- Which byte of which buffer is at place `q` of a vector. -/
def locate : List (Nat × Nat) → Nat → Option (Nat × Nat)
  | [], _ => none
  | (id, len) :: v, q => if q < len then some (id, q) else locate v (q - len)

/-- The byte (unit and index into its buffer) a call moves to or from position `p` of its file. -/
def byteAt (c : Call) (p : Nat) : Option (Nat × Nat) :=
  if c.at_ ≤ p ∧ p < c.at_ + c.got then locate c.vec (p - c.at_) else none

/-- The call moved the bytes of `u` that `u` reports as moved: in the file and direction of `u`, each at its own
place. -/
def Served (c : Call) (u : U) : Prop :=
  c.file = u.file ∧ (c.write = true ↔ u.dir = .write) ∧ (c.write = false ↔ u.dir = .read) ∧
    ∀ i, i < u.len - u.resid → byteAt c (u.off + i) = some (u.id, i)

/-- Every byte the call moved is one that a unit in `us` reports as moved, at the place it belongs. -/
def Pure (c : Call) (us : List U) : Prop :=
  ∀ p b, byteAt c p = some b → ∃ u ∈ us, u.id = b.1 ∧ u.file = c.file ∧ p = u.off + b.2 ∧ b.2 < u.len - u.resid

/-- A unit without what the engine reports in it. -/
def plain (u : U) : U := { u with resid := 0, err := 0 }

/-- Bytes a unit reports as moved. -/
def moved (u : U) : Nat := u.len - u.resid

end Fio.Vsync
