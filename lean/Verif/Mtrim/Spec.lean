/-
What a trim with several ranges should do.
-/
import Verif.Mtrim.Model
namespace Fio.Mtrim

/-- A draw that gives a range: an offset, a length, inside of the file. -/
def Good (c : Cfg) (d : Draw) : Prop := d.ok = true ∧ 0 < d.len ∧ d.off + d.len ≤ c.size

/-- The two ranges share no byte. -/
def Disjoint (a b : Nat × Nat) : Prop := a.1 + a.2 ≤ b.1 ∨ b.1 + b.2 ≤ a.1

instance (a b : Nat × Nat) : Decidable (Disjoint a b) := by unfold Disjoint; infer_instance

/-- The first `n` ranges drawn. -/
def drawn (draw : Nat → Draw) (n : Nat) : List (Nat × Nat) :=
  (List.range n).map fun i => ((draw i).off, (draw i).len)

/-- Bytes drawn. -/
def bytes (l : List (Nat × Nat)) : Nat := (l.map (·.2)).sum

/-- The bytes a device with blocks of `lba` bytes frees for one range of a command: offset and
length. -/
def freed (lba : Nat) (r : Nat × Nat) : Nat × Nat := (r.1 * lba, r.2 * lba)

end Fio.Mtrim
