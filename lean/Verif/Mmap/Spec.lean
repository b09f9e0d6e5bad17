import Verif.Mmap.Model

/-!
# What the units shall do to the file
-/

namespace Fio.Mmap.Spec

open Fio.Mmap

/-- The bytes of a part of a file. -/
def part (file : Nat → Nat) (off len : Nat) : List Nat := (List.range len).map (fun i => file (off + i))

/-- `file'` is `file` with `data` at `off`. -/
def Written (file file' : Nat → Nat) (off : Nat) (data : List Nat) : Prop :=
  part file' off data.length = data ∧ ∀ i, i < off ∨ off + data.length ≤ i → file' i = file i

/-- A unit does what it says. -/
def Right (file file' : Nat → Nat) : Op → Res → Prop
  | .read off _ len, r => r = .done (part file off len) ∧ file' = file
  | .write off _ data, r => r = .done [] ∧ Written file file' off data
  | .sync _ _, r => r = .done [] ∧ file' = file
  | .reopen, r => r = .done [] ∧ file' = file

/-- Inside the part of the file the job works on, and not more moved than prepared. -/
def Inside (c : Cfg) : Op → Prop
  | .read off buflen len => c.fileOff ≤ off ∧ off + buflen ≤ c.fileOff + c.ioSize ∧ len ≤ buflen
  | .write off buflen data => c.fileOff ≤ off ∧ off + buflen ≤ c.fileOff + c.ioSize ∧ data.length ≤ buflen
  | .sync _ _ => True
  | .reopen => True

end Fio.Mmap.Spec
