import Verif.Ddir.Model

/-!
# What fsync=N, fdatasync=N and sync_file_range=...:N ask for

The data I/Os of a job are given; the syncs belong between them.
-/

namespace Fio.Ddir

/-- The sync that belongs after the `n`-th write, if any. -/
def due (fsync fdatasync sfr n : Nat) : Option Dd :=
  if 0 < fsync ∧ fsync ∣ n then some .sync
  else if 0 < fdatasync ∧ fdatasync ∣ n then some .datasync
  else if 0 < sfr ∧ sfr ∣ n then some .sfr
  else none

/-- The data I/Os with the syncs added, `n` writes before. -/
def weave (f d r : Nat) : Nat → List Dd → List Dd
  | _, [] => []
  | n, .write :: l => .write :: ((due f d r (n + 1)).toList ++ weave f d r (n + 1) l)
  | n, x :: l => x :: weave f d r n l

/-- Reads, writes and trims. -/
def isData (d : Dd) : Bool := d = .read ∨ d = .write ∨ d = .trim

end Fio.Ddir
