import Verif.Cmdprio.Model

/-!
# What the options ask for
-/

namespace Fio.Cmdprio.Spec

open Fio.Cmdprio

/-- The priority an entry names, or the one of the other options. -/
def named (implicit : Nat) (e : Entry) : Nat := if e.prio < 0 then implicit else e.prio.toNat

/-- The share of the units of length `len` that shall have priority `p`, in percent. -/
def share (implicit : Nat) (es : List Entry) (len p : Nat) : Nat :=
  ((es.filter fun e => e.bs = len ∧ named implicit e = p).map (·.perc)).sum

/-- The share of the units of length `len` that shall have any priority of the entries. -/
def total (es : List Entry) (len : Nat) : Nat :=
  ((es.filter fun e => e.bs = len).map (·.perc)).sum

/-- How many of the numbers 0 .. 99 lead to an answer in `q`. -/
def count (f : Nat → Option (Option (Nat × Nat))) (q : Option (Nat × Nat) → Bool) : Nat :=
  ((List.range 100).filter fun r => match f r with | some x => q x | none => false).length

/-- An entry as the parser makes them. -/
def Valid (e : Entry) : Prop := -1 ≤ e.prio ∧ e.prio < 65536

end Fio.Cmdprio.Spec
