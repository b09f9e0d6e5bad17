import Verif.WMode.Model
/-!
# Shares of the kinds of writes (C111)
-/

namespace Fio.WMode

/-- How many of the 100 draws give entry `k`. -/
def draws (split : List (Op × Nat)) (k : Nat) : Nat := (List.range 100).countP fun r => choose r split 0 0 == some k

def given (es : List Entry) : Nat := (es.map fun e => (e.perc.getD 0).toNat).sum

def blanks (es : List Entry) : Nat := es.countP fun e => e.perc.isNone

/-- The share of an entry: its percentage, or if it is blank an equal part of what is left, rounded down. -/
def share (es : List Entry) (e : Entry) : Nat := match e.perc with
  | some p => p.toNat
  | none => (100 - given es) / blanks es

/-- An option that makes sense: two to five entries, percentages from 0 to 100, together 100 or, if some are blank, at most 100. -/
def Sensible (es : List Entry) : Prop :=
  2 ≤ es.length ∧ es.length ≤ 5 ∧ (∀ e ∈ es, ∀ p, e.perc = some p → 0 ≤ p) ∧ given es ≤ 100 ∧ (blanks es = 0 → given es = 100)

end Fio.WMode
