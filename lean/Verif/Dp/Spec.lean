import Verif.Dp.Model
/-!
# What data placement should do
-/

namespace Fio.Dp.Spec

open Fio.Dp

/-- The ids an option names, in its order. -/
def named (items : List (Nat × Option Nat)) : List Nat :=
  items.flatMap (fun p => List.range' p.1 (p.2.getD p.1 + 1 - p.1))

/-- An option that can be used: ranges go up, ids have 16 bits, at most 128 of them. -/
def usable (items : List (Nat × Option Nat)) : Prop :=
  (∀ p ∈ items, p.1 ≤ p.2.getD p.1) ∧ (∀ i ∈ named items, i ≤ 0xFFFF) ∧ (named items).length ≤ 128

/-- Turn about: the number of writes among the units before decides. -/
def rrAt (plis : List Nat) (us : List Unit_) (k : Nat) : Option Nat :=
  plis[((us.take k).filter (fun u => u.dir = .write)).length % plis.length]?

/-- The entry that decides at an offset: the first that contains it. -/
def Decides (es : List Entry) (off p : Nat) : Prop :=
  (∃ k, ∃ h : k < es.length, es[k].start ≤ off ∧ off < es[k].end_ ∧ es[k].pli = p ∧
    ∀ j (hj : j < k), ¬ (es[j].start ≤ off ∧ off < es[j].end_)) ∨
  ((∀ e ∈ es, ¬ (e.start ≤ off ∧ off < e.end_)) ∧ p = 0)

end Fio.Dp.Spec
