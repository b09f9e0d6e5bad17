import Verif.ZDist.Model
/-
What a zoned distribution means, from the list of zones alone: zone `i` is chosen by `acc` of the
numbers 1..100, and covers `szp` percent of the blocks (or `size` bytes) behind the zones before it.
-/
namespace Fio.ZDist

/-- Sum of a field over the zones before zone `i`. -/
def before (f : Zone → Nat) (zs : List Zone) (i : Nat) : Nat := ((zs.take i).map f).sum

/-- Sum over all zones. -/
def all (f : Zone → Nat) (zs : List Zone) : Nat := (zs.map f).sum

/-- The number `v` between 1 and 100 selects zone `i`. -/
def Selects (zs : List Zone) (v i : Nat) : Prop :=
  ∃ z, zs[i]? = some z ∧ before Zone.acc zs i < v ∧ v ≤ before Zone.acc zs i + z.acc

/-- First block of zone `i` of a file of `lastb` blocks. -/
def lo (lastb : Nat) (zs : List Zone) (i : Nat) : Nat := before Zone.szp zs i * lastb / 100

/-- Number of its blocks. -/
def len (lastb : Nat) (z : Zone) : Nat := z.szp * lastb / 100

/-- A draw of a Tausworthe generator; the last 1024 values of the 64-bit one are left out, see
`IoGen.C25_uniform_top`. -/
def GoodDraw (r bits : Nat) : Prop := (bits = 32 ∧ r < 2 ^ 32) ∨ (bits = 64 ∧ r < 2 ^ 64 - 1024)

end Fio.ZDist
