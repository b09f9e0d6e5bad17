import Verif.Ramp.Model
/-
What the ramp period should be.
-/
namespace Fio.Ramp

/-- Jobs of one group agree on ramp_size and on group_reporting. -/
def Uniform (os : List Opts) : Prop :=
  ∀ a ∈ os, ∀ b ∈ os, a.group = b.group → a.size = b.size ∧ a.rep = b.rep

/-- Group numbers never decrease from job to job, as init.c:1731-1740 assigns them. -/
def Ordered (os : List Opts) : Prop := os.Pairwise fun a b => a.group ≤ b.group

/-- The bytes done by the jobs of group `g`. -/
def groupBytes (g : Nat) (jobs : List Job) : Nat :=
  ((jobs.filter fun j => j.o.group == g).map (·.bytes)).sum

end Fio.Ramp
