import Verif.Uring.Model

/-!
# What the rings shall do
-/

namespace Fio.Uring.Spec

open Fio.Uring

/-- Every unit queued is in exactly one place: waiting, in the kernel, finished, handed back (or thrown away); what is taken
was queued, in the same order; what is handed back or thrown away was posted. -/
structure Kept (s : St) : Prop where
  order : s.sub <+: s.acc
  flow : s.sub.Perm (s.fly ++ s.posted.map (·.1))
  hand : (s.back ++ s.lost).Perm (s.posted.take s.nread)
  exact : s.lost = [] → s.back = s.posted.take s.nread
  once : (out s).Nodup

/-- A power of two. -/
def Pow2 (n : Nat) : Prop := ∃ a, a ≤ 31 ∧ n = 2 ^ a

end Fio.Uring.Spec
