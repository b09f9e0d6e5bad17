import Verif.Libaio.Model

/-! What is asked of the `libaio` engine. -/

namespace Fio.Libaio

/-- Nothing is lost or done twice: the units accepted are, in order, those the kernel took followed by those waiting
(`q`), and the units the kernel took are those it works on, those handed back and those dropped. -/
def Kept (s : St) (q : List Nat) : Prop :=
  s.sub ++ q = s.acc ∧ (s.back.map (·.unit) ++ s.dropped.map (·.unit) ++ s.fly).Perm s.sub

/-- The answer is not a failure of `io_getevents` other than an interruption. -/
def Soft : GRes → Prop
  | .err _ => False
  | _ => True

end Fio.Libaio
