import Verif.Eta.Model
/-!
# What is to be shown of requests for the ETA (C106)
-/

namespace Fio.Eta

/-- The answer is awaited: the server is there and was asked with this tag. -/
def Awaited (st : St) (i t : Nat) : Prop := ∃ c, st.cls[i]? = some c ∧ c.here = true ∧ t ∈ c.cmds

/-- The awaited answers to request `e`, in order. -/
inductive Answers (e : Nat) : St → List Ev → List Nat → Prop
  | nil (st : St) : Answers e st [] []
  | answer (st st' : St) (i v : Nat) (evs : List Ev) (l : List Nat) : Awaited st i e → step st (.reply i e v) = some st' → Answers e st' evs l →
      Answers e st (.reply i e v :: evs) (v :: l)
  | other (st st' : St) (ev : Ev) (evs : List Ev) (l : List Nat) : (∀ i v, ev = .reply i e v → ¬ Awaited st i e) → step st ev = some st' →
      Answers e st' evs l → Answers e st (ev :: evs) l

/-- Requests are made only when there is a server and all are running. -/
def Attended : St → List Ev → Prop
  | _, [] => True
  | st, ev :: evs =>
    (ev = .request → (∃ c ∈ st.cls, c.here = true) ∧ ∀ c ∈ st.cls, c.here = true → c.running = true) ∧
      ∀ st', step st ev = some st' → Attended st' evs

end Fio.Eta
