import Verif.Timers.Model
/-!
# When the helper thread wakes (C108)
-/

namespace Fio.Timers

/-- The clock never goes back, timers are not reset, functions return no error. -/
def Plain : Int → List Wake → Prop
  | _, [] => True
  | now, w :: ws => now ≤ w.now ∧ w.reset = false ∧ (∀ b ∈ w.fails, b = false) ∧ Plain w.now ws

/-- The thread may be woken early, but never sleeps more than `late` nanoseconds longer than it asked for. -/
def OnTime (acc : Nat) (late : Int) : St → List Wake → Prop
  | _, [] => True
  | st, w :: ws => w.now ≤ st.now + 1000000 * (st.msec : Int) + late ∧ OnTime acc late (round acc st w) ws

end Fio.Timers
