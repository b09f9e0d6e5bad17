import Verif.Sem.Model
/-
How semaphores are used.
-/
namespace Fio.Sem

/-- Use as a lock: only a thread that has it gives it back. -/
def AsLock (s : St) : List Act → Prop
  | [] => True
  | a :: l => (∀ t w, a = .up t w → t ∈ s.holders) ∧ ∀ s2, step s a = some s2 → AsLock s2 l

/-- Use as a lock, a handshake or a queue with one reader: nobody ups while a token is there and several threads
wait. -/
def Simple (s : St) : List Act → Prop
  | [] => True
  | a :: l => (∀ t w, a = .up t w → s.value = 0 ∨ s.asleep.length + s.woken.length ≤ 1) ∧
      ∀ s2, step s a = some s2 → Simple s2 l

end Fio.Sem
