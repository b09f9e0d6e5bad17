import Verif.PosixAio.Model
/-!
# What reaping is to do (C110)
-/

namespace Fio.PosixAio

/-- Away and not yet returned. -/
def Away (u : U) : Prop := u.flight = true ∧ u.seen = false

/-- The unit says how its request ended: bytes not transferred, or an error. -/
def Told (before after : U) : Prop :=
  match after.aio with
  | none => False
  | some .canceled => after.resid = before.buflen ∧ after.error = before.error
  | some (.done n) => (n ≤ before.buflen → before.buflen < 2 ^ 64 → after.resid + n = before.buflen) ∧ after.error = before.error
  | some (.failed e) => after.error = e ∧ after.resid = before.resid

/-- `ev` are those units away at first (`us`) whose request is over at the end (`us'`), each once; they have their results, others are as before. -/
structure Reaped (us us' : List U) (ev : List Nat) : Prop where
  len : us'.length = us.length
  nodup : ev.Nodup
  inside : ∀ i ∈ ev, i < us.length
  iff : ∀ (i : Nat) (u u' : U), us[i]? = some u → us'[i]? = some u' → (i ∈ ev ↔ Away u ∧ u'.aio ≠ none)
  told : ∀ (i : Nat) (u u' : U), us[i]? = some u → us'[i]? = some u' → i ∈ ev → Told u u' ∧ u'.seen = true
  other : ∀ (i : Nat) (u u' : U), us[i]? = some u → us'[i]? = some u' → i ∉ ev → u'.seen = u.seen ∧ u'.resid = u.resid ∧ u'.error = u.error

end Fio.PosixAio
