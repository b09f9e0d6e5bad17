import Verif.SyncEng.Model

/-! What is asked of the `sync` engine, in terms of transfers only. -/

namespace Fio.SyncEng

/-- The transfer is at the offset of the unit, in its file and direction. -/
def Placed (p : U × Xfer) : Prop := p.2.at_ = p.1.off ∧ p.2.file = p.1.file ∧ p.2.dir = p.1.dir ∧ p.2.got ≤ p.1.len

/-- An event that moves data or nothing: no trim, no failure, nothing prepared and dropped. -/
def Plain : Ev → Prop
  | .io u (.ok _) => u.dir ≠ .trim
  | .io u (.fail _) => u.dir = .sync
  | .drop u => u.dir = .sync
  | .reopen _ => True

/-- The transfers `xs` follow each other from `p` to `q`. -/
def Chain : List Xfer → Nat → Nat → Prop
  | [], p, q => p = q
  | x :: xs, p, q => x.at_ = p ∧ Chain xs (p + x.got) q

end Fio.SyncEng
