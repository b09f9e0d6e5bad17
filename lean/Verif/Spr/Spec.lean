import Verif.Spr.Model
/-!
# What sprandom should do
-/

namespace Fio.Spr.Spec

open Fio.Spr

/-- Blocks written for the first time, in order. -/
def firsts (os : List Out) : List Nat := (os.filter (fun o => o.fresh)).map Out.block

/-- Blocks written again, in order. -/
def agains (os : List Out) : List Nat := (os.filter (fun o => !o.fresh)).map Out.block

/-- Blocks drawn to be written again, in order. -/
def drawn (os : List Out) : List Nat := (os.filter (fun o => o.sel)).map Out.block

/-- Number of writes in a region. -/
def cntIn (os : List Out) (r : Nat) : Nat := (os.filter (fun o => o.region = r)).length

/-- Number of those drawn. -/
def selIn (os : List Out) (r : Nat) : Nat := (os.filter (fun o => o.region = r && o.sel)).length

/-- Number of blocks written again in a region. -/
def againIn (os : List Out) (r : Nat) : Nat := (os.filter (fun o => o.region = r && !o.fresh)).length

/-- In no region are all writes drawn. -/
def notAll (rwc : Nat) (os : List Out) : Prop := ∀ p, p <+: os → ∀ r, cntIn p r = rwc → selIn p r < rwc

/-! ## The ring -/

/-- Uses of the ring. -/
inductive Op
  | push (v : Nat)
  | commit
  | pop
deriving DecidableEq, Repr

/-- What they give. -/
inductive Ans
  | pushed
  | full
  | committed
  | empty
  | got (v : Nat)
deriving DecidableEq, Repr

/-- Two queues with room for `room` elements: those that can be taken, and those that wait. -/
def queues (room : Nat) : List Nat → List Nat → List Op → List Ans
  | _, _, [] => []
  | C, S, .push v :: ops => if C.length + S.length < room then .pushed :: queues room C (S ++ [v]) ops else .full :: queues room C S ops
  | C, S, .commit :: ops => .committed :: queues room (C ++ S) [] ops
  | [], S, .pop :: ops => .empty :: queues room [] S ops
  | v :: C, S, .pop :: ops => .got v :: queues room C S ops

/-- The same with the ring, where an element is pushed only if there is space; `none`: fio fails. -/
def ring : Ring → List Op → Option (List Ans)
  | _, [] => some []
  | r, .push v :: ops => if r.space then (r.push v).bind fun r => (ring r ops).map (.pushed :: ·) else (ring r ops).map (.full :: ·)
  | r, .commit :: ops => (ring r.commit ops).map (.committed :: ·)
  | r, .pop :: ops =>
    match r.pop with
    | .empty => (ring r ops).map (.empty :: ·)
    | .got v r => (ring r ops).map (.got v :: ·)
    | .crash => none

end Fio.Spr.Spec
