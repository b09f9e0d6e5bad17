import Verif.IoU.Model

/-!
# Where the units are
-/

namespace Fio.IoU

/-- Each of the `n` units is in exactly one place: free, waiting to be issued again, with the verification threads, with
the engine, or held by the main thread (`fl` as issued, `hl` not); its flags say so; `cur_depth` is the number of units
the engine or the main thread has; `io_u_in_flight` and `io_u_queued` together count the engine's units (modulo
2 ^ 32). -/
structure Inv (c : Cfg) (s : St) (fl hl : List Nat) : Prop where
  small : c.n < 4294967296
  perm : (s.freeq ++ (s.reqs ++ (s.ver ++ (s.eng ++ (fl ++ hl))))).Perm (List.range c.n)
  idle : ∀ i, i ∈ s.freeq ∨ i ∈ s.reqs → (s.u i).free = true ∧ (s.u i).flight = false
  verif : ∀ i ∈ s.ver, (s.u i).free = false ∧ (s.u i).flight = false ∧ (s.u i).inDepth = false
  flying : ∀ i, i ∈ s.eng ∨ i ∈ fl → (s.u i).free = false ∧ (s.u i).flight = true ∧ (s.u i).inDepth = true
  main : ∀ i ∈ hl, (s.u i).free = false ∧ (s.u i).flight = false ∧ (s.u i).inDepth = true
  depth : s.depth = s.eng.length + (fl.length + hl.length)
  count : (s.inFlight + s.queued) % 4294967296 = s.eng.length
  bnd : s.inFlight < 4294967296 ∧ s.queued < 4294967296

/-- A part of the program never fails an assertion; where it stops for lack of answers the units are in order, and
where it ends `Q` holds. -/
def Ok {α : Type} (c : Cfg) (r : Res α) (Q : St → α → Prop) : Prop :=
  match r with
  | .crash => False
  | .more s => ∃ fl hl, Inv c s fl hl
  | .ok s a => Q s a

end Fio.IoU
