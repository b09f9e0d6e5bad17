import Verif.Workq.Model
/-
What a work queue has to do, in terms of the sequence of its calls and callbacks only.
-/
namespace Fio.Workq

/-- The items given to worker `i`, oldest first. -/
def enqd (t : List Ev) (i : Nat) : List Work :=
  t.filterMap fun | .enq w k => if k = i then some w else none | _ => none

/-- The items worker `i` started to handle. -/
def begun (t : List Ev) (i : Nat) : List Work :=
  t.filterMap fun | .begin w k => if k = i then some w else none | _ => none

/-- The items worker `i` has handled. -/
def finished (t : List Ev) (i : Nat) : List Work :=
  t.filterMap fun | .finish w k => if k = i then some w else none | _ => none

/-- All items enqueued, in the order of the calls. -/
def asked (t : List Ev) : List Work := t.filterMap fun | .enq w _ => some w | _ => none

/-- All items handled. -/
def handled (t : List Ev) : List Work := t.filterMap fun | .finish w _ => some w | _ => none

/-- Each worker handles its items one after the other in the order in which they came, none twice and none
that it was not given. -/
def InOrder (t : List Ev) : Prop :=
  ∀ i, finished t i <+: begun t i ∧ begun t i <+: enqd t i ∧
    (begun t i).length ≤ (finished t i).length + 1

/-- Everything enqueued was handled, by the worker that it was given to and in order. -/
def AllDone (t : List Ev) : Prop := ∀ i, finished t i = enqd t i

/-- The items of a program of the caller. -/
def works (p : List Op) : List Work := p.filterMap fun | .enqueue w => some w | .flush => none

/-- How often the program calls workqueue_flush. -/
def flushes (p : List Op) : Nat := p.count .flush

end Fio.Workq
