import Mathlib.Data.Rat.Defs
import Mathlib.Algebra.Order.Field.Rat
/-
Model of flow groups: /repo/flow.c.

Every access to shared memory is one step of the job that makes it, so that the steps of different
jobs may interleave arbitrarily; the sections under `flow_lock` are one step.  Counters and weights
are natural numbers: 64-bit operation counters and 32-bit weight sums (weights are at most 1000,
flow.h:4) are taken not to wrap.  smalloc is taken to succeed (flow_init_job does not check).
-/
namespace Fio.Flow

/-- struct fio_flow, flow.c:6-12. -/
structure Group where
  refs : Nat
  id : Nat
  counter : Nat
  weight : Nat
  deriving DecidableEq

/-- Where a job is inside flow_init_job or flow_threshold_exceeded. -/
inductive Pc where
  /-- outside -/
  | idle
  /-- flow.c:118 done, 119-120 not yet -/
  | gotFlow
  /-- flow.c:26 done, with the value loaded -/
  | loaded (c : Nat)
  /-- admitted, before flow.c:51 -/
  | admitted
  /-- flow.c:51 done, before 52 -/
  | added
  deriving DecidableEq

/-- The fields of struct thread_data and its options used by flow.c. -/
structure Job where
  /-- `o.flow_id` -/
  id : Nat
  /-- `o.flow`, the weight -/
  weight : Nat
  /-- `flow`, a pointer -/
  flow : Option Nat
  /-- `flow_counter` -/
  cnt : Nat
  pc : Pc
  deriving DecidableEq

structure St where
  heap : Nat → Option Group
  /-- `flow_list` -/
  list : List Nat
  jobs : List Job

/-- The outcome of a step. -/
inductive Res where
  /-- the job is not at this point of the program -/
  | disabled
  /-- a freed group is accessed or the assertion at flow.c:107 fails -/
  | crash
  | ok (s : St)

inductive Act where
  | get (j addr : Nat)
  | join (j : Nat)
  | loadC (j : Nat)
  | loadW (j : Nat)
  | add (j : Nat)
  | inc (j : Nat)
  | exit (j : Nat)

def setHeap (h : Nat → Option Group) (p : Nat) (g : Option Group) : Nat → Option Group :=
  fun q => if q = p then g else h q

/-- flow_get, flow.c:57-93, with the assignment at 118.  `addr` is what smalloc returns if called:
any address not in use. -/
def stepGet (s : St) (j addr : Nat) : Res :=
  match s.jobs[j]? with
  | none => .disabled
  | some t =>
    if t.flow = none ∧ t.pc = .idle ∧ t.weight ≠ 0 then
      match s.list.find? fun p => (s.heap p).any fun g => g.id = t.id with
      | some p =>
        match s.heap p with
        | none => .crash
        | some g => .ok { s with
            heap := setHeap s.heap p (some { g with refs := g.refs + 1 })
            jobs := s.jobs.set j { t with flow := some p, pc := .gotFlow } }
      | none =>
        if s.heap addr = none then
          .ok { heap := setHeap s.heap addr (some { refs := 1, id := t.id, counter := 1, weight := 0 })
                list := s.list ++ [addr]
                jobs := s.jobs.set j { t with flow := some addr, pc := .gotFlow } }
        else .disabled
    else .disabled

/-- flow.c:119-120. -/
def stepJoin (s : St) (j : Nat) : Res :=
  match s.jobs[j]? with
  | none => .disabled
  | some t =>
    match t.flow, t.pc with
    | some p, .gotFlow =>
      match s.heap p with
      | none => .crash
      | some g => .ok { s with
          heap := setHeap s.heap p (some { g with weight := g.weight + t.weight })
          jobs := s.jobs.set j { t with cnt := 0, pc := .idle } }
    | _, _ => .disabled

/-- flow.c:25-26: the counter of the group is loaded. -/
def stepLoadC (s : St) (j : Nat) : Res :=
  match s.jobs[j]? with
  | none => .disabled
  | some t =>
    match t.flow, t.pc with
    | some p, .idle =>
      match s.heap p with
      | none => .crash
      | some g => .ok { s with jobs := s.jobs.set j { t with pc := .loaded g.counter } }
    | _, _ => .disabled

/-- flow.c:25-36: is the job over its share?  `fl` is the rounding of a quotient to double. -/
def exceeded (fl : ℚ → ℚ) (a c w W : Nat) : Prop := fl ((a : ℚ) / c) > fl ((w : ℚ) / W)

instance (fl : ℚ → ℚ) (a c w W : Nat) : Decidable (exceeded fl a c w W) :=
  inferInstanceAs (Decidable (fl ((a : ℚ) / c) > fl ((w : ℚ) / W)))

/-- flow.c:27-45: the weight of the group is loaded and the decision made. -/
def stepLoadW (fl : ℚ → ℚ) (s : St) (j : Nat) : Res :=
  match s.jobs[j]? with
  | none => .disabled
  | some t =>
    match t.flow, t.pc with
    | some p, .loaded c =>
      match s.heap p with
      | none => .crash
      | some g =>
        .ok { s with jobs := s.jobs.set j { t with
          pc := if exceeded fl t.cnt c t.weight g.weight then .idle else .admitted } }
    | _, _ => .disabled

/-- flow.c:51. -/
def stepAdd (s : St) (j : Nat) : Res :=
  match s.jobs[j]? with
  | none => .disabled
  | some t =>
    match t.flow, t.pc with
    | some p, .admitted =>
      match s.heap p with
      | none => .crash
      | some g => .ok { s with
          heap := setHeap s.heap p (some { g with counter := g.counter + 1 })
          jobs := s.jobs.set j { t with pc := .added } }
    | _, _ => .disabled

/-- flow.c:52. -/
def stepInc (s : St) (j : Nat) : Res :=
  match s.jobs[j]? with
  | none => .disabled
  | some t =>
    match t.pc with
    | .added => .ok { s with jobs := s.jobs.set j { t with cnt := t.cnt + 1, pc := .idle } }
    | _ => .disabled

/-- flow_exit_job and flow_put, flow.c:95-113, 124-130. -/
def stepExit (s : St) (j : Nat) : Res :=
  match s.jobs[j]? with
  | none => .disabled
  | some t =>
    match t.flow, t.pc with
    | some p, .idle =>
      match s.heap p with
      | none => .crash
      | some g =>
        let g := { g with counter := g.counter - t.cnt, weight := g.weight - t.weight, refs := g.refs - 1 }
        if g.refs = 0 then
          if g.counter = 1 then
            .ok { heap := setHeap s.heap p none, list := s.list.erase p,
                  jobs := s.jobs.set j { t with flow := none } }
          else .crash
        else .ok { s with
            heap := setHeap s.heap p (some g), jobs := s.jobs.set j { t with flow := none } }
    | _, _ => .disabled

def step (fl : ℚ → ℚ) (s : St) : Act → Res
  | .get j a => stepGet s j a
  | .join j => stepJoin s j
  | .loadC j => stepLoadC s j
  | .loadW j => stepLoadW fl s j
  | .add j => stepAdd s j
  | .inc j => stepInc s j
  | .exit j => stepExit s j

/-- Any interleaving: a list of steps; a step of a job that is elsewhere is skipped. -/
def run (fl : ℚ → ℚ) (s : St) : List Act → Option St
  | [] => some s
  | a :: as =>
    match step fl s a with
    | .disabled => run fl s as
    | .crash => none
    | .ok s' => run fl s' as

/-- flow_init, flow.c:132-148: no group, no job is member of one. -/
def init (ids : List (Nat × Nat)) : St where
  heap := fun _ => none
  list := []
  jobs := ids.map fun (id, w) => { id := id, weight := w, flow := none, cnt := 0, pc := .idle }

end Fio.Flow
