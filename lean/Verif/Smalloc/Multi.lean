/-
Model of the list of pools of smalloc.c: `smalloc`, `sfree`, `smalloc_debug` over the pools of
Verif/Smalloc/Model.lean.

A pool is its address (`pool->map`) and its contents.  The functions here run one call at a time;
the second part runs several calls of `smalloc` side by side, to show what the unprotected
`last_pool` does.
-/
import Verif.Smalloc.Model
namespace Fio.Smalloc

/-- `mp`, `nr_pools` and `last_pool` (smalloc.c:57-59): address and contents of every pool. -/
structure Pools where
  pools : List (Nat × Pool)
  last : Nat

/-- The inner loop of `smalloc` (smalloc.c:530-537) over `n` pools from pool `i` on: the pool that
served the request and the offset in it.  Not finding a pool of the list is `none`. -/
def tryFrom (e : Env) (size : Nat) :
    Nat → Nat → List (Nat × Pool) → Option (Option (Nat × Nat) × List (Nat × Pool))
  | 0, _, ps => some (none, ps)
  | n + 1, i, ps =>
    match ps[i]? with
    | none => none
    | some (b, p) =>
      match alloc e size p with
      | none => none
      | some (some o, p') => some (some (i, o), ps.set i (b, p'))
      | some (none, p') => tryFrom e size n (i + 1) (ps.set i (b, p'))

/-- `ptr_valid` (smalloc.c:61-66), `pool_size` being 32 bits wide. -/
def ptrValid (a : Nat) (bp : Nat × Pool) : Bool :=
  decide (bp.1 ≤ a) && decide (a < bp.1 + bp.2.bitmap.length * 1024 % 2 ^ 32)

/-- `sfree` (smalloc.c:343-364) of the address `a`; an address of no pool is only reported. -/
def sfree (e : Env) (a : Nat) (s : Pools) : Option Pools :=
  if a = 0 then some s else
  match s.pools.findIdx? (ptrValid a) with
  | none => some s
  | some i =>
    match s.pools[i]? with
    | none => none
    | some (b, p) => (free e (a - b) p).map fun p' => { s with pools := s.pools.set i (b, p') }

/-- The loop of `smalloc_debug` (smalloc.c:512-531) over `n` pools from pool `i` on: it tries every
pool with enough free blocks again, and gives back what it got. -/
def debugFrom (e : Env) (size : Nat) : Nat → Nat → Pools → Option Pools
  | 0, _, s => some s
  | n + 1, i, s =>
    match s.pools[i]? with
    | none => none
    | some (b, p) =>
      if size ≠ 0 ∧ sizeToBlocks (allocSize size) ≤ p.free then
        match alloc e size p with
        | none => none
        | some (some o, p') =>
          match sfree e (b + o) { s with pools := s.pools.set i (b, p') } with
          | none => none
          | some s' => debugFrom e size n (i + 1) { s' with last := i }
        | some (none, p') => debugFrom e size n (i + 1) { s with pools := s.pools.set i (b, p') }
      else debugFrom e size n (i + 1) s

/-- `smalloc` (smalloc.c:516-555): the pool and the offset of the memory; its address is the address
of the pool plus the offset. -/
def smalloc (e : Env) (size : Nat) (s : Pools) : Option (Option (Nat × Nat) × Pools) :=
  if ¬ size < 2 ^ 32 then some (none, s) else
  match tryFrom e size (s.pools.length - s.last) s.last s.pools with
  | none => none
  | some (some (i, o), ps) => some (some (i, o), ⟨ps, i⟩)
  | some (none, ps) =>
    if s.last ≠ 0 then
      match tryFrom e size s.last 0 ps with
      | none => none
      | some (some (i, o), ps) => some (some (i, o), ⟨ps, i⟩)
      | some (none, ps) => (debugFrom e size ps.length 0 ⟨ps, 0⟩).map fun s' => (none, s')
    else (debugFrom e size ps.length 0 ⟨ps, s.last⟩).map fun s' => (none, s')

/-- `add_pool` (smalloc.c:152-203) for a mapping of `n` words at `b`; at most 16 pools.  The size in
bytes with the bitmap behind it fits 32 bits.  `mmap` gives an address that overlaps no other
pool. -/
def addPool (b n : Nat) (mem : List Byte) (s : Pools) : Pools :=
  if s.pools.length = 16 then s else { s with pools := s.pools ++ [(b, fresh n mem)] }

/-! ### Several calls at a time -/

/-- Where a call of `smalloc` is. -/
inductive Pc
  /-- before `i = last_pool` (smalloc.c:525) -/
  | start
  /-- in the inner loop, with `i` and `end_pool` (smalloc.c:530) -/
  | loop (i fin : Nat)
  /-- found room in pool `i`, before `last_pool = i` (smalloc.c:534) -/
  | found (i : Nat)
  /-- before `if (last_pool)` (smalloc.c:538) -/
  | check (i : Nat)
  /-- before `end_pool = last_pool` (smalloc.c:539) -/
  | wrap
  /-- before `last_pool = i = 0` (smalloc.c:540) -/
  | reset (fin : Nat)
  /-- returned, with the pool or NULL -/
  | done (r : Option Nat)
deriving DecidableEq

/-- `last_pool` and the callers.  Whether a pool has room does not change while the calls run. -/
structure Calls where
  last : Nat
  pcs : List Pc
deriving DecidableEq

/-- One step of a call (smalloc.c:516-555), `room` telling which of the `nr` pools can serve it. -/
def callStep (room : Nat → Bool) (nr : Nat) (last : Nat) : Pc → Nat × Pc
  | .start => (last, .loop last nr)
  | .loop i fin =>
    if i < fin then (if room i then (last, .found i) else (last, .loop (i + 1) fin))
    else (last, .check i)
  | .found i => (i, .done (some i))
  | .check _ => if last ≠ 0 then (last, .wrap) else (last, .done none)
  | .wrap => (last, .reset last)
  | .reset fin => (0, .loop 0 fin)
  | .done r => (last, .done r)

/-- Call `t` takes a step. -/
def callsStep (room : Nat → Bool) (nr : Nat) (s : Calls) (t : Nat) : Calls :=
  match s.pcs[t]? with
  | none => s
  | some pc => ⟨(callStep room nr s.last pc).1, s.pcs.set t (callStep room nr s.last pc).2⟩

end Fio.Smalloc
