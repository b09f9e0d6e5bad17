/-!
# sprandom: offsets that bring a drive to its steady state (sprandom.c, pcbuf.h)

The blocks of the file come once each from the LFSR generator (property C05; here the list of blocks still to come).  They are written
region by region; of the blocks written in a region some are drawn and written again in the next one, through a ring with two phases.
What makes fio fail (an `assert`, a division by zero, an element past the end of an array) is `none`.  Not modelled: how the shares of the
regions and the size of the ring are computed in floating point; running out of memory.
-/

namespace Fio.Spr

/-! ## The ring -/

/-- `struct pc_buf`, /repo/pcbuf.h:36-42 -/
structure Ring where
  ch : Nat
  sh : Nat
  rt : Nat
  cap : Nat
  buf : List Nat
deriving DecidableEq, Repr

/-- /repo/pcbuf.h:50-62 `pcb_alloc` (the contents do not matter). -/
def Ring.new (cap : Nat) : Ring := ⟨0, 0, 0, cap, List.replicate cap 0⟩

/-- /repo/pcbuf.h:175-181 `pcb_committed_size` -/
def Ring.committed (r : Ring) : Nat := if r.ch ≥ r.rt then r.ch - r.rt else r.cap - r.rt + r.ch

/-- /repo/pcbuf.h:189-195 `pcb_staged_size` -/
def Ring.staged (r : Ring) : Nat := if r.sh ≥ r.ch then r.sh - r.ch else r.cap - r.ch + r.sh

/-- /repo/pcbuf.h:203-208 `pcb_space_available`; `capacity - 1` is computed modulo 2^64. -/
def Ring.space (r : Ring) : Bool := decide (r.committed + r.staged < (r.cap + 2 ^ 64 - 1) % 2 ^ 64)

/-- /repo/pcbuf.h:94-102 `pcb_push_staged`; `none`: division by zero or an element past the end. -/
def Ring.push (r : Ring) (v : Nat) : Option Ring :=
  if r.cap = 0 then none
  else if (r.sh + 1) % r.cap = r.rt then some r
  else if r.sh < r.buf.length then some { r with buf := r.buf.set r.sh v, sh := (r.sh + 1) % r.cap }
  else none

/-- /repo/pcbuf.h:111-114 `pcb_commit` -/
def Ring.commit (r : Ring) : Ring := { r with ch := r.sh }

/-- What `pcb_pop` (/repo/pcbuf.h:123-131) does. -/
inductive Pop
  | empty
  | got (v : Nat) (r : Ring)
  | crash
deriving DecidableEq, Repr

/-- /repo/pcbuf.h:123-131 `pcb_pop` -/
def Ring.pop (r : Ring) : Pop :=
  if r.rt = r.ch then .empty
  else if r.cap = 0 then .crash
  else
    match r.buf[r.rt]? with
    | some v => .got v { r with rt := (r.rt + 1) % r.cap }
    | none => .crash

/-! ## The offsets -/

/-- `struct sprandom_info` as set up (/repo/sprandom.h): `cache`: a cache size is given; `num` regions of `rwc` writes; shares `pct` in
1/10000 for each region. -/
structure Cfg where
  cache : Bool
  num : Nat
  rwc : Nat
  pct : List Nat
deriving DecidableEq, Repr

/-- The rest of `struct sprandom_info`, and the blocks the generator has still to give.  `inv0`, `inv1` are `invalid_count`. -/
structure St where
  ring : Ring
  inv0 : Nat
  inv1 : Nat
  phase : Bool
  region : Nat
  remaining : Nat
  lfsr : List Nat
deriving DecidableEq, Repr

/-- `invalid_count[phase]` -/
def St.inv (s : St) (p : Bool) : Nat := if p then s.inv1 else s.inv0

/-- Storing `invalid_count[phase]`. -/
def St.setInv (s : St) (p : Bool) (v : Nat) : St := if p then { s with inv1 := v } else { s with inv0 := v }

/-- /repo/sprandom.c:634-644, the end of `sprandom_setup`. -/
def init (c : Cfg) (cap : Nat) (lfsr : List Nat) : St :=
  { ring := Ring.new cap, inv0 := 0, inv1 := 0, phase := false, region := 0, remaining := c.rwc, lfsr := lfsr }

/-- One offset: the block, whether it is written for the first time, whether it was drawn to be written again, and the region. -/
structure Out where
  block : Nat
  fresh : Bool
  sel : Bool
  region : Nat
deriving DecidableEq, Repr

/-- Answer of `sprandom_get_next_offset`. -/
inductive Res
  | crash
  | done (s : St)
  | off (o : Out) (s : St)
deriving DecidableEq, Repr

/-- /repo/sprandom.c:687-702 `sprandom_add_with_probability`, called with `phase ^ 1`; `v` is what `rand_between` gives (property
C12). -/
def add (c : Cfg) (s : St) (o v : Nat) (fresh : Bool) : Res :=
  match c.pct[s.region]? with
  | none => .crash
  | some p =>
    if v ≤ p then
      if s.ring.space then
        match s.ring.push o with
        | none => .crash
        | some r => .off ⟨o, fresh, true, s.region⟩ ({ s with ring := r }.setInv (!s.phase) (s.inv (!s.phase) + 1))
      else .crash
    else .off ⟨o, fresh, false, s.region⟩ s

/-- /repo/sprandom.c:789-816: a new block. -/
def fetch (c : Cfg) (s : St) (v : Nat) : Res :=
  match s.lfsr with
  | [] =>
    if c.cache then
      match s.ring.pop with
      | .empty => .done s
      | .got o r => .off ⟨o, false, false, s.region⟩ { s with ring := r }
      | .crash => .crash
    else .done s
  | o :: l => add c { s with lfsr := l, remaining := s.remaining - 1 } o v true

/-- /repo/sprandom.c:777-786: the next region; the writes that remain are computed modulo 2^64. -/
def advance (c : Cfg) (s : St) : St :=
  let s := s.setInv s.phase 0
  { s with region := s.region + 1, phase := !s.phase, remaining := (c.rwc + 2 ^ 64 - s.inv (!s.phase)) % 2 ^ 64, ring := s.ring.commit }

/-- /repo/sprandom.c:771-775 -/
def nextRegion (c : Cfg) (s : St) (v : Nat) : Res :=
  if s.region ≥ c.num then .done s else fetch c (advance c s) v

/-- A block of the ring if there is one, else `k`. -/
def popOr (c : Cfg) (s : St) (v : Nat) (k : Res) : Res :=
  match s.ring.pop with
  | .empty => k
  | .got o r => add c { s with ring := r } o v false
  | .crash => .crash

/-- /repo/sprandom.c:740-820 `sprandom_get_next_offset` -/
def next (c : Cfg) (s : St) (v : Nat) : Res :=
  if c.cache then
    if s.remaining = 0 then popOr c s v (nextRegion c s v) else fetch c s v
  else
    popOr c s v (if s.remaining = 0 then nextRegion c s v else fetch c s v)

/-- How a sequence of calls ends. -/
inductive End
  | crash
  | done (s : St)
  | more (s : St)
deriving DecidableEq, Repr

/-- Calls, one for each draw, until one says that it is the end. -/
def run (c : Cfg) : St → List Nat → List Out × End
  | s, [] => ([], .more s)
  | s, v :: vs =>
    match next c s v with
    | .crash => ([], .crash)
    | .done s => ([], .done s)
    | .off o s => let (os, e) := run c s vs; (o :: os, e)

end Fio.Spr
