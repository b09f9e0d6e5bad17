/-!
# Priorities of single units (engines/cmdprio.c)

Both modes of the options `cmdprio_percentage` and `cmdprio_bssplit`, from the parsed numbers of an entry to the priority
of a unit.  Not modelled: the splitting of the option string, allocation failures.  The random number of a unit is an
argument; `qsort` is any sorted permutation.  `none` stands for a failed assertion or an access outside of an array.
-/

namespace Fio.Cmdprio

/-- /repo/os/os-linux.h:146-157 `ioprio_value`, `IOPRIO_CLASS_BE = 2` (114-118). -/
def ioprioValue (cls level hint : Nat) : Nat :=
  let cls := if cls = 0 then 2 else cls
  (cls <<< 13) ||| (hint <<< 3) ||| level

/-- /repo/os/os-linux.h:141 -/
def ioprioClass (v : Nat) : Nat := v >>> 13

/-- /repo/os/os-linux.h:142 -/
def ioprioLevel (v : Nat) : Nat := v &&& 7

/-- /repo/os/os-linux.h:143-144 -/
def ioprioHint (v : Nat) : Nat := (v >>> 3) &&& 1023

/-- `struct split_prio` (/repo/thread_options.h:54-58); `prio` is -1 if the entry names none. -/
structure Entry where
  bs : Nat
  prio : Int
  perc : Nat
deriving DecidableEq, Repr

/-- The numbers `sscanf` finds in an entry. -/
inductive Scan
  | bs (bs : Nat)
  | perc (bs perc : Nat)
  | cls (bs perc cls : Nat)
  | level (bs perc cls level : Nat)
  | hint (bs perc cls level hint : Nat)
deriving Repr

/-- /repo/options.c:387-442 `parse_cmdprio_bssplit_entry`; `none` is the error. -/
def parseEntry : Scan → Option Entry
  | .bs b => some ⟨b, -1, min 0 100⟩
  | .perc b p => some ⟨b, -1, min p 100⟩
  | .cls _ _ _ => none
  | .level b p c l => some ⟨b, ioprioValue (min c 3) (min l 7) 0, min p 100⟩
  | .hint b p c l h => some ⟨b, ioprioValue (min c 3) (min l 7) (min h 1023), min p 100⟩

/-- The second loop of `split_parse_prio_ddir` (/repo/options.c:490-508): entries without a percentage are left out. -/
def parseLoop : List Scan → Option (List Entry)
  | [] => some []
  | s :: ss =>
    match parseEntry s with
    | none => none
    | some e =>
      match parseLoop ss with
      | none => none
      | some es => some (if e.perc ≠ 0 then e :: es else es)

/-- /repo/options.c:461-517 `split_parse_prio_ddir` before the sort; `BSSPLIT_MAX` is 64 (/repo/thread_options.h:44). -/
def parse (ss : List Scan) : Option (List Entry) :=
  if ss.length > 64 then none else parseLoop ss

/-- `struct cmdprio_prio` (/repo/engines/cmdprio.h:22-26). -/
structure Prio where
  prio : Nat
  perc : Nat
  index : Nat
deriving DecidableEq, Repr

/-- `struct cmdprio_values` (/repo/engines/cmdprio.c:22-25): the numbers stored, and the room. -/
structure Values where
  prios : List Nat
  room : Nat
deriving DecidableEq, Repr

/-- /repo/engines/cmdprio.c:27-38 `find_clat_prio_index`; `none` is -1. -/
def find : List Nat → Nat → Option Nat
  | [], _ => none
  | p :: ps, prio => if p = prio then some 0 else (find ps prio).map (· + 1)

/-- /repo/engines/cmdprio.c:47-59 `assign_clat_prio_index`; the index is a `uint16_t`. -/
def assign (v : Values) (prio : Nat) : Option (Values × Nat) :=
  match find v.prios prio with
  | some i => some (v, i % 65536)
  | none =>
    if v.prios.length < v.room then
      some (⟨v.prios ++ [prio], v.room⟩, v.prios.length % 65536)
    else none

/-- /repo/engines/cmdprio.c:66-80 `init_cmdprio_values` -/
def initValues (max ioprio : Nat) : Values := ⟨[ioprio], max + 1⟩

/-- `struct cmdprio_bsprio` (/repo/engines/cmdprio.h:28-33). -/
structure Bsprio where
  bs : Nat
  tot : Nat
  prios : List Prio
deriving DecidableEq, Repr

/-- What a step of the set up leads to. -/
inductive Out (α : Type)
  | ok (a : α)
  | error
  | crash
deriving Repr

/-- The loop of /repo/engines/cmdprio.c:114-133. -/
def fillLoop (implicit : Nat) : List Entry → Bsprio → Values → Out (Bsprio × Values)
  | [], b, v => .ok (b, v)
  | e :: es, b, v =>
    let p := if e.prio = -1 then implicit else e.prio.toNat
    match assign v p with
    | none => .crash
    | some (v, i) =>
      let tot := b.tot + e.perc
      if tot > 100 then .error
      else fillLoop implicit es ⟨b.bs, tot, b.prios ++ [⟨p, e.perc, i⟩]⟩ v

/-- /repo/engines/cmdprio.c:99-136 `fio_cmdprio_fill_bsprio`, for the entries from `start` to `end`. -/
def fill (implicit : Nat) (e : Entry) (es : List Entry) (v : Values) : Out (Bsprio × Values) :=
  fillLoop implicit (e :: es) ⟨e.bs, 0, []⟩ v

/-- The `while` of /repo/engines/cmdprio.c:168-169: the entries with the size of the one before. -/
def cut : Entry → List Entry → List Entry × List Entry
  | _, [] => ([], [])
  | e, f :: r =>
    if e.bs = f.bs then (f :: (cut f r).1, (cut f r).2) else ([], f :: r)

theorem cut_length (e : Entry) (es : List Entry) : (cut e es).2.length ≤ es.length := by
  induction es generalizing e with
  | nil => simp [cut]
  | cons f r ih =>
    unfold cut
    split
    · simp only [List.length_cons]
      have := ih f
      omega
    · simp

/-- /repo/engines/cmdprio.c:138-185 `fio_cmdprio_generate_bsprio_desc`, the second loop (the first one counts). -/
def generate (implicit : Nat) : List Entry → List Bsprio → Values → Out (List Bsprio × Values)
  | [], bs, v => .ok (bs, v)
  | e :: es, bs, v =>
    match fill implicit e (cut e es).1 v with
    | .crash => .crash
    | .error => .error
    | .ok (b, v) => generate implicit (cut e es).2 (bs ++ [b]) v
termination_by es => es.length
decreasing_by
  simp only [List.length_cons]
  have := cut_length e es
  omega

/-- `struct cmdprio` (/repo/engines/cmdprio.h), for each of the two directions. -/
inductive Mode
  | none
  | perc
  | bssplit
deriving DecidableEq, Repr

structure Cmdprio where
  mode : Mode
  perc : List Prio
  desc : List (List Bsprio)
deriving Repr

/-- /repo/engines/cmdprio.c:373-386, one direction of `fio_cmdprio_parse_and_gen_bssplit`: the entries (sorted), whether
the job has the direction; the class is 1 if none is set (/repo/engines/cmdprio.c:450-458).  The values become the table
`clat_prio` of the statistics (82-97); `none` if there is no table. -/
def genBssplit (ioprio cls level hint : Nat) (enabled : Bool) (es : List Entry) :
    Out (List Bsprio × Option (List Nat)) :=
  if es.length = 0 ∨ enabled = false then .ok ([], none)
  else
    let cls := if cls = 0 then 1 else cls
    match generate (ioprioValue cls level hint) es [] (initValues es.length ioprio) with
    | .crash => .crash
    | .error => .error
    | .ok (d, v) => .ok (d, some v.prios)

/-- /repo/engines/cmdprio.c:325-349, one direction of `fio_cmdprio_gen_perc`. -/
def genPerc (ioprio cls level hint percentage : Nat) (enabled : Bool) : Out (Prio × Option (List Nat)) :=
  if percentage = 0 ∨ enabled = false then .ok (⟨0, 0, 0⟩, none)
  else
    let cls := if cls = 0 then 1 else cls
    let p := ioprioValue cls level hint
    match assign (initValues 1 ioprio) p with
    | none => .crash
    | some (v, i) => .ok (⟨p, percentage, i⟩, some v.prios)

/-- The linear search of /repo/engines/cmdprio.c:238-244. -/
def findBs : List Bsprio → Nat → Option Bsprio
  | [], _ => none
  | b :: bs, len => if b.bs = len then some b else findBs bs len

/-- /repo/engines/cmdprio.c:226-261 `fio_cmdprio_percentage` -/
def percentage (c : Cmdprio) (ddir len : Nat) : Option (Nat × Option Bsprio) :=
  match c.mode with
  | .perc => (c.perc[ddir]?).map fun p => (p.perc, none)
  | .bssplit =>
    match c.desc[ddir]? with
    | none => none
    | some d =>
      match findBs d len with
      | some b => some (b.tot, some b)
      | none => some (0, none)
  | .none => none

/-- The loop of /repo/engines/cmdprio.c:300-309. -/
def pickPrio (rand : Nat) : List Prio → Nat → Option (Nat × Nat)
  | [], _ => none
  | p :: ps, perc =>
    let perc := perc + p.perc
    if rand < perc then some (p.prio % 65536, p.index) else pickPrio rand ps perc

/-- /repo/engines/cmdprio.c:276-319 `fio_cmdprio_set_ioprio`: `some none` if nothing is changed (false), else the new
`ioprio` (an `unsigned short`) and `clat_prio_index` of the unit. -/
def setIoprio (c : Cmdprio) (ddir len rand : Nat) : Option (Option (Nat × Nat)) :=
  match percentage c ddir len with
  | none => none
  | some (p, b) =>
    if p = 0 then some none
    else if rand ≥ p then some none
    else
      match c.mode with
      | .perc => (c.perc[ddir]?).map fun e => some (e.prio % 65536, e.index)
      | .bssplit =>
        match b with
        | none => none
        | some b => (pickPrio rand b.prios 0).map some
      | .none => none

/-- What the unit has before the engine sees it (/repo/io_u.c:2005-2006), and then (/repo/engines/libaio.c:290-291 and
/repo/engines/io_uring.c:1252-1253): priority and index. -/
def unitPrio (c : Cmdprio) (ioprio ddir len rand : Nat) : Option (Nat × Nat) :=
  if c.mode ≠ .none then
    match setIoprio c ddir len rand with
    | none => none
    | some none => some (ioprio, 0)
    | some (some x) => some x
  else some (ioprio, 0)

end Fio.Cmdprio
