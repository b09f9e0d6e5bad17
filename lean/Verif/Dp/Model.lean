/-!
# Data placement: which placement id a write gets (dataplacement.c)

Flexible data placement and streams: a write carries a directive type and a placement id.  The ids come from the option `dataplacement_ids`
and the device.  Reading an array past its end is `none`.  Not modelled: the text of the option and of the scheme file below the level of
numbers, memory running out, reading the device (its answers are given), counters past 2^32 - 1.
-/

namespace Fio.Dp

/-- `dp_type` (/repo/dataplacement.h:22-26) other than none. -/
inductive Ty
  | fdp | streams
deriving DecidableEq, Repr

/-- `dp_id_select` (/repo/dataplacement.h:16-20). -/
inductive Sel
  | random | rr | scheme
deriving DecidableEq, Repr

/-- Direction of a unit, as far as it matters. -/
inductive Dir
  | read | write | trim | sync
deriving DecidableEq, Repr

/-! ## The option -/

/-- The inner loop of /repo/options.c:300-312: ids from `start` to `end` are added to `ids`; `k` is fuel (at most 129 rounds).  `false`:
an error. -/
def addRange : Nat → Nat → Nat → List Nat → Bool × List Nat
  | 0, _, _, ids => (true, ids)
  | k + 1, start, end_, ids =>
    if start ≤ end_ then
      if ids.length ≥ 128 then (false, ids)
      else if start > 0xFFFF then (false, ids)
      else addRange k (start + 1) end_ (ids ++ [start])
    else (true, ids)

/-- /repo/options.c:276-316 `str_fdp_pli_cb`, for each item its first number and, if there is one, the number after the
dash.  Numbers are below 2^32 - 1 (an end of 2^32 - 1 is taken for none). -/
def parseIds : List (Nat × Option Nat) → List Nat → Bool × List Nat
  | [], ids => (true, ids)
  | (start, e) :: rest, ids =>
    let end_ := e.getD start
    if start > end_ then (false, ids)
    else match addRange 130 start end_ ids with
      | (false, ids) => (false, ids)
      | (true, ids) => parseIds rest ids

/-- The whole option; /repo/options.c:320 sorts. -/
def optIds (items : List (Nat × Option Nat)) : Option (List Nat) :=
  match parseIds items [] with
  | (true, ids) => some (ids.mergeSort (fun a b => decide (a ≤ b)))
  | (false, _) => none

/-! ## What a file has -/

/-- `struct fio_ruhs_info` (/repo/dataplacement.h:28-32); the array has as many elements as were allocated. -/
structure Info where
  nr : Nat
  loc : Nat
  plis : List Nat
deriving DecidableEq, Repr

/-- Result of starting: an error, an access past the end of an array, or the data. -/
inductive Res
  | err | oob | ok (i : Info)
deriving DecidableEq, Repr

/-- What the device answers to one query (/repo/engines/io_uring.c:2368-2398): the number it says it has and its descriptors. -/
structure Ans where
  num : Nat
  pids : List Nat
deriving DecidableEq, Repr

/-- The query fills the first `k` ids, with zeros where the device gave none (/repo/engines/io_uring.c:2388-2389, calloc in 2379). -/
def fetched (a : Ans) (k : Nat) : List Nat := (List.range k).map (fun i => a.pids.getD i 0)

/-- Reads of an array at several places. -/
def readAll (l : List Nat) : List Nat → Option (List Nat)
  | [] => some []
  | i :: is =>
    match l[i]?, readAll l is with
    | some v, some vs => some (v :: vs)
    | _, _ => none

/-- /repo/dataplacement.c:43-137 `init_ruh_info`.  `a1` answers the query for the number, `a2` the second; `none`: the query fails. -/
def initInfo (ty : Ty) (ids : List Nat) (a1 a2 : Option Ans) : Res :=
  match ty with
  | .streams => if ids = [] then .err else .ok ⟨ids.length, 0, ids⟩
  | .fdp =>
    match a1, a2 with
    | some a1, some a2 =>
      let plis := fetched a2 a1.num
      if ids = [] then
        let nr := if a2.num > 128 then 128 else a2.num
        match readAll plis (List.range nr) with
        | some l => .ok ⟨nr, 0, l⟩
        | none => .oob
      else if ids.any (fun i => decide (i ≥ a2.num)) then .err
      else
        match readAll plis ids with
        | some l => .ok ⟨ids.length, 0, l⟩
        | none => .oob
    | _, _ => .err

/-- An entry of a scheme (/repo/dataplacement.h:34-38). -/
structure Entry where
  start : Nat
  end_ : Nat
  pli : Nat
deriving DecidableEq, Repr

/-- /repo/dataplacement.c:139-186 `init_ruh_scheme`: the first 32 lines of the file. -/
def initScheme (lines : List Entry) : List Entry := lines.take 32

/-- A file: its ids, if any, and its scheme. -/
structure File where
  info : Option Info
  scheme : List Entry
deriving DecidableEq, Repr

/-- The loop in /repo/dataplacement.c:243-249 and what follows it. -/
def scan : List Entry → Nat → Nat
  | [], _ => 0
  | e :: es, off => if off ≥ e.start ∧ off < e.end_ then e.pli else scan es off

/-- What the unit carries: `dtype` and `dspec`. -/
structure Out where
  dtype : Nat
  dspec : Nat
deriving DecidableEq, Repr

/-- /repo/dataplacement.c:266 -/
def dtypeOf : Ty → Nat
  | .fdp => 2
  | .streams => 1

/-- /repo/dataplacement.c:218-269 `dp_fill_dspec_data`; `draw` is what `rand_between` answers (property C12). -/
def fill (ty : Ty) (sel : Sel) (f : File) (dir : Dir) (off draw : Nat) : Option (File × Out) :=
  match f.info with
  | none => some (f, ⟨0, 0⟩)
  | some i =>
    if dir ≠ .write then some (f, ⟨0, 0⟩)
    else
      match sel with
      | .rr =>
        let loc := if i.loc ≥ i.nr then 0 else i.loc
        match i.plis[loc]? with
        | some p => some ({ f with info := some { i with loc := loc + 1 } }, ⟨dtypeOf ty, p⟩)
        | none => none
      | .scheme => some (f, ⟨dtypeOf ty, scan f.scheme off⟩)
      | .random =>
        match i.plis[draw]? with
        | some p => some ({ f with info := some { i with loc := draw } }, ⟨dtypeOf ty, p⟩)
        | none => none

/-- A unit: its direction, offset and what the generator gives. -/
structure Unit_ where
  dir : Dir
  off : Nat
  draw : Nat
deriving DecidableEq, Repr

/-- Units one after the other. -/
def fills (ty : Ty) (sel : Sel) : File → List Unit_ → Option (File × List Out)
  | f, [] => some (f, [])
  | f, u :: us =>
    match fill ty sel f u.dir u.off u.draw with
    | none => none
    | some (f, o) =>
      match fills ty sel f us with
      | none => none
      | some (f, os) => some (f, o :: os)

/-- /repo/dataplacement.c:188-203 `dp_init`: all files of the job anew, each with what `init_ruh_info` gives; called at the start
(/repo/filesetup.c:1487) and, when a log is replayed, each time a file is opened (/repo/iolog.c:145).  `none`: it fails. -/
def dpInit (get : Nat → Res) : Nat → List File → Option (List File)
  | _, [] => some []
  | k, f :: fs =>
    match get k, dpInit get (k + 1) fs with
    | .ok i, some fs => some ({ f with info := some i } :: fs)
    | _, _ => none

end Fio.Dp
