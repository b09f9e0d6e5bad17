/-!
# The `libaio` engine: the ring of units to submit, and the events

Simplifications: units are numbers; times, priorities and statistics are left out; of the kernel only which units it
takes (`io_submit`), which it has finished with which result (`io_getevents`, in any order), and the errors.  The
answers of the kernel are given as lists; when the list of a loop is used up, the loop is `running`.
-/

namespace Fio.Libaio

/-- /repo/engines/libaio.c:33-57 `struct libaio_data`: the ring (`iocbs` and `io_us` have the same content, the unit in
each slot; `none`: never used). -/
structure Ld where
  entries : Nat
  pow2 : Bool
  iocbs : List (Option Nat)
  head : Nat
  tail : Nat
  queued : Nat
deriving Repr

/-- Result of a piece of code: outside of an array; still in its loop; done. -/
inductive Res (α : Type)
  | crash
  | running
  | ok (a : α)
deriving DecidableEq, Repr

/-- An event: unit and `res` (a signed number in an unsigned field). -/
structure Event where
  unit : Nat
  res : Int
deriving DecidableEq, Repr

/-- Engine and kernel: `fly` units the kernel works on, `sub` all units it ever took, in order, `acc` all units the engine
ever accepted, `back` the events handed to the job, `dropped` the events taken from the kernel but not handed on. -/
structure St where
  ld : Ld
  fly : List Nat
  sub : List Nat
  acc : List Nat
  back : List Event
  dropped : List Event
deriving Repr

/-- /repo/lib/pow2.h:7-10 `is_power_of_2`. -/
def isPow2 (n : Nat) : Bool := decide (n ≠ 0 ∧ n &&& (n - 1) = 0)

/-- /repo/engines/libaio.c:437-460 `fio_libaio_init`. -/
def init (depth : Nat) : St :=
  { ld := { entries := depth, pow2 := isPow2 depth, iocbs := List.replicate depth none, head := 0, tail := 0, queued := 0 }
    fly := [], sub := [], acc := [], back := [], dropped := [] }

/-- /repo/engines/libaio.c:101-108 `ring_inc`. -/
def ringInc (ld : Ld) (val add : Nat) : Nat :=
  if ld.pow2 then (val + add) &&& (ld.entries - 1) else (val + add) % ld.entries

/-- Kinds of units the engine tells apart. -/
inductive Kind
  | data | trim | syncfs
deriving DecidableEq, Repr

/-- /repo/ioengines.h:23-27 -/
inductive Status
  | completed | queued | busy
deriving DecidableEq, Repr

/-- /repo/engines/libaio.c:268-299 `fio_libaio_queue`; a slot outside of the array: `none`.  Reads, writes and the other
syncs are `data`. -/
def queue (depth : Nat) (s : St) (k : Kind) (u : Nat) : Option (St × Status) :=
  if s.ld.queued = depth then some (s, .busy)
  else if k ≠ .data then
    if s.ld.queued ≠ 0 then some (s, .busy) else some (s, .completed)
  else if s.ld.head < s.ld.iocbs.length then
    some ({ s with
      ld := { s.ld with
        iocbs := s.ld.iocbs.set s.ld.head (some u)
        head := ringInc s.ld s.ld.head 1
        queued := s.ld.queued + 1 }
      acc := s.acc ++ [u] }, .queued)
  else none

/-- What `io_submit` answers: some number of the units offered, or an error. -/
inductive SRes
  | took (n : Nat)
  | intr
  | again
  | nomem
  | err (e : Nat)
deriving DecidableEq, Repr

/-- The units in slots `i, i + 1, …` of the array. -/
def slots (l : List (Option Nat)) (i : Nat) : Nat → Option (List Nat)
  | 0 => some []
  | n + 1 =>
    match l[i]? with
    | some (some u) => (slots l (i + 1) n).map (u :: ·)
    | _ => none

/-- The kernel takes units `us`. -/
def take (s : St) (us : List Nat) : St :=
  { s with
    ld := { s.ld with queued := s.ld.queued - us.length, tail := ringInc s.ld s.ld.tail us.length }
    fly := s.fly ++ us
    sub := s.sub ++ us }

/-- The loop of `fio_libaio_commit` (/repo/engines/libaio.c:335-392), with the value returned (0 or a negative error
number). -/
def commitLoop : List SRes → St → Res (St × Int)
  | [], _ => .running
  | a :: as, s =>
    let nr := min s.ld.queued (s.ld.entries - s.ld.tail)
    match slots s.ld.iocbs s.ld.tail nr with
    | none => .crash
    | some us =>
      match a with
      | .took n =>
        if min n nr > 0 then
          let s := take s (us.take n)
          if s.ld.queued ≠ 0 then commitLoop as s else .ok (s, 0)
        else if s.ld.queued ≠ 0 then commitLoop as s else .ok (s, 0)
      | .intr => if s.ld.queued ≠ 0 then commitLoop as s else .ok (s, -4)
      | .again =>
        -- "If we have no queued IO, we must loop here"
        if s.ld.queued ≠ 0 then .ok (s, 0) else commitLoop as s
      | .nomem => if s.ld.queued ≠ 0 then .ok (s, 0) else .ok (s, -12)
      | .err e => .ok (s, -e)

/-- /repo/engines/libaio.c:324-395 `fio_libaio_commit`. -/
def commit (as : List SRes) (s : St) : Res (St × Int) :=
  if s.ld.queued = 0 then .ok (s, 0) else commitLoop as s

/-- What `io_getevents` answers: it hands over finished units (`picks`: which of the units it works on, and the result),
or an error. -/
inductive GRes
  | evs (picks : List (Nat × Int))
  | intr
  | again
  | err (e : Nat)
deriving Repr

/-- The events the kernel hands over: at most `max`, only of units it works on. -/
def pick : List (Nat × Int) → Nat → List Nat → List Event × List Nat
  | [], _, fly => ([], fly)
  | _ :: _, 0, fly => ([], fly)
  | (i, r) :: ps, max + 1, fly =>
    match fly[i % fly.length]? with
    | none => ([], fly)
    | some u =>
      let x := pick ps max (fly.eraseIdx (i % fly.length))
      (⟨u, r⟩ :: x.1, x.2)

/-- What `fio_libaio_getevents` returns: a negative error number; the number of events. -/
inductive Out
  | error (e : Int)
  | events (n : Nat)
deriving DecidableEq, Repr

/-- The loop of /repo/engines/libaio.c:238-264: `col` the events so far, `amin` is `actual_min`.  Each answer of the
kernel comes with the answers to the submissions made after it.  The array of events has `entries` places. -/
def getLoop (min max : Nat) : List (GRes × List SRes) → St → List Event → Nat → Res (St × Out)
  | [], _, _, _ => .running
  | (g, as) :: gs, s, col, amin =>
    match g with
    | .evs picks =>
      if col.length + (max - col.length) > s.ld.entries then .crash
      else
        let x := pick picks (max - col.length) s.fly
        if x.1.length > 0 then
          let s := { s with fly := x.2 }
          let col := col ++ x.1
          let amin := amin - Nat.min col.length amin
          if col.length < min then getLoop min max gs s col amin
          else .ok ({ s with back := s.back ++ col }, .events col.length)
        else if min ≠ 0 then
          match commit as s with
          | .crash => .crash
          | .running => .running
          | .ok (s, _) =>
            if col.length < min then getLoop min max gs s col amin
            else .ok ({ s with back := s.back ++ col }, .events col.length)
        else .ok ({ s with back := s.back ++ col }, .events col.length)
    | .again =>
      match commit as s with
      | .crash => .crash
      | .running => .running
      | .ok (s, _) =>
        if col.length < min then getLoop min max gs s col amin
        else .ok ({ s with dropped := s.dropped ++ col }, .error (-11))
    | .intr =>
      if col.length < min then getLoop min max gs s col amin
      else .ok ({ s with dropped := s.dropped ++ col }, .error (-4))
    | .err e => .ok ({ s with dropped := s.dropped ++ col }, .error (-e))

/-- /repo/engines/libaio.c:221-267 `fio_libaio_getevents`; `bcm` is `iodepth_batch_complete_min`. -/
def getevents (bcm min max : Nat) (gs : List (GRes × List SRes)) (s : St) : Res (St × Out) :=
  getLoop min max gs s [] (if bcm = 0 then 0 else min)

/-- /repo/ioengines.c:304-316, the values `td_io_getevents` passes on: at most `cur_depth`, but not less than `min`; and
/repo/io_u.c:2399-2400: `min` is at most `cur_depth`. -/
def clamp (cur min max : Nat) : Nat × Nat :=
  let min := if min > cur then cur else min
  let max := if max > cur then cur else max
  (min, if min > max then min else max)

/-- The fields of a unit set by `fio_libaio_event` (/repo/engines/libaio.c:163-182): `res` as `unsigned long` against the
length; `error` is an `int`. -/
def eventResult (len : Nat) (res : Int) : Nat × Int :=
  let r := (res % 2 ^ 64).toNat
  if r ≠ len then
    if r > len then (0, ((- (r : Int)) + 2 ^ 31) % 2 ^ 32 - 2 ^ 31) else (len - r, 0)
  else (0, 0)

/-- What a job does with the engine, in any order. -/
inductive Op
  | queue (k : Kind) (u : Nat)
  | commit (as : List SRes)
  | get (bcm min max cur : Nat) (gs : List (GRes × List SRes))
deriving Repr

def step (depth : Nat) (s : St) : Op → Res St
  | .queue k u =>
    match queue depth s k u with
    | none => .crash
    | some (s, _) => .ok s
  | .commit as =>
    match commit as s with
    | .crash => .crash
    | .running => .running
    | .ok (s, _) => .ok s
  | .get bcm min max cur gs =>
    match getevents bcm (clamp cur min max).1 (clamp cur min max).2 gs s with
    | .crash => .crash
    | .running => .running
    | .ok (s, _) => .ok s

/-- A job's calls of the engine one after the other. -/
def run (depth : Nat) : St → List Op → Res St
  | s, [] => .ok s
  | s, o :: os =>
    match step depth s o with
    | .crash => .crash
    | .running => .running
    | .ok s => run depth s os

end Fio.Libaio
