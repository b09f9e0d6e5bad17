/-!
# The `vsync` engine: adjacent units gathered into one `readv(2)`/`writev(2)`

Simplifications: units carry a number and are copied into the slots of the engine (the C code keeps pointers; nothing
else changes a unit while the engine has it); `lseek(2)` does not fail; offsets and sums do not wrap; `io_u_queued`
and `cur_depth` are natural numbers, `io_u_in_flight` wraps at 2^32.  The kernel moves at most what is asked for.  The job around the
engine is the issuing loop of `do_io` without rate control, think time, latency target, offload and verify.
-/

namespace Fio.Vsync

/-- /repo/io_ddir.h:8-22 `enum fio_ddir`, all kinds of sync as one. -/
inductive Dir
  | read | write | trim | sync
deriving DecidableEq, Repr

/-- The parts of `struct io_u` (/repo/io_u.h:33-120) used. -/
structure U where
  id : Nat
  file : Nat
  off : Nat
  len : Nat
  dir : Dir
  resid : Nat := 0
  err : Nat := 0
deriving DecidableEq, Repr

/-- What the kernel answers to `readv`/`writev`: bytes moved or an error number. -/
inductive Res
  | ok (n : Nat)
  | fail (e : Nat)
deriving DecidableEq, Repr

/-- A vector call the kernel executed: `write` or read, file, place, bytes moved, and the vector, each entry the buffer
of a unit with its length. -/
structure Call where
  write : Bool
  file : Nat
  at_ : Nat
  got : Nat
  vec : List (Nat × Nat)
deriving DecidableEq, Repr

/-- /repo/engines/sync.c:22-34 `struct syncio_data`; `io_us` has `iodepth` slots, `none`: not yet written. -/
structure SD where
  ious : List (Option U)
  queued : Nat
  events : Nat
  qbytes : Nat
  lastOff : Option Nat
  lastFile : Option Nat
  lastDir : Dir
deriving Repr

/-- /repo/engines/sync.c:403-416 `fio_vsyncio_init` (`last_offset` of `-1ULL` as `none`). -/
def sdInit (depth : Nat) : SD :=
  { ious := List.replicate depth none, queued := 0, events := 0, qbytes := 0, lastOff := none, lastFile := none,
    lastDir := .read }

/-- /repo/ioengines.h:23-27 `enum fio_q_status`. -/
inductive Status
  | completed | queued | busy
deriving DecidableEq, Repr

/-- /repo/engines/sync.c:264-276 `fio_vsyncio_append`. -/
def append (sd : SD) (u : U) : Bool :=
  if u.dir = .sync then false
  else decide (sd.lastOff = some u.off ∧ sd.lastFile = some u.file ∧ sd.lastDir = u.dir)

/-- /repo/engines/sync.c:278-289 `fio_vsyncio_set_iov`.  Index out of the array: `none`. -/
def setIov (sd : SD) (u : U) (idx : Nat) : Option SD :=
  if idx < sd.ious.length then
    some
      { sd with
        ious := sd.ious.set idx (some u)
        lastOff := some (u.off + u.len)
        lastFile := some u.file
        lastDir := u.dir
        qbytes := sd.qbytes + u.len
        queued := sd.queued + 1 }
  else none

/-- /repo/engines/sync.c:291-326 `fio_vsyncio_queue`; a sync is done at once (`sync` is the answer to it, the unit comes
back with its error). -/
def queue (depth : Nat) (sd : SD) (u : U) (sync : Res) : Option (SD × U × Status) :=
  if append sd u = false then
    if sd.queued ≠ 0 then some (sd, u, .busy)
    else if u.dir = .sync then
      match sync with
      | .ok _ => some (sd, u, .completed)
      | .fail e => some (sd, { u with err := e }, .completed)
    else (setIov { sd with queued := 0, qbytes := 0 } u 0).map fun s => (s, u, .queued)
  else if sd.queued = depth then some (sd, u, .busy)
  else (setIov sd u sd.queued).map fun s => (s, u, .queued)

/-- /repo/engines/sync.c:342-358, the loop of `fio_vsyncio_end` for a short transfer; `this_io` is `unsigned int`. -/
def endLoop : List U → Nat → List U
  | [], _ => []
  | u :: us, bytes =>
    let t := bytes % 2 ^ 32
    let t := if t > u.len then u.len else t
    { u with resid := u.len - t, err := 0 } :: endLoop us (bytes - t)

/-- The first `n` slots (`none` if one of them was never written). -/
def slots (l : List (Option U)) : Nat → Option (List U)
  | 0 => some []
  | n + 1 =>
    match l with
    | some u :: l => (slots l n).map (u :: ·)
    | _ => none

/-- The slots after the units in them were changed. -/
def putBack (l : List (Option U)) (us : List U) : List (Option U) := us.map some ++ l.drop us.length

/-- /repo/engines/sync.c:331-366 `fio_vsyncio_end`. -/
def endUnits (us : List U) (qbytes : Nat) : Res → List U
  | .ok bytes => if bytes = qbytes then us else endLoop us bytes
  | .fail e => us.map fun u => { u with err := e }

/-- Bytes of a vector. -/
def total : List U → Nat
  | [] => 0
  | u :: us => u.len + total us

/-- What the kernel moves: at most the whole vector. -/
def cap (r : Res) (n : Nat) : Res :=
  match r with
  | .ok k => .ok (min k n)
  | .fail e => .fail e

/-- /repo/engines/sync.c:369-401 `fio_vsyncio_commit`: state, the call made, and whether it returns an error. -/
def commit (sd : SD) (r : Res) : Option (SD × Option Call × Bool) :=
  if sd.queued = 0 then some (sd, none, false)
  else
    match slots sd.ious sd.queued, sd.lastFile with
    | some (u0 :: us), some f =>
      let v := u0 :: us
      let r := cap r (total v)
      let sd' := { sd with ious := putBack sd.ious (endUnits v sd.qbytes r), events := sd.queued, queued := 0 }
      match r with
      | .ok k =>
        some (sd', some ⟨decide (sd.lastDir ≠ .read), f, u0.off, k, v.map fun u => (u.id, u.len)⟩, false)
      | .fail _ => some (sd', none, true)
    | _, _ => none

/-- /repo/engines/sync.c:240-255 `fio_vsyncio_getevents`. -/
def getevents (sd : SD) (min : Nat) : SD × Nat :=
  if min ≠ 0 then ({ sd with events := 0 }, sd.events) else (sd, 0)

/-- The job: engine data, `cur_depth`, `io_u_queued`, `io_u_in_flight` (/repo/fio.h), the units handed back, the calls
made, and how often the kernel was asked. -/
structure Job where
  sd : SD
  cur : Nat
  ioq : Nat
  infl : Nat
  comp : List U
  calls : List Call
  asked : Nat
deriving Repr

/-- `unsigned int` difference. -/
def sub32 (a n : Nat) : Nat := (a + 2 ^ 32 - n) % 2 ^ 32

/-- Options: `iodepth`, `iodepth_batch`, `iodepth_low`. -/
structure Opt where
  depth : Nat
  batch : Nat
  low : Nat
deriving Repr

/-- /repo/init.c:810-820: the low water mark and the batch default to the depth when 0, and are not more; the options
themselves default to 0 and 1 (/repo/options.c:2436-2480). -/
def fixOpt (depth batch low : Nat) : Opt :=
  { depth := depth
    low := if low > depth ∨ low = 0 then depth else low
    batch := if batch > depth ∨ batch = 0 then depth else batch }

def jobInit (o : Opt) : Job :=
  { sd := sdInit o.depth, cur := 0, ioq := 0, infl := 0, comp := [], calls := [], asked := 0 }

/-- The commit of the engine within the job: the kernel's answer is `env` at the number of calls made so far. -/
def doCommit (env : Nat → Res) (j : Job) : Option (Job × Bool) :=
  (commit j.sd (env j.asked)).map fun (sd, c, e) =>
    ({ j with sd := sd, calls := j.calls ++ c.toList, asked := if j.sd.queued = 0 then j.asked else j.asked + 1 }, e)

/-- /repo/ioengines.c:497-520 `td_io_commit` (an error is only noted in `td->error`). -/
def tdCommit (env : Nat → Res) (j : Job) : Option Job :=
  if j.cur = 0 ∨ j.ioq = 0 then some j
  else (doCommit env j).map fun (j', _) => { j' with infl := (j'.infl + j.ioq) % 2 ^ 32, ioq := 0 }

/-- /repo/ioengines.c:333-480 `td_io_queue`: error and rest of the unit are cleared first; a unit queued may complete a
batch. -/
def tdQueue (o : Opt) (env : Nat → Res) (j : Job) (u : U) (sync : Res) : Option (Job × U × Status) :=
  match queue o.depth j.sd { u with err := 0, resid := 0 } sync with
  | none => none
  | some (sd, u, st) =>
    let j := { j with sd := sd }
    if st = .queued then
      let j := { j with ioq := j.ioq + 1 }
      if j.ioq ≥ o.batch then (tdCommit env j).map fun j => (j, u, st) else some (j, u, st)
    else some (j, u, st)

/-- /repo/io_u.c:2386-2418 `io_u_queued_complete` with /repo/ioengines.c:292-331 `td_io_getevents`: commit, then take the
events; `ios_completed` (/repo/io_u.c:2318-2342) hands the units of the slots back.  The second result is the number of
events, `none` for an error. -/
def reap (env : Nat → Res) (j : Job) (min : Nat) : Option (Job × Option Nat) :=
  let min := if min > j.cur then j.cur else min
  match (if min > 0 then doCommit env j else some (j, false)) with
  | none => none
  | some (j, true) => some (j, none)
  | some (j, false) =>
    let (sd, n) := getevents j.sd min
    match slots j.sd.ious n with
    | none => none
    | some us =>
      some ({ j with sd := sd, infl := sub32 j.infl n, cur := j.cur - n, comp := j.comp ++ us }, some n)

/-- /repo/io_u.c:1745-1755 `queue_full` without latency target: no free unit left; `req` units are waiting to be queued
again. -/
def queueFull (o : Opt) (j : Job) (req : Nat) : Bool := decide (o.depth ≤ j.cur + req)

/-- /repo/backend.c:424-450 `wait_for_completions` with `iodepth_batch_complete_min` of 0 or 1.  `none` also when the
fuel is used up. -/
def waitLoop (o : Opt) (env : Nat → Res) (full : Bool) : Nat → Job → Option Job
  | 0, _ => none
  | fuel + 1, j =>
    match reap env j 1 with
    | none => none
    | some (j, none) => some j
    | some (j, some _) => if full && decide (j.cur > o.low) then waitLoop o env full fuel j else some j

/-- One turn of the loop of `do_io` (/repo/backend.c:1235-1371) with unit `u`, newly filled or queued again:
/repo/backend.c:452-530 `io_queue_event`.  The result says whether the unit is still to be queued. -/
def turn (o : Opt) (env : Nat → Res) (fuel : Nat) (j : Job) (u : U) (sync : Res) : Option (Job × Bool) :=
  let j := { j with cur := j.cur + 1 }
  match tdQueue o env j u sync with
  | none => none
  | some (j, u, .completed) =>
    -- io_u_sync_complete
    some ({ j with cur := j.cur - 1, comp := j.comp ++ [u] }, false)
  | some (j, _, .queued) =>
    if queueFull o j 0 then (waitLoop o env true fuel j).map fun j => (j, false) else some (j, false)
  | some (j, _, .busy) =>
    let j := { j with cur := j.cur - 1 }
    match tdCommit env j with
    | none => none
    | some j =>
      let full := queueFull o j 1
      if full ∨ j.cur ≠ 0 then (waitLoop o env full fuel j).map fun j => (j, true) else some (j, true)

/-- A unit until it is queued: at most `n` turns. -/
def issue (o : Opt) (env : Nat → Res) (fuel : Nat) : Nat → Job → U → Res → Option Job
  | 0, _, _, _ => none
  | n + 1, j, u, sync =>
    match turn o env fuel j u sync with
    | none => none
    | some (j, false) => some j
    | some (j, true) => issue o env fuel n j u sync

/-- The units of a job one after the other. -/
def issueAll (o : Opt) (env : Nat → Res) (fuel : Nat) : Job → List (U × Res) → Option Job
  | j, [] => some j
  | j, (u, sync) :: us =>
    match issue o env fuel 2 j u sync with
    | none => none
    | some j => issueAll o env fuel j us

/-- /repo/backend.c:1418-1425: at the end, wait for everything still in flight (once). -/
def finish (env : Nat → Res) (j : Job) : Option Job :=
  if j.cur = 0 then some j else (reap env j j.cur).map (·.1)

def runJob (o : Opt) (env : Nat → Res) (fuel : Nat) (us : List (U × Res)) : Option Job :=
  match issueAll o env fuel (jobInit o) us with
  | none => none
  | some j => finish env j

/-- /repo/io_u.c:708-739 `io_u_quiesce` (before a rate limit's sleep, think time and others): loop until nothing is in
flight. -/
def quiesce (env : Nat → Res) : Nat → Job → Option Job
  | 0, _ => none
  | fuel + 1, j =>
    if j.infl = 0 then some j
    else
      match reap env j 1 with
      | none => none
      | some (j, _) => quiesce env fuel j

end Fio.Vsync
