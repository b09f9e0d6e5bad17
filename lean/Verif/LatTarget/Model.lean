/-
latency_target: the search for the queue depth (io_u.c:1594-1755, backend.c:1394-1395) and the
completions that are nested in it (io_u.c:709-739, 2327-2341, 2384-2417).

The depths are `unsigned int` and stay below twice iodepth, which is an `int`: no overflow.
-/
namespace Fio.LatTarget

/-- What does not change: `depth` is iodepth; `all`: latency_percentile is 100; `forever` is latency_run. -/
structure Cfg where
  depth : Nat
  all : Bool
  forever : Bool

/-- latency_qd, latency_qd_low, latency_qd_high, latency_stable_count, latency_end_run, td->done; `fatal`:
lat_fatal has set the error of the job; `stats`: the queue depths of the windows whose I/Os are in the
statistics (reset_all_stats, reset_io_stats empty it), newest first. -/
structure St where
  qd : Nat
  low : Nat
  high : Nat
  stable : Nat
  endRun : Bool
  done : Bool
  fatal : Bool
  stats : List Nat
deriving DecidableEq, Repr

/-- lat_target_init (io_u.c:1638-1651), for a job with latency_target. -/
def init (c : Cfg) : St := ⟨1, 1, c.depth, 0, false, false, false, []⟩

/-- __lat_target_failed (io_u.c:1605-1627).  At queue depth 1 it returns true; lat_target_failed's caller
then calls lat_fatal (io_u.c:2115-2118), lat_target_check ignores it (io_u.c:1738). -/
def failed (c : Cfg) (s : St) : St :=
  if s.qd = 1 then { s with fatal := s.fatal || c.all }
  else
    let low := if s.qd = s.low then s.low - 1 else s.low
    { s with high := s.qd, low := low, qd := (s.qd + low) / 2, stable := 0 }

/-- lat_target_success (io_u.c:1659-1714). -/
def success (c : Cfg) (s : St) : St :=
  let qd := s.qd
  let (high, stable) :=
    if qd + 1 = s.high then
      (if s.stable + 1 ≥ 3 then (s.high + 1, 0) else (s.high, s.stable + 1))
    else (s.high, s.stable)
  let qd1 := if high ≠ c.depth then (qd + high) / 2 else qd * 2
  let qd2 := if qd1 > c.depth then c.depth else qd1
  let s := { s with low := qd, high := high, stable := stable, qd := qd2 }
  if c.forever = false ∧ qd2 = qd then
    if s.endRun then { s with done := true }
    else { s with endRun := true, stats := [] }
  else s

/-- A window: its I/Os count in the statistics, and then the target was met or not.  With
latency_percentile=100 the first slow I/O ends the window (lat_target_failed, io_u.c:1629-1636), otherwise
lat_target_check compares (io_u.c:1719-1739).  The loop of do_io ends if td->done is set or on an error. -/
def window (c : Cfg) (s : St) (met : Bool) : St :=
  if s.done || s.fatal then s else
  let s := { s with stats := s.qd :: s.stats }
  if met then success c s else failed c s

/-- A run: the verdicts of the windows. -/
def run (c : Cfg) (l : List Bool) : St := l.foldl (window c) (init c)

/-- `n` windows on a device that meets the target up to the queue depth `k`. -/
def steady (c : Cfg) (k : Nat) : Nat → St
  | 0 => init c
  | n + 1 => window c (steady c k n) (decide ((steady c k n).qd ≤ k))

/-- queue_full (io_u.c:1745-1755) for a job with latency_target: `free` is whether there is a free unit. -/
def queueFull (s : St) (free : Bool) (cur : Nat) : Bool := !free || decide (cur ≥ s.qd)

/-! ## Completions in completions -/

/-- The engine's array of events (libaio: ld->aio_events), the I/Os in flight in the order in which they
will complete, the completed ones, newest first. -/
structure Ev where
  events : List Nat
  inflight : List Nat
  done : List Nat
deriving DecidableEq, Repr

/-- td_io_getevents (ioengines.c:291-332), fio_libaio_getevents (engines/libaio.c:227-265): up to `batch` events, at
least one, are written to the start of the array. -/
def getevents (batch : Nat) (e : Ev) : Ev × Nat :=
  let r := min (max batch 1) e.inflight.length
  ({ e with events := e.inflight.take r ++ e.events.drop r, inflight := e.inflight.drop r }, r)

mutual
/-- ios_completed (io_u.c:2327-2341) from index `i` on; for a slow I/O (`slow`) __lat_target_failed calls
io_u_quiesce (io_u.c:1624). -/
def iosCompleted (slow : Nat → Bool) (batch : Nat) : Nat → Nat → Nat → Ev → Option Ev
  | 0, _, _, _ => none
  | fuel + 1, i, nr, e =>
    if i < nr then
      match e.events[i]? with
      | none => none
      | some u =>
        let e := { e with done := u :: e.done }
        if slow u then
          match quiesce slow batch fuel e with
          | none => none
          | some e => iosCompleted slow batch fuel (i + 1) nr e
        else iosCompleted slow batch fuel (i + 1) nr e
    else some e
/-- io_u_quiesce (io_u.c:724-730). -/
def quiesce (slow : Nat → Bool) (batch : Nat) : Nat → Ev → Option Ev
  | 0, _ => none
  | fuel + 1, e =>
    if e.inflight = [] then some e
    else
      let (e, r) := getevents batch e
      match iosCompleted slow batch fuel 0 r e with
      | none => none
      | some e => quiesce slow batch fuel e
end

/-- io_u_queued_complete (io_u.c:2384-2417). -/
def queuedComplete (slow : Nat → Bool) (batch fuel : Nat) (e : Ev) : Option Ev :=
  let (e, r) := getevents batch e
  iosCompleted slow batch fuel 0 r e

end Fio.LatTarget
