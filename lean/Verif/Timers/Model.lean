/-!
# The timers of the helper thread (helper_thread.c)

A `struct timespec` is its number of nanoseconds.  What the functions of the timers do is not modelled, only how often they are called; `calls`
is this count and is no field in the code.
-/

namespace Fio.Timers

/-- /repo/helper_thread.c:43-48 `struct interval_timer` -/
structure Timer where
  expires : Int
  interval : Nat
  calls : Nat
  deriving Repr, DecidableEq

/-- /repo/gettime.c:520-533 `rel_time_since`: rounded down, for negative times too -/
def relTime (s e : Int) : Int := (e - s) / 1000000

/-- /repo/time.c:15-30 `timespec_add_msec` -/
def addMsec (ts : Int) (msec : Nat) : Int := ts + 1000000 * (msec : Int)

/-- /repo/helper_thread.c:246-273 `eval_timer`: the timer afterwards, whether its function was called, and the time to the next event (with
`delta_ms` cast to 32 bits). `interval_ms - sleep_accuracy_ms` and the sum are computed in 32 bits. -/
def evalTimer (acc : Nat) (now : Int) (t : Timer) (msec : Nat) : Timer × Bool × Nat :=
  if t.interval = 0 then (t, false, msec)
  else if relTime now t.expires ≤ acc then
    let e := addMsec t.expires t.interval
    let d := relTime now e
    if d < ((t.interval + 2 ^ 32 - acc) % 2 ^ 32 : Nat) ∨ d > ((t.interval + acc) % 2 ^ 32 : Nat) then
      ({ t with expires := addMsec now t.interval, calls := t.calls + 1 }, true, min t.interval msec)
    else ({ t with expires := e, calls := t.calls + 1 }, true, min (d % 2 ^ 32).toNat msec)
  else (t, false, min (relTime now t.expires % 2 ^ 32).toNat msec)

/-- /repo/helper_thread.c:346-347, the loop over the timers; `fails` says which functions return an error, the result is `ret` -/
def evalAll (acc : Nat) (now : Int) : List Timer → List Bool → Nat → Bool → List Timer × Nat × Bool
  | [], _, msec, ret => ([], msec, ret)
  | t :: ts, fails, msec, _ =>
    let (t', fired, msec') := evalTimer acc now t msec
    let (ts', m, r) := evalAll acc now ts fails.tail msec' (fired && fails.headD false)
    (t' :: ts', m, r)

/-- /repo/helper_thread.c:168-183 `reset_timers`, the timers -/
def resetTimers (now : Int) (ts : List Timer) : List Timer := ts.map fun t => { t with expires := addMsec now t.interval }

/-- `reset_timers`, its result; `INT_MAX` at first (/repo/helper_thread.c:171, 177) -/
def resetMsec (ts : List Timer) : Nat := ts.foldl (fun m t => if t.interval = 0 then m else if m = 0 then t.interval else min m t.interval) (2 ^ 31 - 1)

/-- The helper thread between two rounds: timers, time to sleep, when it woke last, `ret` (/repo/helper_thread.c:275-331) -/
structure St where
  timers : List Timer
  msec : Nat
  now : Int
  ret : Bool
  deriving Repr, DecidableEq

/-- What a round meets: when it wakes, whether the timers are to be reset, the result of `calc_log_samples`, errors of functions. -/
structure Wake where
  now : Int
  reset : Bool
  log : Nat
  fails : List Bool
  deriving Repr, DecidableEq

/-- /repo/helper_thread.c:326-327: the start; the intervals are those of the table (/repo/helper_thread.c:279-303) -/
def start (now : Int) (is : List Nat) : St :=
  let ts := resetTimers now (is.map fun i => { expires := 0, interval := i, calls := 0 })
  { timers := ts, msec := resetMsec ts, now := now, ret := false }

/-- /repo/helper_thread.c:331-363, a round of the loop; `DISK_UTIL_MSEC` is 250 (/repo/diskutil.h:114) -/
def round (acc : Nat) (st : St) (w : Wake) : St :=
  if st.ret then st
  else
    let ts := if w.reset then resetTimers w.now st.timers else st.timers
    let msec := if w.reset then resetMsec ts else 2 ^ 31 - 1
    let (ts', m, r) := evalAll acc w.now ts w.fails msec false
    { timers := ts', msec := min (if w.log = 0 then 250 else w.log) m, now := w.now, ret := r }

def run (acc : Nat) (st : St) (ws : List Wake) : St := ws.foldl (round acc) st

end Fio.Timers
