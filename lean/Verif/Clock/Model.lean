/-
Model of fio's clocks: /repo/gettime.c, /repo/time.c and the interval timers of
/repo/helper_thread.c.

unsigned long long and uint64_t are natural numbers reduced modulo 2^64 after every operation.
int64_t, time_t and long are integers; an overflow is undefined and gives `none`.  Times read from
the operating system are inputs.
-/
namespace Fio.Clock

/-- Conversion to uint64_t. -/
def u64 (n : Nat) : Nat := n % 2 ^ 64

/-- The value of a 64 bit signed operation, `none` when it overflows. -/
def chk (x : Int) : Option Int := if -2 ^ 63 ≤ x ∧ x < 2 ^ 63 then some x else none

/-- Conversion of an int64_t to uint64_t. -/
def toU64 (x : Int) : Nat := (x % 2 ^ 64).toNat

/-- Conversion of a uint64_t to int64_t. -/
def toI64 (n : Nat) : Int := if n < 2 ^ 63 then n else (n : Int) - 2 ^ 64

/-- struct timespec, on a 64 bit system. -/
structure TS where
  sec : Int
  nsec : Int
  deriving DecidableEq, Repr

/-! ### The CPU clock, gettime.c:148-358 -/

/-- What calibrate_cpu_clock leaves behind, gettime.c:12-18. -/
structure Cal where
  cyclesStart : Nat
  clockMult : Nat
  maxCyclesMask : Nat
  nsecsForMaxCycles : Nat
  clockShift : Nat
  maxCyclesShift : Nat
  deriving DecidableEq, Repr

/-- The last line of get_cycles_per_msec, gettime.c:244: `cs` and `ce` are the two readings of the
CPU clock and `elapsed` the nanoseconds between them by the system's clock. -/
def cyclesPerMsec (cs ce elapsed : Nat) : Option Nat :=
  if elapsed = 0 then none else some (u64 (u64 (ce + (2 ^ 64 - cs)) * 1000000) / elapsed)

/-- `while (tmp > 1) { tmp >>= 1; sft++; }`, gettime.c:313-317 and 332-336. -/
def halvings (tmp sft : Nat) : Nat :=
  if tmp > 1 then halvings (tmp >>> 1) (sft + 1) else sft
  termination_by tmp
  decreasing_by
    rw [Nat.shiftRight_eq_div_pow]
    omega

/-- `for (tmp = 0; tmp < n; tmp++) mask |= 1ULL << tmp;`, gettime.c:346-347. -/
def maskLoop (n : Nat) : Nat :=
  (List.range n).foldl (fun mask tmp => mask ||| u64 (1 <<< tmp)) 0

/-- calibrate_cpu_clock from line 302 on, gettime.c:302-357.  `c` is cycles_per_msec, the trimmed
mean of the samples; `start` is the CPU clock at the end.  The statistics of lines 256-296 are
not modelled: they only choose `c`.  A division by zero and a shift by 64 or more give `none`. -/
def calibrate (c start : Nat) : Option Cal :=
  let maxTicks := u64 (u64 (60 * 60 * c) * 1000)
  if maxTicks = 0 then none else
  let maxMult := (2 ^ 64 - 1) / maxTicks
  let sft := halvings (u64 (maxMult * c) / 1000000) 0
  if c = 0 then none else
  if 64 ≤ sft then none else
  let mult := u64 (u64 (1 <<< sft) * 1000000) / c
  let mcs := halvings (u64 (60 * 60 * 1000 * c)) 0
  if 64 ≤ mcs then none else
  let nsMax := u64 (u64 (1 <<< mcs) * mult) >>> sft
  some { cyclesStart := start, clockMult := mult, maxCyclesMask := maskLoop mcs,
         nsecsForMaxCycles := nsMax, clockShift := sft, maxCyclesShift := mcs }

/-- __fio_gettime for CS_CPUCLOCK, gettime.c:179-198: `t` is the reading of the CPU clock.  The
branch under ARCH_CPU_CLOCK_WRAPS only prints warnings. -/
def cpuTime (cal : Cal) (t : Nat) : TS :=
  let t := u64 (t + (2 ^ 64 - cal.cyclesStart))
  let multiples := t >>> cal.maxCyclesShift
  let nsecs := u64 (multiples * cal.nsecsForMaxCycles)
  let nsecs := u64 (nsecs + u64 ((t &&& cal.maxCyclesMask) * cal.clockMult) >>> cal.clockShift)
  { sec := nsecs / 1000000000, nsec := nsecs % 1000000000 }

/-! ### Elapsed times, gettime.c:420-547 -/

/-- ntime_since, gettime.c:420-438. -/
def ntimeSince (s e : TS) : Option Nat := do
  let sec ← chk (e.sec - s.sec)
  let nsec ← chk (e.nsec - s.nsec)
  let (sec, nsec) := if 0 < sec ∧ nsec < 0 then (sec - 1, nsec + 1000000000) else (sec, nsec)
  if sec < 0 ∨ (sec = 0 ∧ nsec < 0) then some 0
  else do
    let m ← chk (sec * 1000000000)
    let r ← chk (nsec + m)
    some (toU64 r)

/-- utime_since, gettime.c:448-466.  C's division truncates. -/
def utimeSince (s e : TS) : Option Nat := do
  let sec ← chk (e.sec - s.sec)
  let d ← chk (e.nsec - s.nsec)
  let usec := d.tdiv 1000
  let (sec, usec) := if 0 < sec ∧ usec < 0 then (sec - 1, usec + 1000000) else (sec, usec)
  if sec < 0 ∨ (sec = 0 ∧ usec < 0) then some 0
  else do
    let m ← chk (sec * 1000000)
    let r ← chk (usec + m)
    some (toU64 r)

/-- rel_time_since, gettime.c:520-533.  A failed assertion gives `none`. -/
def relTimeSince (s e : TS) : Option Int := do
  let sec ← chk (e.sec - s.sec)
  let nsec ← chk (e.nsec - s.nsec)
  let sec' ← if nsec < 0 then chk (sec - 1) else some sec
  let nsec' := if nsec < 0 then toI64 (u64 (toU64 nsec + 1000000000)) else nsec
  if 0 ≤ nsec' ∧ nsec' < 1000000000 then do
    let m ← chk (sec' * 1000)
    chk (m + nsec'.tdiv 1000000)
  else none

/-- mtime_since, gettime.c:539-542. -/
def mtimeSince (s e : TS) : Option Nat := do
  let r ← relTimeSince s e
  some (toU64 (max r 0))

/-- time_since_now, gettime.c:544-547, with the current time as argument. -/
def timeSince (s e : TS) : Option Nat := do
  let r ← mtimeSince s e
  some (r / 1000)

/-- timespec_add_msec, time.c:15-30.  The first addition and the subtraction mix long and uint64_t
and are done in uint64_t. -/
def addMsec (ts : TS) (msec : Nat) : Option TS := do
  let adj := u64 (1000000 * msec)
  let nsec := toI64 (u64 (toU64 ts.nsec + adj))
  let nsec1 := if 1000000000 ≤ adj then
    toI64 (u64 (toU64 nsec + (2 ^ 64 - u64 (adj / 1000000000 * 1000000000)))) else nsec
  let sec1 := if 1000000000 ≤ adj then
    toI64 (u64 (toU64 ts.sec + adj / 1000000000)) else ts.sec
  if 1000000000 ≤ nsec1 then do
    let sec2 ← chk (sec1 + 1)
    some { sec := sec2, nsec := nsec1 - 1000000000 }
  else some { sec := sec1, nsec := nsec1 }

/-! ### Sleeping, time.c:35-102 -/

/-- usec_spin, time.c:35-45: `reads` are the successive values of utime_since_now.  The result is
the value returned and the readings left; `none` when the readings run out. -/
def usecSpin (usec : Nat) : List Nat → Option (Nat × List Nat)
  | [] => none
  | r :: rest => if r < usec then usecSpin usec rest else some (r, rest)

/-- What one round of usec_sleep meets: whether nanosleep returned 0, the value of utime_since_now
after it, and td->terminate. -/
structure Nap where
  ok : Bool
  slept : Nat
  terminate : Bool
  deriving DecidableEq, Repr

/-- How usec_sleep ends. -/
inductive SleepEnd where
  | full | interrupted | terminated
  deriving DecidableEq, Repr

/-- usec_sleep, time.c:58-102.  `naps` are the rounds through the loop and `reads` the readings of
usec_spin.  The result is the value returned, the requests given to nanosleep in order and how the
loop ended; `none` when the input runs out.  unsigned long and uint64_t wrap. -/
def usecSleep (gran : Nat) (reads : List Nat) :
    (usec t : Nat) → List TS → List Nap → Option (Nat × List TS × SleepEnd)
  | usec, t, reqs, [] =>
      if usec < gran then
        match usecSpin (usec % 2 ^ 32) reads with
        | none => none
        | some (r, _) => some (u64 (t + r), reqs, .full)
      else none
  | usec, t, reqs, n :: naps =>
      if usec < gran then
        match usecSpin (usec % 2 ^ 32) reads with
        | none => none
        | some (r, _) => some (u64 (t + r), reqs, .full)
      else
        let ts := usec - gran
        let sec := if 1000000 ≤ ts then ts / 1000000 else 0
        let ts' := if 1000000 ≤ ts then ts - 1000000 * sec else ts
        let sec' := if 1000000 ≤ ts then (if 1 < sec then 1 else sec) else 0
        let reqs := reqs ++ [{ sec := sec', nsec := u64 (ts' * 1000) }]
        if !n.ok then some (t, reqs, .interrupted)
        else
          let t := u64 (t + n.slept)
          if usec ≤ n.slept then some (t, reqs, .full)
          else if n.terminate then some (t, reqs, .terminated)
          else usecSleep gran reads (usec - n.slept) t reqs naps

/-! ### Interval timers, helper_thread.c:43-48, 247-274 -/

/-- struct interval_timer without the name and the function, helper_thread.c:43-48. -/
structure Timer where
  expires : TS
  intervalMs : Nat
  deriving DecidableEq, Repr

/-- eval_timer, helper_thread.c:247-274.  `acc` is sleep_accuracy_ms, `next` is
*msec_to_next_event.  The result is the timer, *msec_to_next_event and whether the function is
called.  `interval_ms - sleep_accuracy_ms` and the sum are done in unsigned int. -/
def evalTimer (acc : Nat) (it : Timer) (now : TS) (next : Nat) : Option (Timer × Nat × Bool) :=
  if it.intervalMs = 0 then some (it, next, false) else do
  let delta ← relTimeSince now it.expires
  if delta ≤ acc then do
    let exp ← addMsec it.expires it.intervalMs
    let delta ← relTimeSince now exp
    if delta < ((it.intervalMs + (2 ^ 32 - acc % 2 ^ 32)) % 2 ^ 32 : Nat) ∨
        ((it.intervalMs + acc) % 2 ^ 32 : Nat) < delta then do
      let exp ← addMsec now it.intervalMs
      some ({ it with expires := exp }, min it.intervalMs next, true)
    else
      some ({ it with expires := exp }, min (toU64 delta % 2 ^ 32) next, true)
  else
    some (it, min (toU64 delta % 2 ^ 32) next, false)

end Fio.Clock
