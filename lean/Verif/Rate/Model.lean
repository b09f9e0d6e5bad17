/-
Rate limits: how long a job with `rate` or `rate_iops` waits before it issues an I/O
(init.c:563-582, io_u.c:742-801, 868-884, backend.c:858-902, 977-999, 1339-1357), and the check of
the minimal rate (backend.c:159-231).

Times are in microseconds since `td->epoch`.  They and `last_usec` are unbounded here (64 bits of
microseconds are 584000 years); `rate_io_issue_bytes` has 64 bits.  What the engine, the clock, the
mix of reads and writes and the Poisson generator give are arguments.
-/
namespace Fio.Rate

/-- DDIR_READ, DDIR_WRITE, DDIR_TRIM (io_ddir.h:4-8). -/
inductive Dir where
  | read | write | trim
deriving DecidableEq, Repr

/-- `ddir ^ 1` (io_u.c:744).  Used only if the job both reads and writes, and then the direction is
never a trim (io_u.c:832-846). -/
def Dir.other : Dir → Dir
  | .read => .write
  | .write => .read
  | .trim => .trim

/-- The options.  `rate`, `rateIops`: o.rate, o.rate_iops; `minBs`: o.min_bs; `split`:
o.bssplit_nr ≠ 0; `poisson`: o.rate_process; `rw`: td_rw(); `mix`: o.rwmix ≠ 0; `timeout`:
o.timeout; `trimwrite`: td_trimwrite(); `ignThink`: o.rate_ign_think. -/
structure Opts where
  rate : Dir → Nat
  rateIops : Dir → Nat
  minBs : Dir → Nat
  split : Dir → Bool
  poisson : Bool
  rw : Bool
  mix : Dir → Bool
  timeout : Nat
  trimwrite : Bool
  ignThink : Bool

/-- `td->rate_bps` (init.c:569-572); 0 where no rate is set (init.c:588-589). -/
def Opts.bps (o : Opts) (d : Dir) : Nat :=
  if o.rate d ≠ 0 then o.rate d else o.rateIops d * o.minBs d % 2 ^ 64

/-- The fields of thread_data (fio.h:359-364) and the time. -/
structure St where
  now : Nat
  next : Dir → Nat
  bytes : Dir → Nat
  lastU : Dir → Nat

/-- __setup_rate (init.c:578-580). -/
def init : St := ⟨0, fun _ => 0, fun _ => 0, fun _ => 0⟩

/-- Assignment to one element of an array. -/
def upd (f : Dir → Nat) (d : Dir) (x : Nat) : Dir → Nat := fun e => if e = d then x else f e

/-- usec_for_io (backend.c:858-902): the time and `last_usec[ddir]`; `none` is a division by zero.
`val` is the random delay of the Poisson process, `(int64_t) (1000000 / iops) * -logf(..)`. -/
def usecForIo (o : Opts) (s : St) (d : Dir) (val : Nat) : Option (Nat × Nat) :=
  let bps := o.bps d
  if o.poisson then
    if o.minBs d = 0 then none else
    let iops := bps / o.minBs d
    if iops = 0 then none else
    some (s.lastU d + val, s.lastU d + val)
  else if bps = 0 then some (0, s.lastU d)
  else if o.rate d = 0 ∧ o.split d then
    if o.minBs d = 0 then none else
    let iops := bps / o.minBs d
    if iops = 0 then some (0, s.lastU d)
    else some (s.lastU d + 1000000 / iops, s.lastU d + 1000000 / iops)
  else
    let secs := s.bytes d / bps
    let remainder := s.bytes d % bps
    some (remainder * 1000000 % 2 ^ 64 / bps + secs * 1000000, s.lastU d)

/-- Result of rate_ddir: a direction or DDIR_TIMEOUT. -/
inductive Got where
  | dir (d : Dir)
  | timeout
deriving DecidableEq, Repr

/-- What the clock and the sleep do: `usec_sleep` (time.c:58-102) takes the time asked for and
`extra`, or if it is ended early by a signal or by `td->terminate`, the time `cut`; `term` is
`td->terminate` at the end. -/
structure Env where
  extra : Nat
  cut : Option Nat
  term : Bool

/-- The time to sleep and the direction after it (io_u.c:755-779): `none` if there is no need to. -/
def plan (o : Opts) (s : St) (d : Dir) : Option (Nat × Dir) :=
  if s.next d ≤ s.now then none
  else if o.rw ∧ o.mix d.other then
    if s.next d.other ≤ s.now then some (0, d.other)
    else if s.next d ≤ s.next d.other then some (s.next d - s.now, d)
    else some (s.next d.other - s.now, d.other)
  else some (s.next d - s.now, d)

/-- How long `usec_sleep` is asked to sleep (io_u.c:784-794): `none` if the time is already over. -/
def asked (o : Opts) (s : St) (usec : Nat) : Option Nat :=
  if o.timeout ≠ 0 ∧ usec + s.now > o.timeout then
    if s.now > o.timeout then none else some (o.timeout - s.now)
  else some usec

/-- rate_ddir (io_u.c:742-801). The switch to a direction that is behind (io_u.c:764-765) is the
plan with 0: it returns without sleep and without looking at the clock again. -/
def rateDdir (o : Opts) (s : St) (d : Dir) (e : Env) : St × Got :=
  match plan o s d with
  | none => (s, .dir d)
  | some (0, d) => (s, .dir d)
  | some (usec, d) =>
    match asked o s usec with
    | none => (s, .timeout)
    | some usec =>
      let s := { s with now := s.now + e.cut.getD (usec + e.extra) }
      if (o.timeout ≠ 0 ∧ s.now > o.timeout) ∨ e.term then (s, .timeout) else (s, .dir d)

/-- set_rw_ddir (io_u.c:868-884) on top of it: in a `trimwrite` job the direction is chosen anew,
`tw`, whatever rate_ddir said. -/
def setDdir (o : Opts) (g : Got) (tw : Dir) : Got := if o.trimwrite then .dir tw else g

/-- What was done, for the statement of the properties.
`issue d len now checked`: `len` bytes were given to the engine (0 if it was busy); `now` is when
the direction was chosen; `checked` is false for units that are issued without a new choice.
`quiet d n`: `n` bytes were charged without a new time for the next I/O. -/
inductive Ev where
  | issue (d : Dir) (len : Nat) (now : Nat) (checked : Bool)
  | quiet (d : Dir) (n : Int)
deriving DecidableEq, Repr

/-- td_io_queue (ioengines.c:388-407) or the offload path (backend.c:1339-1346): the bytes are
charged, and taken back if the engine is busy. -/
def charge (s : St) (d : Dir) (len : Nat) (busy : Bool) : St :=
  let s := { s with bytes := upd s.bytes d ((s.bytes d + len) % 2 ^ 64) }
  if busy then { s with bytes := upd s.bytes d ((s.bytes d + 2 ^ 64 - len % 2 ^ 64) % 2 ^ 64) } else s

/-- The issue of a unit and the new time (backend.c:1339-1357). -/
def issue (o : Opts) (s : St) (d : Dir) (len : Nat) (busy : Bool) (val : Nat) : Option St :=
  let s := charge s d len busy
  match usecForIo o s d val with
  | none => none
  | some (t, u) => some { s with next := upd s.next d t, lastU := upd s.lastU d u }

/-- The correction for think time (backend.c:982-999): `total` microseconds were spent.  As
`(usperop - total) / usperop` is 0 for `total > 0`, `over` is 0 in the second case. -/
def think (o : Opts) (s : St) (d : Dir) (total : Nat) : Option (St × Int) :=
  let bps := o.bps d
  if total ≠ 0 ∧ bps ≠ 0 ∧ o.ignThink then
    let missed := bps * total % 2 ^ 64 / 1000000
    let bs := o.minBs d
    let usperop := bs * 1000000 % 2 ^ 64 / bps
    let over := if usperop ≤ total then bs
      else (usperop - total) / usperop * (2 ^ 64 - bs) % 2 ^ 64
    some ({ s with
        now := s.now + total
        bytes := upd s.bytes d ((s.bytes d + (missed + 2 ^ 64 - over % 2 ^ 64)) % 2 ^ 64)
        lastU := upd s.lastU d (s.lastU d + total) }, (missed : Int) - over)
  else some ({ s with now := s.now + total }, 0)

/-- One thing that happens to the job. -/
inductive Op where
  /-- time passes -/
  | tick (n : Nat)
  /-- the ramp period ends (libfio.c:82-101, 150-175): everything starts anew -/
  | reset
  /-- a new unit (fill_io_u): the mix proposes `d` -/
  | io (d : Dir) (e : Env) (tw : Dir) (len : Nat) (busy : Bool) (val : Nat)
  /-- a unit that is not asked for its direction: requeued or from the verification list
  (io_u.c:1937-1946) -/
  | again (d : Dir) (len : Nat) (busy : Bool) (val : Nat)
  /-- a read of the verification phase, do_verify (backend.c:621-800, ioengines.c:388-394) -/
  | verify (len : Nat)
  /-- think time -/
  | think (d : Dir) (total : Nat)

/-- One step; newest events first.  `none` is a division by zero. -/
def step (o : Opts) (st : St × List Ev) : Op → Option (St × List Ev)
  | .tick n => some ({ st.1 with now := st.1.now + n }, st.2)
  | .reset => some (init, [])
  | .io d e tw len busy val =>
    match rateDdir o st.1 d e with
    | (s, g) => match setDdir o g tw with
      | .timeout => some (s, st.2)
      | .dir d => match issue o s d len busy val with
        | none => none
        | some s' => some (s', .issue d (if busy then 0 else len) s.now true :: st.2)
  | .again d len busy val => match issue o st.1 d len busy val with
    | none => none
    | some s' => some (s', .issue d (if busy then 0 else len) st.1.now false :: st.2)
  | .verify len => some (charge st.1 .read len false, .quiet .read len :: st.2)
  | .think d total => match think o st.1 d total with
    | none => none
    | some (s', n) => some (s', .quiet d n :: st.2)

/-- A run. -/
def run (o : Opts) : St × List Ev → List Op → Option (St × List Ev)
  | st, [] => some st
  | st, op :: l => match step o st op with
    | none => none
    | some st => run o st l

/-! The minimal rate. -/

/-- What __check_min_rate keeps (fio.h:366-369). -/
structure Min where
  bytes : Nat
  blocks : Nat
  time : Nat
deriving DecidableEq, Repr

/-- __check_min_rate (backend.c:159-217): `start` and `now` in milliseconds, `b` and `k` are
`this_io_bytes` and `this_io_blocks`; the first part of the result is true if the job is to end. -/
def checkMin (rateMin iopsMin cycle start : Nat) (l : Min) (now b k : Nat) : Bool × Min :=
  if rateMin = 0 ∧ iopsMin = 0 then (false, l) else
  if now - start < 2000 then (false, l) else
  if l.bytes ≠ 0 ∨ l.blocks ≠ 0 then
    let spent := now - l.time
    if spent < cycle ∨ spent = 0 then (false, l) else
    if rateMin ≠ 0 then
      let r := (b + 2 ^ 64 - l.bytes) % 2 ^ 64 * 1000 % 2 ^ 64 / spent
      if r < rateMin then (true, l) else (false, ⟨b, k, now⟩)
    else
      let r := (k + 2 ^ 64 - l.blocks) % 2 ^ 64 * 1000 % 2 ^ 64 / spent
      if r < iopsMin then (true, l) else (false, ⟨b, k, now⟩)
  else (false, ⟨b, k, now⟩)

end Fio.Rate
