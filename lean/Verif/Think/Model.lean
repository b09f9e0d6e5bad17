/-!
# Thinking between I/Os (backend.c, libfio.c)

Times are numbers of microseconds.  Not modelled: `thinkcycles`, the directions (the counter is the sum over them), reading of
`comp_time`.  The clock, the spinning and the sleeping are an environment: what they return is given.
-/

namespace Fio.Think

/-- What a number is as a signed number of 32 bits. -/
def i32 (n : Nat) : Int := ((n + 2 ^ 31) % 2 ^ 32 : Nat) - 2 ^ 31

/-- What a signed number is as one of 64 bits without sign. -/
def u64 (z : Int) : Nat := (z % 2 ^ 64).toNat

/-- /repo/thread_options.h:330-334; `blocksSet`: the user gave thinktime_blocks; `rate`, `bs`: `rate_bps` and `min_bs` of the direction. -/
structure Opts where
  thinktime : Nat
  spin : Nat := 0
  blocks : Nat := 1
  blocksSet : Bool := false
  iotime : Nat := 0
  timeout : Nat := 0
  rateIgn : Bool := false
  rate : Nat := 0
  bs : Nat := 0
deriving DecidableEq, Repr

/-- `cnt` is the sum of the counter (I/Os issued or completed), `last` is `last_thinktime_blocks` (signed), `bytes` is
`rate_io_issue_bytes` of the direction. -/
structure St where
  cnt : Nat
  last : Int
  lastTime : Nat
  epoch : Nat
  bytes : Nat
  usec : Nat
deriving DecidableEq, Repr

/-- /repo/backend.c:904-912 `init_thinktime` -/
def init (epoch : Nat) : St := ⟨0, 0, epoch, epoch, 0, 0⟩

/-- /repo/libfio.c:82-107, 140-175 `reset_all_stats` at the time `now`. -/
def reset (s : St) (now : Nat) : St := ⟨0, s.last - s.cnt, now, now, 0, 0⟩

/-- What happens while waiting for the I/O in flight (/repo/backend.c:948 `io_u_quiesce`): I/Os are completed (and counted, with
thinktime_blocks_type=complete), and the ramp period may end there (/repo/io_u.c:2154, /repo/time.c:216). -/
inductive Act
  | done
  | ramp (now : Nat)
deriving DecidableEq, Repr

def act (s : St) : Act → St
  | .done => { s with cnt := s.cnt + 1 }
  | .ramp now => reset s now

/-- The clock when asked first, what happens while waiting, the time since the epoch before spinning and before sleeping, the times spun and
slept, and the clock at the end. -/
structure Env where
  now : Nat := 0
  acts : List Act := []
  t1 : Nat := 0
  spun : Nat := 0
  t2 : Nat := 0
  slept : Nat := 0
  stop : Nat := 0
deriving DecidableEq, Repr

/-- A pause: what it asked `usec_spin` and `usec_sleep` for (nothing: not called), and how long it took. -/
structure Pause where
  spin : Option Nat
  sleep : Option Nat
  total : Nat
deriving DecidableEq, Repr

/-- /repo/backend.c:924-946: whether it stops now. -/
def stalls (o : Opts) (s : St) (now : Nat) : Bool :=
  let byTime := decide (o.iotime ≠ 0 ∧ o.iotime ≤ now - s.lastTime)
  if o.iotime ≠ 0 ∧ !byTime ∧ !o.blocksSet then false
  else byTime || decide (u64 (s.last + o.blocks) ≤ s.cnt)

/-- /repo/backend.c:951-955, 972-976: not longer than the job has left. -/
def limit (o : Opts) (left : Int) (t : Nat) : Int :=
  if o.timeout ≠ 0 then
    let rest := u64 ((o.timeout : Int) - t)
    if rest < u64 left then i32 rest else left
  else left

/-- /repo/backend.c:950-979 -/
def pause (o : Opts) (e : Env) : Pause :=
  let left := limit o (i32 o.spin) e.t1
  let total := if left ≠ 0 then e.spun else 0
  let left' := limit o (if total < o.thinktime then i32 (o.thinktime - total) else 0) e.t2
  ⟨if left ≠ 0 then some (u64 left % 2 ^ 32) else none, if left' ≠ 0 then some (u64 left') else none, if left' ≠ 0 then total + e.slept else total⟩

/-- /repo/backend.c:986-1000 -/
def account (o : Opts) (s : St) (total : Nat) : St :=
  if total ≠ 0 ∧ o.rate ≠ 0 ∧ o.rateIgn then
    let missed : Nat := o.rate * total % 2 ^ 64 / 1000000
    let usperop : Nat := o.bs * 1000000 % 2 ^ 64 / o.rate
    let over : Nat := if usperop ≤ total then o.bs else u64 (((usperop - total) / usperop : Nat) * -(o.bs : Int))
    { s with bytes := u64 (s.bytes + (missed : Int) - over), usec := s.usec + total }
  else s

/-- /repo/backend.c:914-1009 `handle_thinktime` -/
def handle (o : Opts) (s : St) (e : Env) : St × Option Pause :=
  if stalls o s e.now then
    let b := s.cnt
    let s := e.acts.foldl act s
    let p := pause o e
    let s := account o s p.total
    ({ s with last := b, lastTime := if o.iotime ≠ 0 then e.stop else s.lastTime }, some p)
  else (s, none)

/-- I/Os one after the other, with thinktime_blocks_type=issue: each is counted and then the function is called; which of the calls paused. -/
def run (o : Opts) : St → List Env → List Bool
  | _, [] => []
  | s, e :: es =>
    let r := handle o { s with cnt := s.cnt + 1 } e
    r.2.isSome :: run o r.1 es

end Fio.Think
