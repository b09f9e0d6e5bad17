/-!
# The threads of `verify_async` (verify.c)

The job hands units read back to a list; threads take the whole list, verify its units and give them back.  Between two steps of
a thread any others may take theirs; what is done under `io_u_lock` is one step.  Units are numbered as they are handed over.
Whether the data of a unit is bad is an oracle.  Not modelled: affinity masks (but see `Start`), the failure of locks, and the
free list itself (property C48).
-/

namespace Fio.VAsync

/-- `bad u`: unit `u` does not verify; `go`: such an error is not fatal (`continue_on_error=verify`). -/
structure Cfg where
  bad : Nat → Bool
  go : Bool

/-- Where a thread is in `verify_async_thread` (/repo/verify.c:1517-1584). -/
inductive Pc
  /-- Before the test of `verify_thread_exit` (1533). -/
  | top
  /-- Holding the lock, before the test of the inner loop (1538). -/
  | check
  /-- Asleep (1540). -/
  | wait
  /-- With units of its own (1553); `ret`: the last one was bad. -/
  | busy (l : List Nat) (ret : Bool)
  /-- Before `done` (1577). -/
  | ending
  | ended
deriving DecidableEq, Repr

/-- The job. -/
inductive Main
  | running | exiting | done
deriving DecidableEq, Repr

/-- `list` is `verify_list`; `exit` is `verify_thread_exit`; `nr` is `nr_verify_threads`; `err`: `td->error` is set; `count`: errors
counted that are not fatal.  History: units handed over (`handed`, the numbers below), and verified and given back (`freed`). -/
structure St where
  list : List Nat
  ts : List Pc
  exit : Bool
  nr : Nat
  err : Bool
  count : Nat
  handed : Nat
  freed : List Nat
  main : Main
deriving DecidableEq, Repr

/-- /repo/verify.c:1586-1628 `verify_async_init`, all threads started. -/
def init (n : Nat) : St :=
  { list := [], ts := List.replicate n .top, exit := false, nr := n, err := false, count := 0, handed := 0, freed := [],
    main := .running }

/-- What can happen: the job hands over a unit, the signal wakes thread `w` if it sleeps; the job calls `verify_async_exit`; its loop
there goes on; a thread takes a step; a thread wakes up for no reason. -/
inductive Ev
  | hand (w : Nat)
  | exit
  | finish
  | thread (i : Nat)
  | spurious (i : Nat)
deriving DecidableEq, Repr

/-- Wake thread `w`. -/
def wake (ts : List Pc) (w : Nat) : List Pc := if ts[w]? = some .wait then ts.set w .check else ts

/-- `pthread_cond_signal`: wakes thread `w` if it sleeps, else some thread that does. -/
def signal (ts : List Pc) (w : Nat) : List Pc :=
  if ts[w]? = some .wait then ts.set w .check else wake ts (ts.findIdx (· = .wait))

/-- `pthread_cond_broadcast` -/
def broadcast (ts : List Pc) : List Pc := ts.map (fun t => if t = .wait then .check else t)

/-- /repo/verify.c:1553-1568, one unit of those the thread has; after the last, `while (!ret)` and /repo/verify.c:1569-1575. -/
def verifyOne (c : Cfg) (s : St) (i u : Nat) (l : List Nat) : St :=
  let ret := c.bad u
  let s := { s with freed := s.freed ++ [u] }
  let s := if ret ∧ c.go then { s with count := s.count + 1 } else s
  let ret := ret && !c.go
  match l with
  | [] => if ret then { s with ts := s.ts.set i .ending, err := true } else { s with ts := s.ts.set i .top }
  | v :: l => { s with ts := s.ts.set i (.busy (v :: l) ret) }

/-- One step of thread `i`, /repo/verify.c:1528-1584. -/
def tstep (c : Cfg) (s : St) (i : Nat) : St :=
  match s.ts[i]? with
  | some .top => if s.exit then { s with ts := s.ts.set i .ending } else { s with ts := s.ts.set i .check }
  | some .check =>
    if s.list = [] ∧ s.exit = false then { s with ts := s.ts.set i .wait }
    else if s.list = [] then { s with ts := s.ts.set i .top }
    else { s with list := [], ts := s.ts.set i (.busy s.list false) }
  | some (.busy (u :: l) _) => verifyOne c s i u l
  | some .ending => { s with ts := s.ts.set i .ended, nr := s.nr - 1 }
  | _ => s

/-- /repo/verify.c:1630-1642 `verify_async_exit`, /repo/verify.c:833-852 `verify_io_u_async` -/
def step (c : Cfg) (s : St) : Ev → St
  | .hand w =>
    if s.main = .running then
      { s with list := s.list ++ [s.handed], handed := s.handed + 1, ts := signal s.ts w }
    else s
  | .exit => if s.main = .running then { s with exit := true, ts := broadcast s.ts, main := .exiting } else s
  | .finish => if s.main = .exiting ∧ s.nr = 0 then { s with main := .done } else s
  | .thread i => tstep c s i
  | .spurious i => { s with ts := wake s.ts i }

/-- Any sequence of events. -/
def run (c : Cfg) (s : St) (es : List Ev) : St := es.foldl (step c) s

/-! ## Starting the threads -/

/-- The counter while threads are started, at /repo/verify.c:1611 (`nr_verify_threads++` without the lock, a load and a store) and
/repo/verify.c:1579 (`nr_verify_threads--` with the lock) by a thread that ends at once (its affinity cannot be set, 1523-1527). -/
structure Start where
  nr : Nat
  loaded : Option Nat
deriving DecidableEq, Repr

inductive SEv
  | load | store | ends
deriving DecidableEq, Repr

def startStep (s : Start) : SEv → Start
  | .load => { s with loaded := some s.nr }
  | .store => match s.loaded with | some n => ⟨(n + 1) % 2 ^ 32, none⟩ | none => s
  | .ends => { s with nr := (s.nr + 2 ^ 32 - 1) % 2 ^ 32 }

end Fio.VAsync
