/-
The semaphores of fio_sem.c.

Everything but the wait for the condition happens under `sem->lock`, so that a call is a step, or, if it has to
wait, a step up to the wait and one after each wake-up.  Which of the threads is woken by a signal is up to the
environment, and so are spurious wake-ups and the expiry of timeouts.  The `int`s do not overflow: fio has far
less than 2^31 threads.  Initialization and removal (fio_sem.c:17-70) are not modelled.
-/
namespace Fio.Sem

/-- A thread that is in pthread_cond_wait (`timed = false`, fio_sem.c:155) or pthread_cond_timedwait
(`timed = true`, fio_sem.c:113). -/
structure Sleeper where
  tid : Nat
  timed : Bool
deriving DecidableEq, Repr

/-- A thread whose wait has ended but that has not run since; `expired`: the wait returned ETIMEDOUT and
sem_timed_out agreed (fio_sem.c:114-115). -/
structure Woken where
  tid : Nat
  timed : Bool
  expired : Bool
deriving DecidableEq, Repr

/-- struct fio_sem (fio_sem.h:9-15): `value`, `waiters`; `asleep` and `woken`: the threads in the wait.  The rest is
for the specification: `holders`, the threads whose down succeeded, once for each call, `given`, the number
of ups, `taken`, that of successful downs, `gaveUp`, those whose timed down has returned ETIMEDOUT. -/
structure St where
  value : Nat
  waiters : Nat
  asleep : List Sleeper
  woken : List Woken
  holders : List Nat
  given : Nat
  taken : Nat
  gaveUp : List Nat
deriving DecidableEq, Repr

/-- __fio_sem_init (fio_sem.c:39-53). -/
def init (v : Nat) : St := ⟨v, 0, [], [], [], 0, 0, []⟩

/-- What happens: a thread calls fio_sem_down, fio_sem_down_timeout, fio_sem_down_trylock or fio_sem_up (`w`: the
thread woken by the signal, if any), a wait ends spuriously or expires, a woken thread runs. -/
inductive Act where
  | down (t : Nat)
  | timed (t : Nat)
  | try (t : Nat)
  | up (t : Nat) (w : Option Nat)
  | spurious (t : Nat)
  | expire (t : Nat)
  | run (t : Nat)
deriving DecidableEq, Repr

/-- Is the thread in a call? -/
def busy (s : St) (t : Nat) : Bool :=
  s.asleep.any (fun x => x.tid == t) || s.woken.any (fun x => x.tid == t)

/-- The loop of fio_sem_down (fio_sem.c:153-160) and fio_sem_down_timeout (fio_sem.c:107-124, ret being 0) up to the
next wait: the latter counts the thread as a waiter before the loop and not after it, the former around the
wait, which is the same whenever the lock is free. -/
def tryTake (s : St) (t : Nat) (timed : Bool) : St :=
  if s.value = 0 then { s with waiters := s.waiters + 1, asleep := ⟨t, timed⟩ :: s.asleep }
  else { s with value := s.value - 1, holders := t :: s.holders, taken := s.taken + 1 }

/-- pthread_cond_signal: a thread leaves the wait. -/
def wake (s : St) (t : Nat) (expired : Bool) : Option St :=
  match s.asleep.find? (fun x => x.tid == t) with
  | none => none
  | some x => some { s with asleep := s.asleep.erase x, woken := ⟨x.tid, x.timed, expired⟩ :: s.woken }

/-- fio_sem_up (fio_sem.c:163-179). -/
def up (s : St) (t : Nat) (w : Option Nat) : Option St :=
  let doWake := s.value = 0 ∧ s.waiters ≠ 0
  let s := { s with value := s.value + 1, given := s.given + 1, holders := s.holders.erase t }
  if doWake then
    match w with
    | some u => wake s u false
    | none => if s.asleep = [] then some s else none
  else
    match w with
    | some _ => none
    | none => some s

/-- A step; `none`: not possible in this state. -/
def step (s : St) : Act → Option St
  | .down t => if busy s t then none else some (tryTake s t false)
  | .timed t => if busy s t then none else some (tryTake s t true)
  | .try t =>                                             -- fio_sem.c:131-145
    if busy s t then none
    else if s.value ≠ 0 then some { s with value := s.value - 1, holders := t :: s.holders, taken := s.taken + 1 }
    else some s
  | .up t w => if busy s t then none else up s t w
  | .spurious t => wake s t false
  | .expire t => if s.asleep.any (fun x => x.tid == t && x.timed) then wake s t true else none
  | .run t =>
    match s.woken.find? (fun x => x.tid == t) with
    | none => none
    | some x =>
      let s := { s with woken := s.woken.erase x, waiters := s.waiters - 1 }
      if x.expired then some { s with gaveUp := t :: s.gaveUp }   -- fio_sem.c:118, 126-127
      else some (tryTake s t x.timed)

/-- A history. -/
def run (s : St) : List Act → Option St
  | [] => some s
  | a :: l => match step s a with
    | none => none
    | some s => run s l

end Fio.Sem
