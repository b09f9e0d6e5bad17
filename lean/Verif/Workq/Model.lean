/-
Model of /repo/workqueue.c: workqueue_init, start_worker, workqueue_enqueue (with get_submit_worker),
workqueue_flush, worker_thread (with handle_list) and workqueue_exit, for any number of workers.

Every access to the flags of a worker, to its list, to `next_free_worker` or `wake_idle`, every lock, unlock,
wait, signal and join is a step of the thread that makes it; the steps of the threads interleave arbitrarily.
Memory is sequentially consistent (get_submit_worker and all_sw_idle read flags without holding the mutex).
A condition variable may wake its waiter without a signal (`Act.spurious`).  The lists are Lean lists: a work
item must not be enqueued again before it was handled.  The callbacks are opaque: init_worker_fn and
pre_sleep_flush_fn return anything, `fn`, pre_sleep_fn and update_acct_fn come to an end and do not touch the
queue.  One thread calls workqueue_init, then workqueue_enqueue and workqueue_flush in any order, then
workqueue_exit ("Must be serialized by caller", workqueue.c:84, 99).
-/
namespace Fio.Workq

/-- A work item; struct workqueue_work, workqueue.h:13-15. -/
abbrev Work := Nat

/-- The threads: the caller and the workers. -/
inductive Tid where
  | main
  | wk (i : Nat)
  deriving DecidableEq, Repr

/-- Where a worker is in worker_thread, workqueue.c:129-213.  "holds" is about `sw->lock`. -/
inductive WPc where
  /-- pthread_create was not called yet -/
  | none
  /-- 149: wants `sw->lock` -/
  | initLock
  /-- 150-153: holds, sets SW_F_RUNNING -/
  | setRun
  /-- 155: wants `flush_lock` -/
  | startFlush
  /-- 156-157: has `flush_lock`, signals -/
  | startSig
  /-- 159 -/
  | chkErr
  /-- 162 or 206: wants `sw->lock` -/
  | lockTop
  /-- 164-170: holds -/
  | top
  /-- 171-172: in workqueue_pre_sleep, then wants `sw->lock` -/
  | preSleep
  /-- 179-184: holds -/
  | mid
  /-- 185: holds, sets `next_free_worker` -/
  | setNext
  /-- 186: holds -/
  | unlockIdle
  /-- 187: wants `flush_lock` -/
  | idleFlush
  /-- 188-190: has `flush_lock` -/
  | idleSig
  /-- 191: wants `sw->lock` -/
  | relock
  /-- 194-200: holds -/
  | bottom
  /-- 198: asleep in pthread_cond_wait -/
  | waiting
  /-- 198: woken, wants `sw->lock` -/
  | woken
  /-- 202: holds -/
  | unlockB
  /-- 203, 122-124 -/
  | handle
  /-- 125: in `ops.fn` -/
  | running (w : Work)
  /-- 204-205 -/
  | acct
  /-- 208: holds, after `break` -/
  | leave
  /-- 210-212: the thread is over -/
  | done
  deriving DecidableEq, Repr

/-- struct submit_worker, workqueue.h:17-28, with the flags of workqueue.c:15-21 and the local list of
worker_thread. -/
structure Wk where
  pc : WPc
  /-- the owner of `sw->lock` -/
  lock : Option Tid
  /-- `sw->work_list` -/
  queue : List Work
  /-- `local_list`, workqueue.c:134 -/
  loc : List Work
  /-- SW_F_IDLE -/
  idle : Bool
  /-- SW_F_RUNNING -/
  run : Bool
  /-- SW_F_EXIT -/
  exit : Bool
  /-- SW_F_ACCOUNTED -/
  accounted : Bool
  /-- SW_F_ERROR -/
  error : Bool
  seq : Nat
  deriving DecidableEq, Repr

/-- What the caller does between workqueue_init and workqueue_exit. -/
inductive Op where
  | enqueue (w : Work)
  | flush
  deriving DecidableEq, Repr

/-- Where the calling thread is. -/
inductive MPc where
  /-- 333-334: worker `i` is next -/
  | start (i : Nat)
  /-- 298: worker `i` was created, wants its lock -/
  | startLock (i : Nat)
  /-- 299-300: holds the lock of `i` -/
  | startSet (i : Nat)
  /-- 345: wants `flush_lock` -/
  | initFlush
  /-- 350-352: has `flush_lock`, wants the lock of `i` -/
  | initScan (i running error : Nat)
  /-- 353-357: holds the lock of `i` -/
  | initHold (i running error : Nat)
  /-- 360 -/
  | initChk (running error : Nat)
  /-- 363: asleep -/
  | initWait (error : Nat)
  /-- 363: woken, wants `flush_lock` -/
  | initWoken (error : Nat)
  /-- 365-368 -/
  | initUnlock (error : Nat)
  /-- the caller, before its next call -/
  | next
  /-- 30-37 called at 49: worker `i` is next -/
  | scan1 (w : Work) (i nxt : Nat) (best : Option Nat)
  /-- 30-37 called at 51 -/
  | scan2 (w : Work) (i nxt : Nat) (best : Option Nat)
  /-- 59: the worker is chosen -/
  | pick (w : Work) (sw : Option Nat)
  /-- 60-63 -/
  | pickSet (w : Work) (i : Nat)
  /-- 108 -/
  | enqLock (w : Work) (i : Nat)
  /-- 109: holds the lock of `i`, as in the next four -/
  | enqAdd (w : Work) (i : Nat)
  /-- 110 -/
  | enqSeq (i : Nat)
  /-- 111 -/
  | enqIdle (i : Nat)
  /-- 113 -/
  | enqSig (i : Nat)
  /-- 114 -/
  | enqUnlock (i : Nat)
  /-- 88: wants `flush_lock` -/
  | flLock
  /-- 89: has `flush_lock` -/
  | flSet
  /-- 73-78 called at 91: worker `i` is next -/
  | flScan (i : Nat)
  /-- 92: asleep -/
  | flWait
  /-- 92: woken, wants `flush_lock` -/
  | flWoken
  /-- 94 -/
  | flClear
  /-- 95 -/
  | flUnlock
  /-- 243-246: wants the lock of `i` -/
  | exLock (i : Nat)
  /-- 247: holds the lock of `i`, as in the next two -/
  | exSet (i : Nat)
  /-- 248 -/
  | exSig (i : Nat)
  /-- 249 -/
  | exUnlock (i : Nat)
  /-- 254-257; `cnt` is `shutdown` -/
  | shScan (i cnt : Nat)
  /-- 258: wants the lock of `i` -/
  | shLock (i cnt : Nat)
  /-- 259-260: holds it -/
  | shSet (i cnt : Nat)
  /-- 261, 230: pthread_join -/
  | shJoin (i cnt : Nat)
  /-- 264 -/
  | shEnd (cnt : Nat)
  /-- workqueue_exit returned -/
  | fin
  /-- an assertion failed (47, 106) or NULL was dereferenced (59) -/
  | crashed
  deriving DecidableEq, Repr

/-- What can be seen from outside. -/
inductive Ev where
  /-- the item was put on the list of worker `i` (109) -/
  | enq (w : Work) (i : Nat)
  /-- worker `i` calls `fn` on it (125) -/
  | begin (w : Work) (i : Nat)
  /-- `fn` returned (125) -/
  | finish (w : Work) (i : Nat)
  /-- workqueue_init returned 0 -/
  | initOk
  /-- workqueue_init is about to fail (371) -/
  | initFail
  /-- workqueue_flush returned -/
  | flushRet
  /-- workqueue_exit returned -/
  | exitRet
  deriving DecidableEq, Repr

/-- The whole state; struct workqueue, workqueue.h:56-71. -/
structure St where
  w : Nat → Wk
  pc : MPc
  prog : List Op
  maxw : Nat
  nfw : Nat
  workSeq : Nat
  /-- the owner of `flush_lock` -/
  flock : Option Tid
  wakeIdle : Bool
  trace : List Ev

/-- Write worker `i`. -/
def upd (f : Nat → Wk) (i : Nat) (x : Wk) : Nat → Wk := fun j => if j = i then x else f j

/-- `s` with worker `i` replaced. -/
def setW (s : St) (i : Nat) (x : Wk) : St := { s with w := upd s.w i x }

/-- `s` with the caller elsewhere. -/
def setPc (s : St) (p : MPc) : St := { s with pc := p }

/-- `s` with one more event. -/
def emit (s : St) (e : Ev) : St := { s with trace := s.trace ++ [e] }

/-- A worker as smalloc (smalloc.c:520, zeroed) and start_worker lines 279-288 leave it. -/
def Wk.fresh : Wk :=
  { pc := .none, lock := Option.none, queue := [], loc := [], idle := false, run := false, exit := false,
    accounted := false, error := false, seq := 0 }

/-- workqueue_init is called with `max_workers = n`, workqueue.c:316-331. -/
def init (n : Nat) (prog : List Op) : St :=
  { w := fun _ => Wk.fresh, pc := .start 0, prog := prog, maxw := n, nfw := 0, workSeq := 0,
    flock := none, wakeIdle := false, trace := [] }

/-- pthread_cond_signal(&wq->flush_cond): only the caller ever waits there (92, 363). -/
def wakeMain : MPc → MPc
  | .initWait e => .initWoken e
  | .flWait => .flWoken
  | p => p

/-- pthread_cond_signal(&sw->cond): only the worker itself ever waits there (198). -/
def wakeWk : WPc → WPc
  | .waiting => .woken
  | p => p

/-- One step of worker `i`; `c` is what a callback answers.  worker_thread, workqueue.c:129-213. -/
def wstep (s : St) (i : Nat) (c : Bool) : Option St :=
  let x := s.w i
  match x.pc with
  | .none => none
  | .initLock => match x.lock with
    | none => some (setW s i { x with lock := some (.wk i), pc := .setRun })
    | some _ => none
  | .setRun => some (setW s i { x with run := true, error := x.error || c, lock := none, pc := .startFlush })
  | .startFlush => match s.flock with
    | none => some { setW s i { x with pc := .startSig } with flock := some (.wk i) }
    | some _ => none
  | .startSig => some { setW s i { x with pc := .chkErr } with flock := none, pc := wakeMain s.pc }
  | .chkErr => some (setW s i { x with pc := if x.error then .done else .lockTop })
  | .lockTop => match x.lock with
    | none => some (setW s i { x with lock := some (.wk i), pc := .top })
    | some _ => none
  | .top =>
    if x.queue = [] then
      if x.exit then some (setW s i { x with pc := .leave })
      else if c then some (setW s i { x with lock := none, pc := .preSleep })
      else some (setW s i { x with pc := .mid })
    else some (setW s i { x with pc := .mid })
  | .preSleep => match x.lock with
    | none => some (setW s i { x with lock := some (.wk i), pc := .mid })
    | some _ => none
  | .mid =>
    if x.queue = [] then
      if x.exit then some (setW s i { x with pc := .leave })
      else if x.idle then some (setW s i { x with pc := .bottom })
      else some (setW s i { x with idle := true, pc := .setNext })
    else some (setW s i { x with pc := .bottom })
  | .setNext => some { setW s i { x with pc := .unlockIdle } with nfw := i }
  | .unlockIdle => some (setW s i { x with lock := none, pc := .idleFlush })
  | .idleFlush => match s.flock with
    | none => some { setW s i { x with pc := .idleSig } with flock := some (.wk i) }
    | some _ => none
  | .idleSig => some { setW s i { x with pc := .relock } with
      flock := none, pc := if s.wakeIdle then wakeMain s.pc else s.pc }
  | .relock => match x.lock with
    | none => some (setW s i { x with lock := some (.wk i), pc := .bottom })
    | some _ => none
  | .bottom =>
    if x.queue = [] then
      if x.exit then some (setW s i { x with pc := .leave })
      else some (setW s i { x with lock := none, pc := .waiting })
    else some (setW s i { x with loc := x.loc ++ x.queue, queue := [], pc := .unlockB })
  | .waiting => none
  | .woken => match x.lock with
    | none => some (setW s i { x with lock := some (.wk i), pc := .unlockB })
    | some _ => none
  | .unlockB => some (setW s i { x with lock := none, pc := .handle })
  | .handle => match x.loc with
    | [] => some (setW s i { x with pc := .acct })
    | w :: rest => some (emit (setW s i { x with loc := rest, pc := .running w }) (.begin w i))
  | .running w => some (emit (setW s i { x with pc := .handle }) (.finish w i))
  | .acct => some (setW s i { x with pc := .lockTop })
  | .leave => some (setW s i { x with lock := none, pc := .done })
  | .done => none

/-- The comparison of __get_submit_worker, workqueue.c:34-35. -/
def better (s : St) (i : Nat) (best : Option Nat) : Option Nat :=
  match best with
  | none => some i
  | some b => if (s.w i).seq < (s.w b).seq then some i else some b

/-- One step of the caller; `c` is whether start_worker succeeds.  workqueue_init, workqueue_enqueue,
workqueue_flush and workqueue_exit, workqueue.c:42-115, 228-375. -/
def mstep (s : St) (c : Bool) : Option St :=
  match s.pc with
  | .start i =>
    if i < s.maxw then
      if c then some (setPc (setW s i { s.w i with pc := .initLock }) (.startLock i))
      else some (if i = 0 then emit { s with maxw := i, pc := .exLock 0 } .initFail
                 else { s with maxw := i, pc := .initFlush })
    else some (if i = 0 then emit { s with maxw := i, pc := .exLock 0 } .initFail
               else { s with maxw := i, pc := .initFlush })
  | .startLock i => match (s.w i).lock with
    | none => some (setPc (setW s i { s.w i with lock := some .main }) (.startSet i))
    | some _ => none
  | .startSet i => some (setPc (setW s i { s.w i with idle := true, lock := none }) (.start (i + 1)))
  | .initFlush => match s.flock with
    | none => some { s with flock := some .main, pc := .initScan 0 0 0 }
    | some _ => none
  | .initScan i r e =>
    if i < s.maxw then
      match (s.w i).lock with
      | none => some (setPc (setW s i { s.w i with lock := some .main }) (.initHold i r e))
      | some _ => none
    else some (setPc s (.initChk r e))
  | .initHold i r e =>
    let r' := if (s.w i).run then r + 1 else r
    let e' := if (s.w i).error then e + 1 else e
    some (setPc (setW s i { s.w i with lock := none }) (.initScan (i + 1) r' e'))
  | .initChk r e =>
    if e ≠ 0 ∨ r = s.maxw then some (setPc s (.initUnlock e))
    else some { s with flock := none, pc := .initWait e }
  | .initWait _ => none
  | .initWoken e => match s.flock with
    | none => some { s with flock := some .main, pc := .initScan 0 0 e }
    | some _ => none
  | .initUnlock e =>
    if e = 0 then some (emit { s with flock := none, pc := .next } .initOk)
    else some (emit { s with flock := none, pc := .exLock 0 } .initFail)
  | .next => match s.prog with
    | .enqueue w :: rest =>
      if s.nfw < s.maxw then some { s with prog := rest, pc := .scan1 w s.nfw s.nfw none }
      else some (setPc s .crashed)
    | .flush :: rest => some { s with prog := rest, pc := .flLock }
    | [] => some (setPc s (.exLock 0))
  | .scan1 w i nxt best =>
    if i ≤ s.maxw - 1 then
      if (s.w i).idle then some (setPc s (.pick w (some i)))
      else some (setPc s (.scan1 w (i + 1) nxt (better s i best)))
    else if nxt ≠ 0 then some (setPc s (.scan2 w 0 nxt best))
    else some (setPc s (.pick w best))
  | .scan2 w i nxt best =>
    if i ≤ nxt - 1 then
      if (s.w i).idle then some (setPc s (.pick w (some i)))
      else some (setPc s (.scan2 w (i + 1) nxt (better s i best)))
    else some (setPc s (.pick w best))
  | .pick w sw => match sw with
    | none => some (setPc s .crashed)
    | some i => some (setPc s (if i = s.nfw then .pickSet w i else .enqLock w i))
  | .pickSet w i => some { s with nfw := if i + 1 < s.maxw then i + 1 else 0, pc := .enqLock w i }
  | .enqLock w i => match (s.w i).lock with
    | none => some (setPc (setW s i { s.w i with lock := some .main }) (.enqAdd w i))
    | some _ => none
  | .enqAdd w i =>
    some (emit (setPc (setW s i { s.w i with queue := (s.w i).queue ++ [w] }) (.enqSeq i)) (.enq w i))
  | .enqSeq i =>
    let q := (s.workSeq + 1) % 2 ^ 64
    some { setW s i { s.w i with seq := q } with workSeq := q, pc := .enqIdle i }
  | .enqIdle i => some (setPc (setW s i { s.w i with idle := false }) (.enqSig i))
  | .enqSig i => some (setPc (setW s i { s.w i with pc := wakeWk (s.w i).pc }) (.enqUnlock i))
  | .enqUnlock i => some (setPc (setW s i { s.w i with lock := none }) .next)
  | .flLock => match s.flock with
    | none => some { s with flock := some .main, pc := .flSet }
    | some _ => none
  | .flSet => some { s with wakeIdle := true, pc := .flScan 0 }
  | .flScan i =>
    if i < s.maxw then
      if (s.w i).idle then some (setPc s (.flScan (i + 1)))
      else some { s with flock := none, pc := .flWait }
    else some (setPc s .flClear)
  | .flWait => none
  | .flWoken => match s.flock with
    | none => some { s with flock := some .main, pc := .flScan 0 }
    | some _ => none
  | .flClear => some { s with wakeIdle := false, pc := .flUnlock }
  | .flUnlock => some (emit { s with flock := none, pc := .next } .flushRet)
  | .exLock i =>
    if i < s.maxw then
      match (s.w i).lock with
      | none => some (setPc (setW s i { s.w i with lock := some .main }) (.exSet i))
      | some _ => none
    else some (setPc s (.shScan 0 0))
  | .exSet i => some (setPc (setW s i { s.w i with exit := true }) (.exSig i))
  | .exSig i => some (setPc (setW s i { s.w i with pc := wakeWk (s.w i).pc }) (.exUnlock i))
  | .exUnlock i => some (setPc (setW s i { s.w i with lock := none }) (.exLock (i + 1)))
  | .shScan i cnt =>
    if i < s.maxw then
      if (s.w i).accounted then some (setPc s (.shScan (i + 1) cnt))
      else some (setPc s (.shLock i cnt))
    else some (setPc s (.shEnd cnt))
  | .shLock i cnt => match (s.w i).lock with
    | none => some (setPc (setW s i { s.w i with lock := some .main }) (.shSet i cnt))
    | some _ => none
  | .shSet i cnt => some (setPc (setW s i { s.w i with accounted := true, lock := none }) (.shJoin i cnt))
  | .shJoin i cnt =>
    if (s.w i).pc = .done then some (setPc s (.shScan (i + 1) (cnt + 1))) else none
  | .shEnd cnt =>
    if cnt ≠ 0 ∧ cnt ≠ s.maxw then some (setPc s (.shScan 0 0))
    else some (emit (setPc s .fin) .exitRet)
  | .fin => none
  | .crashed => none

/-- A step of the system: a thread runs (with the answer of a callback), or a waiting thread wakes up
without a signal. -/
inductive Act where
  | run (t : Tid) (c : Bool)
  | spurious (t : Tid)
  deriving DecidableEq, Repr

/-- The step `a`, if it is possible. -/
def step (s : St) : Act → Option St
  | .run .main c => mstep s c
  | .run (.wk i) c => wstep s i c
  | .spurious .main =>
    if wakeMain s.pc = s.pc then none else some (setPc s (wakeMain s.pc))
  | .spurious (.wk i) =>
    if (s.w i).pc = .waiting then some (setW s i { s.w i with pc := .woken }) else none

/-- Several steps. -/
def exec (s : St) : List Act → Option St
  | [] => some s
  | a :: as => (step s a).bind (exec · as)

end Fio.Workq
