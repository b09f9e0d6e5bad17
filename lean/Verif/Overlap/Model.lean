/-
Model of serialize_overlap: in_flight_overlap and io_u_submit of /repo/backend.c, check_overlap and
io_workqueue_fn of /repo/rate-submit.c, and the part of td_io_queue in /repo/ioengines.c that sets
IO_U_F_FLIGHT and releases `overlap_check`.

Every access to a flag of an io_u, to a run state or to the mutex is one step of the thread that makes it;
the steps of different threads interleave arbitrarily.  The mutex is of the error checking kind
(backend.c:75-76): unlocking it without holding it is an error, upon which fio aborts
(ioengines.c:355-359).  Only reads, writes and trims are meant by I/O; offsets and lengths are natural
numbers below 2^64.
-/
namespace Fio.Overlap

/-- The run states of a job, fio.h:721-736. -/
inductive Run where
  | notCreated | created | initialized | ramp | settingUp | running | preReading | verifying
  | fsyncing | finishing | exited | reaped
  deriving DecidableEq

/-- The value of the enum. -/
def Run.num : Run → Nat
  | .notCreated => 0 | .created => 1 | .initialized => 2 | .ramp => 3 | .settingUp => 4 | .running => 5
  | .preReading => 6 | .verifying => 7 | .fsyncing => 8 | .finishing => 9 | .exited => 10 | .reaped => 11

/-- The fields of struct io_u that matter, and what the engine is doing with it. -/
structure Iou where
  off : Nat
  buflen : Nat
  xferBuflen : Nat
  /-- IO_U_F_FLIGHT -/
  flight : Bool
  /-- the range (offset, length) the engine works on, from the call of `queue` until the I/O is over -/
  dev : Option (Nat × Nat)
  deriving DecidableEq

/-- The test of in_flight_overlap, backend.c:584-591: does io_u `x` have to wait for `y`? -/
def conflict (x y : Iou) : Bool :=
  y.flight && decide (x.off < (y.off + y.buflen) % 2 ^ 64) && decide (y.off < (x.off + x.buflen) % 2 ^ 64)

/-- What does not change: `nj` jobs, `nu` io_us of all jobs together, `nw` threads (workers and main
threads). -/
structure Cfg where
  nj : Nat
  nu : Nat
  nw : Nat
  /-- the job in whose `io_u_all` the io_u is -/
  owner : Nat → Nat
  /-- `o.serialize_overlap` with `o.io_submit_mode == IO_MODE_OFFLOAD` (td_offload_overlap, fio.h:906-909);
  the jobs of this part are all in offload mode -/
  ser : Nat → Bool

/-- Where a thread is. -/
inductive Pc where
  | idle
  /-- io_workqueue_fn has an io_u and waits for the mutex, rate-submit.c:32 or 54 -/
  | want (u : Nat)
  /-- in the loop of check_overlap, rate-submit.c:39-60, holding the mutex: job `j` is next, of the job
  before it the io_us `rest` are still to be looked at -/
  | scan (u j : Nat) (rest : List Nat)
  /-- about to call td_io_queue, rate-submit.c:81 -/
  | queue (u : Nat)
  /-- in td_io_queue, `queue` of the engine was called, ioengines.c:395 -/
  | engine (u : Nat)
  /-- the main thread of the job holds the mutex to finish the job, backend.c:2314 -/
  | finish (j : Nat)
  deriving DecidableEq

/-- The io_u a thread works on. -/
def Pc.on : Pc → Option Nat
  | .idle => none
  | .want u => some u
  | .scan u _ _ => some u
  | .queue u => some u
  | .engine u => some u
  | .finish _ => none

structure St where
  run : Nat → Run
  iou : Nat → Iou
  /-- the thread that holds `overlap_check` -/
  lock : Option Nat
  pc : Nat → Pc

def upd {α : Type} (f : Nat → α) (i : Nat) (x : α) : Nat → α := fun k => if k = i then x else f k

/-- The outcome of a step. -/
inductive Res where
  /-- the thread is not at this point of the program, or has to wait -/
  | disabled
  /-- an assertion fails, or the mutex is unlocked by a thread that does not hold it -/
  | abort
  | ok (s : St)

/-- The skipped jobs of the loop in check_overlap, rate-submit.c:40-44. -/
def skipped (c : Cfg) (s : St) (j : Nat) : Bool :=
  decide ((s.run j).num ≤ Run.settingUp.num) || decide ((s.run j).num ≥ Run.finishing.num) || !c.ser j

/-- `io_u_all` of a job. -/
def ious (c : Cfg) (j : Nat) : List Nat := (List.range c.nu).filter fun u => c.owner u == j

inductive Act where
  /-- thread `w` takes up io_u `u`, which has been filled with an offset and lengths -/
  | start (w u off len xfer : Nat)
  /-- the io_u that was requeued after a short transfer is taken up again -/
  | restart (w u : Nat)
  | lock (w : Nat)
  | scan (w : Nat)
  | queue (w : Nat)
  | engine (w : Nat) (busy : Bool)
  /-- the I/O of `u` is over -/
  | done (u : Nat)
  /-- a short transfer of `k` bytes -/
  | short (u k : Nat)
  | clear (u : Nat)
  /-- the job changes its run state -/
  | setRun (j : Nat) (r : Run)
  | finLock (w j : Nat)
  | finSet (w : Nat)
  /-- the main thread calls td_io_queue itself: fio_io_sync (backend.c:254) or do_verify (backend.c:780) -/
  | main (w u off len xfer : Nat)

/-- An io_u can be taken up if no thread works on it and it is not in flight (it comes from the free list
or the list of requeued ones). -/
def free (c : Cfg) (s : St) (u : Nat) : Bool :=
  decide (u < c.nu) && !(s.iou u).flight && decide ((s.iou u).dev = none) &&
    (List.range c.nw).all fun w => decide ((s.pc w).on ≠ some u)

/-- rate-submit.c:71-72. -/
def first (c : Cfg) (u : Nat) : Pc := if c.ser (c.owner u) then .want u else .queue u

/-- The end of the loop in check_overlap and one round of it, rate-submit.c:39-60 with
backend.c:586-598. -/
def stepScan (c : Cfg) (s : St) (w : Nat) : Res :=
  match s.pc w with
  | .scan u j [] =>
    if j < c.nj then
      .ok { s with pc := upd s.pc w (.scan u (j + 1) (if skipped c s j then [] else ious c j)) }
    else .ok { s with pc := upd s.pc w (.queue u) }
  | .scan u j (v :: rest) =>
    if conflict (s.iou u) (s.iou v) then
      .ok { s with lock := none, pc := upd s.pc w (.want u) }
    else .ok { s with pc := upd s.pc w (.scan u j rest) }
  | _ => .disabled

/-- td_io_queue up to the call of the engine, ioengines.c:343-395, by thread `w`. -/
def tdQueue (c : Cfg) (s : St) (w u : Nat) : Res :=
  if (s.iou u).flight then .abort
  else
    let x := s.iou u
    let s1 : St := { s with
      iou := upd s.iou u { x with flight := true, dev := some (x.off, x.xferBuflen) }
      pc := upd s.pc w (.engine u) }
    if c.ser (c.owner u) then
      if s.lock = some w then .ok { s1 with lock := none } else .abort
    else .ok s1

def step (c : Cfg) (s : St) : Act → Res
  | .start w u off len xfer =>
    if w < c.nw ∧ s.pc w = .idle ∧ free c s u = true ∧ xfer ≤ len ∧ off + len < 2 ^ 64 then
      .ok { s with
        iou := upd s.iou u ⟨off, len, xfer, false, none⟩
        pc := upd s.pc w (first c u) }
    else .disabled
  | .restart w u =>
    if w < c.nw ∧ s.pc w = .idle ∧ free c s u = true ∧ (s.iou u).off + (s.iou u).buflen < 2 ^ 64 ∧
        (s.iou u).xferBuflen ≤ (s.iou u).buflen then
      .ok { s with pc := upd s.pc w (first c u) }
    else .disabled
  | .lock w =>
    match s.pc w, s.lock with
    | .want u, none => .ok { s with lock := some w, pc := upd s.pc w (.scan u 0 []) }
    | _, _ => .disabled
  | .scan w => stepScan c s w
  | .queue w =>
    match s.pc w with
    | .queue u => tdQueue c s w u
    | _ => .disabled
  -- the return of td_io_queue; FIO_Q_BUSY clears the flag (ioengines.c:407) and io_workqueue_fn calls
  -- td_io_queue again (rate-submit.c:80-90)
  | .engine w busy =>
    match s.pc w with
    | .engine u =>
      if busy then
        .ok { s with
          iou := upd s.iou u { s.iou u with flight := false, dev := none }
          pc := upd s.pc w (.queue u) }
      else .ok { s with pc := upd s.pc w .idle }
    | _ => .disabled
  -- io_completed, io_u.c:2167-2168, or clear_io_u for an error, backend.c:461
  | .done u =>
    if (s.iou u).dev ≠ none ∧ (List.range c.nw).all (fun w => decide ((s.pc w).on ≠ some u)) = true then
      .ok { s with iou := upd s.iou u { s.iou u with flight := false, dev := none } }
    else .disabled
  -- backend.c:483-485: offset and xfer_buflen move on, buflen does not
  | .short u k =>
    if (s.iou u).dev ≠ none ∧ k ≤ (s.iou u).xferBuflen ∧
        (List.range c.nw).all (fun w => decide ((s.pc w).on ≠ some u)) = true then
      let x := s.iou u
      let x : Iou := { x with off := x.off + k, xferBuflen := x.xferBuflen - k, dev := none }
      .ok { s with iou := upd s.iou u x }
    else .disabled
  -- requeue_io_u, io_u.c:961
  | .clear u =>
    if (s.iou u).dev = none ∧ (List.range c.nw).all (fun w => decide ((s.pc w).on ≠ some u)) = true then
      .ok { s with iou := upd s.iou u { s.iou u with flight := false } }
    else .disabled
  | .setRun j r => .ok { s with run := upd s.run j r }
  | .finLock w j =>
    if w < c.nw ∧ s.pc w = .idle ∧ s.lock = none then
      .ok { s with lock := some w, pc := upd s.pc w (.finish j) }
    else .disabled
  -- backend.c:2320-2324
  | .finSet w =>
    match s.pc w with
    | .finish j => .ok { s with run := upd s.run j .finishing, lock := none, pc := upd s.pc w .idle }
    | _ => .disabled
  | .main w u off len xfer =>
    if w < c.nw ∧ s.pc w = .idle ∧ free c s u = true ∧ xfer ≤ len ∧ off + len < 2 ^ 64 then
      tdQueue c { s with iou := upd s.iou u ⟨off, len, xfer, false, none⟩ } w u
    else .disabled

/-- A run: a list of steps; steps that are not possible are skipped.  `none`: fio aborts. -/
def run (c : Cfg) (s : St) : List Act → Option St
  | [] => some s
  | a :: as =>
    match step c s a with
    | .disabled => run c s as
    | .abort => none
    | .ok s => run c s as

/-! ## Without offload -/

/-- struct io_u and its flags in a job that submits itself. -/
structure Unit1 where
  io : Iou
  /-- taken by __get_io_u and not yet given back: not IO_U_F_FREE, and counted in `cur_depth`
  (io_u.c:1793-1795, 919-920, 962-963) -/
  taken : Bool
  deriving DecidableEq

/-- A job that submits its I/O itself: its io_us and `cur_depth`.  verify_async is not modelled. -/
structure Job1 where
  us : List Unit1
  depth : Nat
  deriving DecidableEq

/-- in_flight_overlap, backend.c:576-602. -/
def inFlightOverlap (us : List Unit1) (x : Iou) : Bool := us.any fun y => conflict x y.io

inductive Act1 where
  /-- __get_io_u (io_u.c:1757-1812) and filling it -/
  | get (u off len xfer : Nat)
  /-- __get_io_u of a requeued io_u, io_u.c:1769-1775 -/
  | reget (u : Nat)
  /-- put_io_u (io_u.c:900-927) or requeue_io_u (io_u.c:944-971) of an io_u that is not in flight -/
  | put (u : Nat)
  /-- io_u_submit; `busy` is what the engine says -/
  | submit (u : Nat) (busy : Bool)
  /-- the I/O is over: io_completed and put_io_u -/
  | done (u : Nat)
  /-- a short transfer and requeue_io_u, backend.c:483-492 -/
  | short (u k : Nat)

/-- One step of the job; `none` if it is not possible (or the assertion of td_io_queue fails). -/
def step1 (s : Job1) : Act1 → Option Job1
  | .get u off len xfer => do
    let y ← s.us[u]?
    if y.taken = false ∧ xfer ≤ len ∧ off + len < 2 ^ 64 then
      some { us := s.us.set u ⟨⟨off, len, xfer, false, none⟩, true⟩, depth := s.depth + 1 }
    else none
  | .reget u => do
    let y ← s.us[u]?
    if y.taken = false ∧ y.io.off + y.io.buflen < 2 ^ 64 ∧ y.io.xferBuflen ≤ y.io.buflen then
      some { us := s.us.set u { y with taken := true }, depth := s.depth + 1 }
    else none
  | .put u => do
    let y ← s.us[u]?
    if y.taken = true ∧ y.io.dev = none then
      some { us := s.us.set u { y with taken := false }, depth := s.depth - 1 }
    else none
  | .submit u busy => do
    let y ← s.us[u]?
    if y.taken = true ∧ y.io.flight = false then
      if 1 < s.depth ∧ inFlightOverlap s.us y.io = true then some s
      else if busy then some s
      else
        let x : Iou := { y.io with flight := true, dev := some (y.io.off, y.io.xferBuflen) }
        some { s with us := s.us.set u { y with io := x } }
    else none
  | .done u => do
    let y ← s.us[u]?
    if y.taken = true ∧ y.io.dev ≠ none then
      some { us := s.us.set u ⟨{ y.io with flight := false, dev := none }, false⟩, depth := s.depth - 1 }
    else none
  | .short u k => do
    let y ← s.us[u]?
    if y.taken = true ∧ y.io.dev ≠ none ∧ k ≤ y.io.xferBuflen then
      let x : Iou := ⟨y.io.off + k, y.io.buflen, y.io.xferBuflen - k, false, none⟩
      some { us := s.us.set u ⟨x, false⟩, depth := s.depth - 1 }
    else none

/-- A run; impossible steps are skipped. -/
def run1 (s : Job1) : List Act1 → Job1
  | [] => s
  | a :: as => run1 ((step1 s a).getD s) as

end Fio.Overlap
