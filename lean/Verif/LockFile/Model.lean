/-!
# Locking of shared files with lockfile= (filesetup.c, ioengines.c, filehash.c)

One file name, and for each job (a number) the `struct fio_file` it has for that name.  What a job does between two points at which it can
wait is one step; the hash is used under its lock, so a lookup and an insertion are steps.  Waiting is `blocked`, a failing assertion or an
unlock of a rwlock nobody holds is `bad`.  Not modelled: engines that do not use the hash, how often the reference count of an open file
keeps it open (C63), the internals of semaphore and rwlock (C14, C29 for the semaphore; a rwlock lets readers in while there is no writer).
-/

namespace Fio.LockFile

/-- /repo/file.h:41-45 `enum file_lock_mode` -/
inductive Mode
  | none | excl | rw
deriving DecidableEq, Repr

/-- A lock: /repo/fio_sem.h:9-15 `struct fio_sem` with its value, or /repo/rwlock.h:8-11 `struct fio_rwlock` with its readers and writer. -/
inductive Obj
  | sem (v : Nat)
  | rw (readers : Nat) (writer : Bool)
deriving DecidableEq, Repr

/-- Who calls `td_io_prep` and `td_io_queue`: `get_io_u` with `io_u_submit` (/repo/io_u.c:2009, /repo/backend.c:614) or `get_next_verify`
with them (/repo/backend.c:708); `fio_io_sync` (/repo/backend.c:235-274) or a worker of /repo/rate-submit.c:80-90, which queue again when
the engine is busy; `do_verify` with `experimental_verify` (/repo/backend.c:717-757), which prepares what `get_io_u` has prepared. -/
inductive Caller
  | io | sync | expVerify
deriving DecidableEq, Repr

/-- Where a job is. -/
inductive Pc
  /-- between I/Os -/
  | idle
  /-- in `generic_open_file` behind `file_lookup_open`, which found the name or not -/
  | opening (found : Bool)
  /-- behind the first `td_io_prep` of `do_verify` with `experimental_verify` -/
  | prepped (write : Bool)
  /-- behind `td_io_prep`, up to the end of the engine's `queue` -/
  | inIo (write : Bool) (c : Caller)
  /-- about to call `queue` again after it was busy -/
  | again (write : Bool)
deriving DecidableEq, Repr

structure St where
  /-- `f->lock` or `f->rwlock`, a union: /repo/file.h:142-145 -/
  lock : Nat → Option Nat
  obj : Nat → Obj
  /-- whose file is in the hash -/
  hash : Option Nat
  /-- `fio_file_open` -/
  isOpen : Nat → Bool
  /-- `td->file_locks[f->fileno]` is not `FILE_LOCK_NONE` -/
  slot : Nat → Bool
  pc : Nat → Pc
  /-- I/Os the engine has queued and not completed -/
  flight : Nat → Nat

/-- A function with one value changed. -/
def upd {α : Type} (f : Nat → α) (i : Nat) (v : α) : Nat → α := fun j => if j = i then v else f j

inductive Res
  | ok (s : St)
  | blocked
  | bad

/-- /repo/filesetup.c:2009-2023 `lock_file` -/
def lockFile (m : Mode) (s : St) (t : Nat) (write : Bool) : Res :=
  match s.lock t, m with
  | Option.none, _ => .ok s
  | _, .none => .ok s
  | some l, .rw =>
    match s.obj l with
    | .sem _ => .bad
    | .rw r w =>
      if write then
        if r = 0 ∧ w = false then .ok { s with obj := upd s.obj l (.rw 0 true), slot := upd s.slot t true } else .blocked
      else if w = false then .ok { s with obj := upd s.obj l (.rw (r + 1) false), slot := upd s.slot t true } else .blocked
  | some l, .excl =>
    match s.obj l with
    | .rw _ _ => .bad
    | .sem v => if v = 0 then .blocked else .ok { s with obj := upd s.obj l (.sem (v - 1)), slot := upd s.slot t true }

/-- /repo/filesetup.c:2025-2036 `unlock_file` -/
def unlockFile (m : Mode) (s : St) (t : Nat) : Res :=
  match s.lock t, m with
  | Option.none, _ => .ok s
  | _, .none => .ok s
  | some l, .rw =>
    match s.obj l with
    | .sem _ => .bad
    | .rw r w =>
      if w then .ok { s with obj := upd s.obj l (.rw r false), slot := upd s.slot t false }
      else if r = 0 then .bad else .ok { s with obj := upd s.obj l (.rw (r - 1) false), slot := upd s.slot t false }
  | some l, .excl =>
    match s.obj l with
    | .rw _ _ => .bad
    | .sem v => .ok { s with obj := upd s.obj l (.sem (v + 1)), slot := upd s.slot t false }

/-- What the engine's `queue` returns. -/
inductive Q
  | completed | queued | busy
deriving DecidableEq, Repr

inductive Act
  | lookup (t : Nat)
  | add (t : Nat)
  | close (t : Nat)
  | prep (t : Nat) (write : Bool) (c : Caller)
  | prepFail (t : Nat)
  | prep2 (t : Nat)
  | queue (t : Nat) (q : Q)
  | drop (t : Nat)
  | complete (t : Nat)
deriving DecidableEq, Repr

/-- Continue with the state. -/
def Res.andThen : Res → (St → Res) → Res
  | .ok s, f => f s
  | .blocked, _ => .blocked
  | .bad, _ => .bad

/-- A step of a job; `m` are the lock modes of the jobs.  `blocked` also for a step the job cannot make where it is.
- `lookup`: /repo/filesetup.c:677-691 `file_lookup_open`, in `generic_open_file`;
- `add`: /repo/filesetup.c:804-829 with /repo/filehash.c:80-100 `add_file_hash`, the lookup again if there is a file of that name now;
- `close`: /repo/filesetup.c:1987-2002 in `put_file` with /repo/filesetup.c:2038-2044 `unlock_file_all` and /repo/filehash.c:39-50;
- `prep`, `prepFail`: /repo/ioengines.c:271-290 `td_io_prep` (the engine's `prep` may fail);
- `prep2`: the second `td_io_prep` of /repo/backend.c:740-744, 751-755;
- `queue`: /repo/ioengines.c:397-399 in `td_io_queue`, and what the caller does with the result;
- `drop`: `put_io_u` of what was prepared, /repo/backend.c:728-735, 764-767;
- `complete`: the engine completes an I/O. -/
def step (m : Nat → Mode) (s : St) : Act → Res
  | .lookup t =>
    if s.pc t = .idle ∧ s.isOpen t = false then
      match s.hash with
      | some u => .ok { s with lock := upd s.lock t (s.lock u), pc := upd s.pc t (.opening true) }
      | Option.none => .ok { s with pc := upd s.pc t (.opening false) }
    else .blocked
  | .add t =>
    match s.pc t with
    | .opening true => .ok { s with isOpen := upd s.isOpen t true, pc := upd s.pc t .idle }
    | .opening false =>
      match s.hash with
      | some _ => .ok { s with pc := upd s.pc t .idle }
      | Option.none => .ok { s with hash := some t, isOpen := upd s.isOpen t true, pc := upd s.pc t .idle }
    | _ => .blocked
  | .close t =>
    if s.pc t = .idle ∧ s.isOpen t = true then
      (if s.slot t then unlockFile (m t) s t else .ok s).andThen fun s =>
        .ok { s with hash := if s.hash = some t then Option.none else s.hash, isOpen := upd s.isOpen t false }
    else .blocked
  | .prep t w c =>
    if s.pc t = .idle ∧ s.isOpen t = true then
      (lockFile (m t) s t w).andThen fun s => .ok { s with pc := upd s.pc t (if c = .expVerify then .prepped w else .inIo w c) }
    else .blocked
  | .prepFail t =>
    match s.pc t with
    | .inIo _ _ => (unlockFile (m t) s t).andThen fun s => .ok { s with pc := upd s.pc t .idle }
    | _ => .blocked
  | .prep2 t =>
    match s.pc t with
    | .prepped w => (lockFile (m t) s t false).andThen fun s => .ok { s with pc := upd s.pc t (.inIo w .expVerify) }
    | _ => .blocked
  | .queue t q =>
    match s.pc t with
    | .inIo w c =>
      (unlockFile (m t) s t).andThen fun s =>
        .ok { s with pc := upd s.pc t (if q = .busy ∧ c = .sync then .again w else .idle),
                     flight := if q = .queued then upd s.flight t (s.flight t + 1) else s.flight }
    | .again w =>
      (unlockFile (m t) s t).andThen fun s =>
        .ok { s with pc := upd s.pc t (if q = .busy then .again w else .idle),
                     flight := if q = .queued then upd s.flight t (s.flight t + 1) else s.flight }
    | _ => .blocked
  | .drop t =>
    match s.pc t with
    | .inIo _ _ | .prepped _ => .ok { s with pc := upd s.pc t .idle }
    | _ => .blocked
  | .complete t => if s.flight t = 0 then .blocked else .ok { s with flight := upd s.flight t (s.flight t - 1) }

/-- Steps one after the other. -/
def run (m : Nat → Mode) (s : St) : List Act → Res
  | [] => .ok s
  | a :: as => (step m s a).andThen fun s => run m s as

end Fio.LockFile
