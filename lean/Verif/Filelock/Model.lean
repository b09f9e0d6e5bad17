import Verif.Common.Total
/-
Model of file locks by name: /repo/filelock.c.

Threads interleave arbitrarily; a section under `fld->lock` is one step, and so is each operation on
the semaphore of a record.  A name is represented by its 32-bit hash (jhash, not modelled): two names
with equal hashes share a lock.  A thread unlocks only a name it has locked.
-/
namespace Fio.Filelock

/-- struct fio_filelock, filelock.c:18-23; `sem` is the value of the semaphore. -/
structure Rec where
  hash : Nat
  sem : Nat
  refs : Nat
  deriving DecidableEq

/-- Where a thread is. -/
inductive Pc where
  /-- outside -/
  | idle
  /-- in get_filelock, filelock.c:61-63, without fld->lock -/
  | sleeping
  /-- before fio_sem_down, filelock.c:187 or 208 -/
  | wait (r : Nat)
  /-- before fio_sem_down_trylock, filelock.c:191 -/
  | tryWait (r : Nat)
  /-- after a failed trylock, before filelock.c:194 -/
  | tryFailed (r : Nat)
  /-- the lock is held -/
  | hold (r : Nat)
  deriving DecidableEq

structure Thread where
  hash : Nat
  pc : Pc
  deriving DecidableEq

/-- struct filelock_data, filelock.c:27-33, and the threads.  The lists hold record numbers. -/
structure St where
  recs : List Rec
  active : List Nat
  free : List Nat
  threads : List Thread
  deriving DecidableEq

inductive Act where
  | lock (t : Nat) (hash : Nat) (trylock : Bool)
  | retry (t : Nat)
  | down (t : Nat)
  | tryDown (t : Nat)
  | afterFail (t : Nat)
  | unlock (t : Nat)

/-- fio_hash_find, filelock.c:119-131. -/
def hashFind (s : St) (hash : Nat) : Option Nat :=
  s.active.find? fun r => (s.recs[r]?).any fun x => x.hash = hash

def setPc (s : St) (i : Nat) (t : Thread) : List Thread := s.threads.set i t

/-- `ff->references++`, filelock.c:178, for an existing record. -/
def addRef (s : St) (i hash : Nat) (r : Nat) (pc : Pc) : Option St :=
  match s.recs[r]? with
  | none => none
  | some x => some { s with
      recs := s.recs.set r { x with refs := x.refs + 1 }
      threads := s.threads.set i { hash := hash, pc := pc } }

/-- filelock.c:160-162 followed by 178: a record taken from the free list, `rest` remaining. -/
def addNew (s : St) (i hash : Nat) (r : Nat) (rest : List Nat) (pc : Pc) : Option St :=
  match s.recs[r]? with
  | none => none
  | some x => some { s with
      recs := s.recs.set r { x with hash := hash, refs := 1 }
      active := r :: s.active
      free := rest
      threads := s.threads.set i { hash := hash, pc := pc } }

/-- One step; `none`: the step is not possible now (the thread is elsewhere or has to wait). -/
def step (s : St) : Act → Option St
  -- __fio_lock_file up to filelock.c:184, with fio_hash_get (133-166) and get_filelock (52-68)
  | .lock i hash trylock =>
    match s.threads[i]? with
    | some ⟨_, .idle⟩ =>
      let next := if trylock then Pc.tryWait else Pc.wait
      match hashFind s hash with
      | some r => addRef s i hash r (next r)
      | none =>
        match s.free with
        | r :: rest => addNew s i hash r rest (next r)
        | [] =>
          if trylock then some s     -- filelock.c:181-184: returns true, not locked
          else some { s with threads := s.threads.set i ⟨hash, .sleeping⟩ }
    | _ => none
  -- filelock.c:63-68 and 150-158
  | .retry i =>
    match s.threads[i]? with
    | some ⟨hash, .sleeping⟩ =>
      match s.free with
      | [] => some s
      | r :: rest =>
        match hashFind { s with free := rest } hash with
        | some r' => addRef s i hash r' (.wait r')   -- the free record is put back
        | none => addNew s i hash r rest (.wait r)
    | _ => none
  -- fio_sem_down, filelock.c:187 and 208
  | .down i =>
    match s.threads[i]? with
    | some ⟨hash, .wait r⟩ =>
      match s.recs[r]? with
      | some x =>
        if x.sem = 0 then none
        else some { s with
          recs := s.recs.set r { x with sem := x.sem - 1 }
          threads := s.threads.set i ⟨hash, .hold r⟩ }
      | none => none
    | _ => none
  -- fio_sem_down_trylock, filelock.c:191
  | .tryDown i =>
    match s.threads[i]? with
    | some ⟨hash, .tryWait r⟩ =>
      match s.recs[r]? with
      | some x =>
        if x.sem = 0 then some { s with threads := s.threads.set i ⟨hash, .tryFailed r⟩ }
        else some { s with
          recs := s.recs.set r { x with sem := x.sem - 1 }
          threads := s.threads.set i ⟨hash, .hold r⟩ }
      | none => none
    | _ => none
  -- filelock.c:194-212
  | .afterFail i =>
    match s.threads[i]? with
    | some ⟨hash, .tryFailed r⟩ =>
      match s.recs[r]? with
      | some x =>
        if x.refs ≠ 1 then some { s with
          recs := s.recs.set r { x with refs := x.refs - 1 }
          threads := s.threads.set i ⟨hash, .idle⟩ }
        else some { s with threads := s.threads.set i ⟨hash, .wait r⟩ }
      | none => none
    | _ => none
  -- fio_unlock_file, filelock.c:225-246
  | .unlock i =>
    match s.threads[i]? with
    | some ⟨hash, .hold _⟩ =>
      match hashFind s hash with
      | some r =>
        match s.recs[r]? with
        | some x =>
          let x := { x with refs := x.refs - 1, sem := x.sem + 1 }
          if x.refs = 0 then some { s with
            recs := s.recs.set r x, active := s.active.erase r, free := r :: s.free
            threads := s.threads.set i ⟨hash, .idle⟩ }
          else some { s with recs := s.recs.set r x, threads := s.threads.set i ⟨hash, .idle⟩ }
        | none => none
      | none => some { s with threads := s.threads.set i ⟨hash, .idle⟩ }
    | _ => none

/-- Any interleaving; impossible steps are skipped. -/
def run (s : St) : List Act → St
  | [] => s
  | a :: as => run ((step s a).getD s) as

/-- fio_filelock_init, filelock.c:70-96, with `n` records (MAX_FILELOCKS) and any number of threads. -/
def init (n nthreads : Nat) : St where
  recs := List.replicate n { hash := 0, sem := 1, refs := 0 }
  active := []
  free := List.range n
  threads := List.replicate nthreads { hash := 0, pc := .idle }

end Fio.Filelock
