import Verif.LockFile.Model
/-!
# What lockfile= promises (C102)

`exclusive`: only one job does I/O to the file at a time.  `readwrite`: many may read, but a write excludes all others.
-/

namespace Fio.LockFile

/-- The job is in the engine with an I/O to the file. -/
def InIo (s : St) (t : Nat) : Prop :=
  match s.pc t with
  | .inIo _ _ | .again _ => True
  | _ => False

/-- The job is in the engine with a write (or trim, or sync). -/
def Writes (s : St) (t : Nat) : Prop :=
  match s.pc t with
  | .inIo w _ | .again w => w = true
  | _ => False

/-- One at a time. -/
def Exclusive (s : St) : Prop := ∀ t u, InIo s t → InIo s u → t = u

/-- A writer is alone. -/
def WriterAlone (s : St) : Prop := ∀ t u, Writes s t → InIo s u → t = u

/-- One at a time, with what the engine has not completed. -/
def ExclusiveFlight (s : St) : Prop := ∀ t u, (InIo s t ∨ 0 < s.flight t) → (InIo s u ∨ 0 < s.flight u) → t = u

/-- Jobs that are copies of one job (`numjobs`): they have the lock of the first, nothing is open and nobody holds the lock. -/
structure Clones (l : Nat) (o : Obj) (s : St) : Prop where
  lock : ∀ t, s.lock t = some l
  obj : s.obj l = o
  hash : s.hash = none
  closed : ∀ t, s.isOpen t = false
  slot : ∀ t, s.slot t = false
  idle : ∀ t, s.pc t = .idle

/-- The step is not one of those that break the locking: no queueing again, no double preparation, nothing put back that was prepared. -/
def Fine (s : St) : Act → Prop
  | .prep _ _ c => c ≠ .expVerify
  | .queue t q => ∀ w, s.pc t = .inIo w .sync → q ≠ .busy
  | .drop _ => False
  | _ => True

/-- States the jobs can come to with such steps. -/
inductive Reach (m : Nat → Mode) (s0 : St) : St → Prop
  | start : Reach m s0 s0
  | step {s s' : St} {a : Act} : Reach m s0 s → Fine s a → step m s a = .ok s' → Reach m s0 s'

end Fio.LockFile
