/-!
# The null engine (engines/null.c)

A unit is its number. The time of submission and the statistics of depths are not modelled.
-/

namespace Fio.NullEng

/-- /repo/engines/null.c:22-26 `struct null_data`. `accepted` and `returned` are no fields in the code: the units for which `queue` said
`FIO_Q_QUEUED`, and those that the caller read with `event`, in order. -/
structure St where
  ious : List Nat
  queued : Nat
  events : Nat
  accepted : List Nat
  returned : List Nat
  deriving Repr, DecidableEq

/-- /repo/engines/null.c:107-123 `null_init` with `iodepth` other than 1: the array from `calloc` -/
def init (iodepth : Nat) : St := { ious := List.replicate iodepth 0, queued := 0, events := 0, accepted := [], returned := [] }

/-- /repo/engines/null.c:79-91 `null_queue`, not synchronous; `false` is `FIO_Q_BUSY`, `none` a write behind the array -/
def queue (st : St) (u : Nat) : Option (St × Bool) :=
  if st.events ≠ 0 then some (st, false)
  else if st.queued < st.ious.length then
    some ({ st with ious := st.ious.set st.queued u, queued := st.queued + 1, accepted := st.accepted ++ [u] }, true)
  else none

/-- /repo/engines/null.c:64-77 `null_commit` -/
def commit (st : St) : St := if st.events = 0 then { st with events := st.queued, queued := 0 } else st

/-- /repo/engines/null.c:33-45 `null_getevents`: how many; `max` is not used -/
def getevents (st : St) (min _max : Nat) : St × Nat := if min ≠ 0 then ({ st with events := 0 }, st.events) else (st, 0)

/-- The caller reads the units with `event` (/repo/engines/null.c:28-31; /repo/io_u.c, `ios_completed`), from `i` on; `none` is a read behind
the array. -/
def read (ious : List Nat) (i : Nat) : Nat → Option (List Nat)
  | 0 => some []
  | n + 1 => match ious[i]?, read ious (i + 1) n with
    | some u, some l => some (u :: l)
    | _, _ => none

inductive Op
  | queue (u : Nat)
  | commit
  | reap (min max : Nat)
  deriving Repr, DecidableEq

def step (st : St) : Op → Option St
  | .queue u => (queue st u).map (·.1)
  | .commit => some (commit st)
  | .reap min max =>
    let (st', n) := getevents st min max
    match read st'.ious 0 n with
    | some l => some { st' with returned := st'.returned ++ l }
    | none => none

def run (st : St) : List Op → Option St
  | [] => some st
  | o :: os => match step st o with
    | some st' => run st' os
    | none => none

end Fio.NullEng
