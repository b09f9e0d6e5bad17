/-
The buffers of a log (stat.c:2961-3144, iolog.c:841-892, 1402-1448) and the places where the job
makes them grow (backend.c:423-452, 500-506, 1412-1428, io_u.c:709-739).

One log with an entry for each completed I/O (a latency log without averaging), no compression.  An
entry is the number of the I/O in the order of completion.  Sizes are unbounded: `cur_log_max` never
exceeds 2^20, and `iodepth` is an `int` below 2^31 - 1.
-/
namespace Fio.Log

/-- struct io_logs (iolog.h:80-85): the entries newest first, `nr_samples`, `max_samples`. -/
structure Chunk where
  rev : List Nat
  nr : Nat
  max : Nat
deriving DecidableEq, Repr

/-- What does not change: o.log_entries, o.iodepth; `offload`: io_submit_mode is IO_MODE_OFFLOAD, or the log
is not a `per_unit_log`; `fails k`: the `k`-th allocation of a chunk fails. -/
structure Cfg where
  entries : Nat
  depth : Nat
  offload : Bool
  fails : Nat → Bool

/-- struct io_log (iolog.h:90-150): `old` the full chunks, newest first, `cur` the last chunk of the
list `io_logs`, `curMax` is cur_log_max, `flag` is TD_F_REGROW_LOGS. -/
structure Log where
  old : List Chunk
  cur : Option Chunk
  curMax : Nat
  pend : Option Chunk
  flag : Bool
  disabled : Bool
  allocs : Nat
deriving DecidableEq, Repr

/-- Why the program ends, or what it does that it must not. -/
inductive Err where
  /-- `assert(iolog->pending->nr_samples < iolog->pending->max_samples)` fails -/
  | assert
  /-- a write behind the end of an allocation -/
  | overflow
deriving DecidableEq, Repr

/-- roundup_pow2 (lib/roundup.h:6-9): `1 << fls(depth - 1)`, where `fls` is one more than the number
of the highest bit and 0 for 0. -/
def roundupPow2 (n : Nat) : Nat := if n - 1 = 0 then 1 else 2 ^ (Nat.log2 (n - 1) + 1)

/-- `max_samples` of the pending chunk (iolog.c:875-889). -/
def pendMax (c : Cfg) : Nat := if c.depth ≥ 1024 then roundupPow2 (c.depth + 1) else 1024

/-- setup_log (iolog.c:849-892). -/
def setup (c : Cfg) : Log :=
  { old := [], cur := none, curMax := 0, flag := false, disabled := false, allocs := 0,
    pend := if c.offload then none else some ⟨[], 0, pendMax c⟩ }

/-- get_new_log (stat.c:2964-3003): the new chunk becomes the last one of the list. -/
def getNew (c : Cfg) (l : Log) : Log × Option Chunk :=
  let n := if l.curMax = 0 then c.entries
    else if l.curMax * 2 > 1024 * 1024 then 1024 * 1024 else l.curMax * 2
  if c.fails l.allocs then ({ l with allocs := l.allocs + 1 }, none)
  else
    let ch : Chunk := ⟨[], 0, n⟩
    ({ l with old := l.cur.toList ++ l.old, cur := some ch, curMax := n, allocs := l.allocs + 1 }, some ch)

/-- The last chunk of the list, or a new one if there is none (stat.c:3016-3021, 3090-3095). -/
def curChunk (c : Cfg) (l : Log) : Log × Option Chunk :=
  match l.cur with
  | some ch => (l, some ch)
  | none => getNew c l

/-- The second half of regrow_log (stat.c:3037-3060): a new chunk, which gets the pending entries. -/
def extend (c : Cfg) (l : Log) : Except Err (Log × Bool) :=
  match getNew c l with
  | (l, none) => .ok (l, false)
  | (l, some ch) => match l.pend with
    | none => .ok (l, true)
    | some p =>
      if p.nr = 0 then .ok (l, true)
      else if p.nr > ch.max then .error .overflow
      else .ok ({ l with cur := some ⟨p.rev, p.nr, ch.max⟩, pend := some ⟨[], 0, p.max⟩ }, true)

/-- regrow_log (stat.c:3008-3065): the second part says whether it returns a chunk. -/
def regrow (c : Cfg) (l : Log) : Except Err (Log × Bool) :=
  if l.disabled then .ok (l, false) else
  match curChunk c l with
  | (l, none) => .ok (l, false)
  | (l, some ch) => if ch.nr < ch.max then .ok (l, true) else extend c l

/-- An entry is written into a chunk (stat.c:3124-3140). -/
def Chunk.push (ch : Chunk) (x : Nat) : Except Err Chunk :=
  if ch.nr < ch.max then .ok ⟨x :: ch.rev, ch.nr + 1, ch.max⟩ else .error .overflow

/-- An entry is written into the last chunk of the list. -/
def pushCur (l : Log) (x : Nat) : Except Err Log :=
  match l.cur with
  | none => .ok { l with disabled := true }
  | some ch => match ch.push x with
    | .ok ch => .ok { l with cur := some ch }
    | .error e => .error e

/-- The entry becomes a pending one (stat.c:3111-3115): the flag, the assertion, the write. -/
def pushPend (l : Log) (x : Nat) : Except Err Log :=
  match l.pend with
  | none => .ok { l with flag := true, disabled := true }
  | some p =>
    if p.nr < p.max then .ok { l with flag := true, pend := some ⟨x :: p.rev, p.nr + 1, p.max⟩ }
    else .error .assert

/-- __add_log_sample with get_cur_log (stat.c:3086-3149). -/
def add (c : Cfg) (l : Log) (x : Nat) : Except Err Log :=
  if l.disabled then .ok l else
  match curChunk c l with
  | (l, none) => .ok { l with disabled := true }
  | (l, some ch) =>
    if ch.nr < ch.max then pushCur l x
    else if c.offload then
      match regrow c l with
      | .error e => .error e
      | .ok (l, true) => pushCur l x
      | .ok (l, false) => .ok { l with disabled := true }
    else pushPend l x

/-- regrow_logs (stat.c:3067-3076), for this log. -/
def regrows (c : Cfg) (l : Log) : Except Err Log := do
  let (l, _) ← regrow c l
  .ok { l with flag := false }

/-- The job: the log, the I/Os in flight, the number of I/Os completed. -/
structure Job where
  log : Log
  inflight : Nat
  done : Nat
deriving DecidableEq, Repr

/-- `n` I/Os complete (ios_completed, io_u.c:2264-2300, add_clat_sample). -/
def complete (c : Cfg) : Nat → Job → Except Err Job
  | 0, j => .ok j
  | n + 1, j => do
    let l ← add c j.log j.done
    complete c n { j with log := l, done := j.done + 1 }

/-- `n` of the I/Os in flight complete. -/
def reap (c : Cfg) (n : Nat) (j : Job) : Except Err Job :=
  complete c (min n j.inflight) { j with inflight := j.inflight - min n j.inflight }

/-- `if (td->flags & TD_F_REGROW_LOGS) regrow_logs(td)`. -/
def check (c : Cfg) (j : Job) : Except Err Job :=
  if j.log.flag then do
    let l ← regrows c j.log
    .ok { j with log := l }
  else .ok j

/-- io_u_quiesce (io_u.c:709-739). -/
def quiesce (c : Cfg) (j : Job) : Except Err Job := do
  let j ← reap c j.inflight j
  check c j

/-- What the loop of do_io does. -/
inductive Op where
  /-- an I/O is queued (FIO_Q_QUEUED) -/
  | queue
  /-- the engine completes an I/O at once (backend.c:500-506) -/
  | sync
  /-- wait_for_completions (backend.c:423-452), which reaps `n` I/Os in its turns of the loop -/
  | wait (n : Nat)
  /-- io_u_quiesce for think time or a rate limit -/
  | quiesce
  /-- another log of the job runs out of space and sets TD_F_REGROW_LOGS -/
  | other
  /-- the flag is looked at while a replayed delay is waited for (iolog.c:105-106) -/
  | look

/-- One step. -/
def step (c : Cfg) (j : Job) : Op → Except Err Job
  | .queue => .ok (if j.inflight < c.depth then { j with inflight := j.inflight + 1 } else j)
  | .sync => do
    let j ← complete c 1 j
    check c j
  | .wait n => if j.log.flag then quiesce c j else reap c n j
  | .quiesce => quiesce c j
  | .other => .ok { j with log := { j.log with flag := true } }
  | .look => check c j

/-- A run of do_io's loop. -/
def run (c : Cfg) : Job → List Op → Except Err Job
  | j, [] => .ok j
  | j, op :: l => do
    let j ← step c j op
    run c j l

/-- flush_log (iolog.c:1431-1444): the entries in the file. -/
def written (l : Log) : List Nat :=
  ((l.cur.toList ++ l.old).flatMap Chunk.rev).reverse

/-- The whole job: the loop, the completion of what is in flight (backend.c:1412-1428) and the
writing of the log. -/
def job (c : Cfg) (ops : List Op) : Except Err (Job × List Nat) := do
  let j ← run c ⟨setup c, 0, 0⟩ ops
  let j ← reap c j.inflight j
  .ok (j, written j.log)

end Fio.Log
