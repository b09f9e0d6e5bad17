/-!
# The direction of the next I/O and the syncs between writes

get_rw_ddir and set_rw_ddir (io_u.c:682-895), the counters of td_io_queue (ioengines.c:333-480) and of
requeue_io_u (io_u.c:937-965). What the engine answers, the random numbers, the result of rate_ddir and
the changes for zonemode=zbd and trimwrite are inputs.
-/

namespace Fio.Ddir

/-- enum fio_ddir, io_ddir.h:4-19. -/
inductive Dd where
  | read | write | trim | sync | datasync | sfr | inval | timeout
  deriving DecidableEq, Repr

/-- ddir_rw, io_ddir.h. -/
def Dd.rw : Dd → Bool
  | .read | .write | .trim => true
  | _ => false

/-- ddir_sync, io_ddir.h. -/
def Dd.isSync : Dd → Bool
  | .sync | .datasync | .sfr => true
  | _ => false

/-- The options that are read. -/
structure Cfg where
  /-- td_read, td_write, td_trim -/
  tdR : Bool
  tdW : Bool
  tdT : Bool
  overrideSync : Bool
  /-- fsync, fdatasync, sync_file_range: number of writes, 0 if not set -/
  fsync : Nat
  fdatasync : Nat
  sfr : Nat
  /-- rwmixread and rwmixwrite -/
  mixR : Nat
  mixW : Nat
  /-- should_check_rate, fio.h:872-875 -/
  checkRate : Bool

/-- The fields of struct thread_data. -/
structure S where
  /-- `last_ddir_issued` -/
  last : Dd
  /-- `io_issues` -/
  rd : Nat
  wr : Nat
  tr : Nat
  /-- `rwmix_ddir` -/
  mixDir : Dd
  /-- `rwmix_issues` -/
  mixIssues : Nat
  /-- head of `io_u_requeues`: direction and IO_U_F_VER_LIST -/
  req : Option (Dd × Bool)

/-- A new thread: all zero. -/
def init : S := ⟨.read, 0, 0, 0, .read, 0, none⟩

/-- `io_issues[ddir]`; `none` outside of the array. -/
def issues (s : S) : Dd → Option Nat
  | .read => some s.rd
  | .write => some s.wr
  | .trim => some s.tr
  | _ => none

/-- `x++` for a uint64_t, C arithmetic. -/
def inc64 (x : Nat) : Nat := if x < 2 ^ 64 - 1 then x + 1 else 0
/-- `x--` for a uint64_t, C arithmetic. -/
def dec64 (x : Nat) : Nat := if x = 0 then 2 ^ 64 - 1 else x - 1

/-- `io_issues[ddir]++`, ioengines.c:389. -/
def inc (s : S) : Dd → S
  | .read => { s with rd := inc64 s.rd }
  | .write => { s with wr := inc64 s.wr }
  | .trim => { s with tr := inc64 s.tr }
  | _ => s

/-- `io_issues[ddir]--`, ioengines.c:402 and io_u.c:952. -/
def dec (s : S) : Dd → S
  | .read => { s with rd := dec64 s.rd }
  | .write => { s with wr := dec64 s.wr }
  | .trim => { s with tr := dec64 s.tr }
  | _ => s

/-- should_fsync, fio.h:658-666. -/
def shouldFsync (c : Cfg) (s : S) : Bool := !s.last.isSync && (c.tdW || c.overrideSync)

/-- The three tests for a sync, io_u.c:816-829. -/
def syncDue (c : Cfg) (s : S) : Option Dd :=
  if shouldFsync c s = true ∧ s.last = .write then
    if c.fsync ≠ 0 ∧ s.wr ≠ 0 ∧ s.wr % c.fsync = 0 then some .sync
    else if c.fdatasync ≠ 0 ∧ s.wr ≠ 0 ∧ s.wr % c.fdatasync = 0 then some .datasync
    else if c.sfr ≠ 0 ∧ s.wr ≠ 0 ∧ s.wr % c.sfr = 0 then some .sfr
    else none
  else none

/-- `ddir ^ 1` for read and write. -/
def other : Dd → Dd
  | .read => .write
  | .write => .read
  | d => d

/-- `o.rwmix[ddir]`. -/
def mix (c : Cfg) : Dd → Nat
  | .read => c.mixR
  | _ => c.mixW

/-- get_rand_ddir, io_u.c:696-706, for the number `v` from 1 to 100. -/
def randDdir (c : Cfg) (v : Nat) : Dd := if v ≤ c.mixR then .read else .write

/-- set_rwmix_bytes, io_u.c:683-694; `n` is `io_issues[rwmix_ddir]`. -/
def setMix (c : Cfg) (s : S) (n : Nat) : S :=
  { s with mixIssues := n * mix c (other s.mixDir) % 2 ^ 64 / 100 }

/-- Choice between reads and writes, io_u.c:830-847; `none` if the counter is not in the array. -/
def pickMix (c : Cfg) (s : S) (v : Nat) : Option (S × Dd) :=
  (issues s s.mixDir).bind fun n =>
    if n ≥ s.mixIssues then
      if randDdir c v ≠ s.mixDir then some ({ setMix c s n with mixDir := randDdir c v }, randDdir c v)
      else some (s, randDdir c v)
    else some (s, s.mixDir)

/-- io_u.c:830-856. -/
def pickData (c : Cfg) (s : S) (v : Nat) : Option (S × Dd) :=
  if c.tdR && c.tdW then pickMix c s v
  else if c.tdR then some (s, .read)
  else if c.tdW then some (s, .write)
  else if c.tdT then some (s, .trim)
  else some (s, .inval)

/-- get_rw_ddir, io_u.c:807-867; `rate` is rate_ddir (io_u.c:746-800). -/
def getRwDdir (c : Cfg) (s : S) (v : Nat) (rate : Dd → Dd) : Option (S × Dd) :=
  match syncDue c s with
  | some d => some (s, d)
  | none =>
    match pickData c s v with
    | none => none
    | some (s, d) =>
      let d := if c.checkRate then rate d else d
      some ({ s with mixDir := d }, d)

/-- What happens from outside in one round: the random number, rate_ddir, the direction set instead for
zonemode=zbd and trimwrite, whether a written block is to be verified now, the answer of the engine. -/
inductive Reply where
  /-- FIO_Q_COMPLETED with all bytes, or FIO_Q_QUEUED -/
  | done
  /-- FIO_Q_BUSY -/
  | busy
  /-- FIO_Q_COMPLETED with fewer bytes -/
  | short
  deriving DecidableEq

structure In where
  v : Nat
  rate : Dd → Dd
  adj : Option Dd
  ver : Bool
  reply : Reply

/-- set_rw_ddir, io_u.c:869-884: a sync is not changed. -/
def adjust (d : Dd) (a : Option Dd) : Dd := if d.isSync then d else a.getD d

/-- td_io_queue, ioengines.c:388-465, and for a short I/O requeue_io_u from backend.c:480-499. The I/O is
handed out when it is finished or queued. `ver` is IO_U_F_VER_LIST. -/
def issue (s : S) (d : Dd) (ver : Bool) (r : Reply) : S × Option (Dd × Bool) :=
  let s1 := if d.rw ∧ ver = false then inc s d else s
  match r with
  | .busy => ({ (if d.rw then dec s1 d else s1) with req := some (d, ver) }, none)
  | .short =>
    if d.rw then ({ dec s1 d with last := d, req := some (d, ver) }, none)
    else ({ s1 with last := d, req := none }, some (d, ver))
  | .done => ({ s1 with last := d, req := none }, some (d, ver))

/-- get_io_u up to the direction (io_u.c:1918-1945) and td_io_queue: a requeued I/O comes first, then a
block to verify, then a new I/O. Without a direction (fill_io_u, io_u.c:1089-1092) there is no I/O. -/
def step (c : Cfg) (s : S) (i : In) : Option (S × Option (Dd × Bool)) :=
  match s.req with
  | some (d, ver) => some (issue s d ver i.reply)
  | none =>
    if i.ver then some (issue s .read true i.reply)
    else
      match getRwDdir c s i.v i.rate with
      | none => none
      | some (s, d) =>
        if adjust d i.adj = .inval ∨ adjust d i.adj = .timeout then some (s, none)
        else some (issue s (adjust d i.adj) false i.reply)

/-- The rounds of a job; the I/Os in order. -/
def run (c : Cfg) (s : S) : List In → Option (S × List (Dd × Bool))
  | [] => some (s, [])
  | i :: l =>
    match step c s i with
    | none => none
    | some (s, o) =>
      match run c s l with
      | none => none
      | some (s, out) => some (s, o.toList ++ out)

/-- check_get_verify, io_u.c:1846-1870, for an engine that completes each I/O at once, so that
`last_ddir_completed` is `last_ddir_issued`: is a block to be verified now? -/
def verDue (backlog hist batch : Nat) (last : Dd) : Bool :=
  decide (hist ≠ 0 ∧ (batch ≠ 0 ∨ (hist % backlog = 0 ∧ last ≠ .read)))

/-- A job with verify_backlog on such an engine: state, `io_hist_len`, `verify_batch`. The history grows
with each write (iolog.c:318,367) and shrinks with each block taken (verify.c:1462). -/
def runBacklog (c : Cfg) (backlog : Nat) : Nat → S → (hist batch : Nat) → Option (List (Dd × Bool))
  | 0, _, _, _ => some []
  | n + 1, s, hist, batch =>
    let ver := verDue backlog hist batch s.last
    match step c s ⟨100, id, none, ver, .done⟩ with
    | none => none
    | some (s, o) =>
      let batch := if ver then (if batch = 0 then backlog else batch) - 1 else batch
      let hist := if ver then hist - 1 else if o = some (.write, false) then hist + 1 else hist
      match runBacklog c backlog n s hist batch with
      | none => none
      | some out => some (o.toList ++ out)

end Fio.Ddir
