/-!
# The life of an I/O unit (io_u.c, ioengines.c, backend.c)

A job has `iodepth` units.  A unit is on the free list, on the ring of units to be issued again, with the engine, with
the threads for asynchronous verification, or held by the job's main thread.

Simplifications: one job without offload workers (`io_submit_mode=inline`) and without zones.  Whatever the job or the
engine decides (the next offset, an error, a short transfer, the limits of the loops) is an answer the environment
gives; answers are not restricted, except that an engine reports only units it was given and reports each once.  The
threads for asynchronous verification return units where the main thread looks at the free list; elsewhere their steps
commute with those of the main thread.  `crash` is a failed assertion, `more` means the answers given were used up.
-/

namespace Fio.IoU

/-- 32 bit unsigned. -/
def w32 : Nat := 4294967296
/-- 64 bit unsigned. -/
def w64 : Nat := 18446744073709551616

/-- /repo/io_ddir.h:6-25 `enum fio_ddir`; `sync` stands for all kinds of sync. -/
inductive Dir where
  | read | write | trim | sync
  deriving DecidableEq, Repr

/-- /repo/io_ddir.h:79-82 `ddir_rw`. -/
def Dir.rw : Dir → Bool
  | .sync => false
  | _ => true

/-- The fields of /repo/io_u.h:38-135 `struct io_u` in use here.  The flags are lines 15-30. -/
structure U where
  /-- IO_U_F_FREE -/
  free : Bool
  /-- IO_U_F_FLIGHT -/
  flight : Bool
  /-- IO_U_F_IN_CUR_DEPTH -/
  inDepth : Bool
  /-- IO_U_F_TRIMMED -/
  trimmed : Bool
  /-- IO_U_F_VER_LIST -/
  verList : Bool
  /-- IO_U_F_PATTERN_DONE -/
  patDone : Bool
  /-- `file` is not NULL -/
  file : Bool
  ddir : Dir
  /-- `acct_ddir`, `none` is -1 -/
  acct : Option Dir
  buflen : Nat
  xferLen : Nat
  /-- `xfer_buf - buf` -/
  bufOff : Nat
  offset : Nat
  /-- not a variable of the program: the offset the unit was filled with -/
  off0 : Nat
  resid : Nat
  /-- `error` is not 0 -/
  err : Bool
  /-- `end_io` is not NULL -/
  endIo : Bool
  deriving DecidableEq, Repr

/-- Options. -/
structure Cfg where
  /-- `iodepth`, the number of units -/
  n : Nat
  batch : Nat
  low : Nat
  cmin : Nat
  cmax : Nat
  /-- the engine has a `commit` hook -/
  hasCommit : Bool
  /-- the engine has a `getevents` hook -/
  hasEvents : Bool
  /-- `verify_async` -/
  async : Bool
  /-- `latency_target` -/
  latTarget : Bool
  /-- writes are populated for verification (`TD_F_DO_VERIFY`) -/
  doVerify : Bool
  deriving Repr

/-- The fields of `struct thread_data` in use here, and the environment. -/
structure St where
  u : Nat → U
  /-- `io_u_freelist`, top first -/
  freeq : List Nat
  /-- `io_u_requeues`, oldest first -/
  reqs : List Nat
  /-- units with the threads for asynchronous verification -/
  ver : List Nat
  /-- units with the engine -/
  eng : List Nat
  /-- `cur_depth` -/
  depth : Nat
  /-- `io_u_queued` -/
  queued : Nat
  /-- `io_u_in_flight` -/
  inFlight : Nat
  issues : Dir → Nat
  issueBytes : Dir → Nat
  ioBytes : Dir → Nat
  /-- not a variable of the program: bytes the engine has transferred -/
  moved : Dir → Nat
  /-- `error` is not 0 -/
  error : Bool
  done : Bool
  stopIo : Bool
  /-- `runstate == TD_FSYNCING` -/
  fsyncing : Bool

/-- How a part of the program ends. -/
inductive Res (α : Type) where
  | crash
  | more (s : St)
  | ok (s : St) (a : α)

/-- Sequence. -/
def Res.bind {α β : Type} : Res α → (St → α → Res β) → Res β
  | .crash, _ => .crash
  | .more s, _ => .more s
  | .ok s a, f => f s a

/-- Change a unit. -/
def St.set (s : St) (i : Nat) (f : U → U) : St := { s with u := fun j => if j = i then f (s.u i) else s.u j }

/-- Change a counter. -/
def upd (g : Dir → Nat) (d : Dir) (v : Nat) : Dir → Nat := fun e => if e = d then v else g e

/-- What the engine and the job make of one transfer. -/
structure Comp where
  /-- the engine reports an error -/
  err : Bool
  /-- bytes transferred; more than asked for counts as asked for -/
  done : Nat
  /-- the end of the file is reached (`offset` against `real_file_size`) -/
  eof : Bool
  /-- IO_U_F_ERRORED and IO_U_F_VER_LIST: an error is expected -/
  expected : Bool
  /-- `end_io` returns an error (not with `verify_async`) -/
  endErr : Bool
  /-- `td_non_fatal_error` -/
  nonFatal : Bool
  deriving DecidableEq, Repr

/-- What the engine answers to `commit` and `getevents`. -/
structure Ev where
  commitFail : Bool
  fail : Bool
  /-- the events, each the position of a unit among those the engine has -/
  picks : List (Nat × Comp)

/-- What the engine answers to `queue`. -/
inductive Q where
  | completed (cp : Comp)
  | queued
  | busy

/-- `ret` in the loops of backend.c; `err` is a negative value. -/
inductive Ret where
  | completed | queued | busy | err
  deriving DecidableEq, Repr

/-- /repo/io_u.h:199-205 `acct_ddir`. -/
def acctDdir (u : U) : Dir := u.acct.getD u.ddir

/-- /repo/io_u.c:901-927 `put_io_u`.  Pushing on a full free list is a failed assertion (io_u_queue.h:31-39). -/
def putIoU (c : Cfg) (s : St) (i : Nat) : Res Unit :=
  let s := s.set i fun u => { u with file := false, free := true }
  let s := if (s.u i).inDepth then { s with depth := (s.depth + (w32 - 1)) % w32 } else s
  if s.freeq.length < c.n then .ok { s with freeq := i :: s.freeq } () else .crash

/-- /repo/io_u.c:930-935 `io_u_clear_inflight_flags`. -/
def clearInflight (s : St) (i : Nat) : St := s.set i fun u => { u with flight := false, patDone := false }

/-- /repo/io_u.c:937-941 `clear_io_u`. -/
def clearIoU (c : Cfg) (s : St) (i : Nat) : Res Unit := putIoU c (clearInflight s i) i

/-- The lines of /repo/io_u.c:958-959: one I/O less was issued. -/
def unissue (s : St) (d : Dir) (b : Bool) : St :=
  { s with issues := if b && d.rw then upd s.issues d ((s.issues d + (w64 - 1)) % w64) else s.issues }

/-- /repo/io_u.c:943-974 `requeue_io_u`.  The ring has room for `iodepth` units (C09). -/
def requeueIoU (c : Cfg) (s : St) (i : Nat) : Res Unit :=
  let s := unissue s (acctDdir (s.u i)) (s.u i).flight
  let s := s.set i fun u => { u with free := true, flight := false }
  let s := if (s.u i).inDepth then { s with depth := (s.depth + (w32 - 1)) % w32 } else s
  if s.reqs.length < c.n then .ok { s with reqs := s.reqs ++ [i] } () else .crash

/-- /repo/io_u.c:1745-1755 `queue_full`; `lat` is the answer to `cur_depth >= latency_qd`. -/
def queueFull (c : Cfg) (s : St) (lat : Bool) : Bool := s.freeq.isEmpty || (c.latTarget && lat)

/-- /repo/io_u.c:1785-1797: a unit was taken. -/
def takeU (s : St) (i : Nat) : Res (Option Nat) :=
  if (s.u i).free then
    let s := s.set i fun u =>
      { u with free := false, trimmed := false, verList := false, err := false, acct := none, inDepth := true }
    .ok { s with depth := (s.depth + 1) % w32 } (some i)
  else .crash

/-- A thread for asynchronous verification returns a unit, /repo/verify.c:1553-1560. -/
def verDone (c : Cfg) (s : St) (k : Nat) : Res Unit :=
  match s.ver[k]? with
  | none => .ok s ()
  | some i => putIoU c { s with ver := s.ver.eraseIdx k } i

/-- Several of them. -/
def verDones (c : Cfg) : St → List Nat → Res Unit
  | s, [] => .ok s ()
  | s, k :: ks => (verDone c s k).bind fun s _ => verDones c s ks

/-- /repo/io_u.c:1757-1817 `__get_io_u`.  `vd` are the units verification threads return meanwhile; if there is no unit
after that, the result is NULL (waiting goes on until there is one or `td->error` is set). -/
def getU (c : Cfg) (s : St) (vd : List Nat) (lat : Bool) : Res (Option Nat) :=
  (verDones c s vd).bind fun s _ =>
  if s.stopIo then .ok s none
  else match s.reqs with
    | i :: rest =>
      let s := { s with reqs := rest }
      let s := s.set i fun u => { u with resid := 0, file := u.file && !s.fsyncing }
      takeU s i
    | [] =>
      if queueFull c s lat then .ok s none
      else match s.freeq with
        | [] => .crash
        | i :: rest =>
          let s := { s with freeq := rest }
          let s := s.set i fun u => { u with file := false, buflen := 0, resid := 0, endIo := false }
          takeU s i

/-- /repo/ioengines.c:505-527 `td_io_commit`; `fail`: the engine's hook returns an error. -/
def tdIoCommit (c : Cfg) (s : St) (fail : Bool) : St :=
  if s.depth = 0 ∨ s.queued = 0 then s
  else
    let s := if c.hasCommit && fail then { s with error := true } else s
    { s with inFlight := (s.inFlight + s.queued) % w32, queued := 0 }

/-- The engine is done with a unit: it sets `error` and `resid`. -/
def engDone (s : St) (i : Nat) (cp : Comp) : St :=
  let n := min cp.done (s.u i).xferLen
  let s := { s with moved := upd s.moved (s.u i).ddir (s.moved (s.u i).ddir + n) }
  s.set i fun u => { u with err := cp.err, resid := u.xferLen - n }

/-- The lines of /repo/ioengines.c:385-391: count an issued I/O. -/
def issue (s : St) (d : Dir) (len : Nat) (b : Bool) : St :=
  { s with issues := if b then upd s.issues d ((s.issues d + 1) % w64) else s.issues
           issueBytes := if b then upd s.issueBytes d ((s.issueBytes d + len) % w64) else s.issueBytes }

/-- The lines of /repo/ioengines.c:399-403: it was not issued. -/
def notIssued (s : St) (d : Dir) (len : Nat) : St :=
  { s with issues := if d.rw then upd s.issues d ((s.issues d + (w64 - 1)) % w64) else s.issues
           issueBytes := if d.rw then upd s.issueBytes d ((s.issueBytes d + (w64 - len % w64)) % w64)
             else s.issueBytes }

/-- /repo/ioengines.c:394-483: what the engine's `queue` hook answers. -/
def queueAns (c : Cfg) (s : St) (i : Nat) (q : Q) (cf : Bool) : St × Ret :=
  match q with
  | .busy => ((notIssued s (acctDdir (s.u i)) (s.u i).xferLen).set i fun u => { u with flight := false }, .busy)
  | .completed cp => ({ engDone s i cp with error := s.error || cp.err }, .completed)
  | .queued =>
    let s := { s with eng := s.eng ++ [i], queued := (s.queued + 1) % w32 }
    (if s.queued ≥ c.batch then tdIoCommit c s cf else s, .queued)

/-- /repo/ioengines.c:334-484 `td_io_queue`.  The result is the status; `cf` is the answer to a commit. -/
def tdIoQueue (c : Cfg) (s : St) (i : Nat) (q : Q) (cf : Bool) : Res Ret :=
  if (s.u i).flight then .crash else
  if !(s.u i).file then .crash else
  let s := s.set i fun u => { u with flight := true, err := false, resid := 0 }
  let d := acctDdir (s.u i)
  let r := queueAns c (issue s d (s.u i).xferLen (d.rw && !(s.u i).verList)) i q cf
  .ok r.1 r.2

/-- The engine chooses at most `max` of its units. -/
def pull : Nat → List Nat → List (Nat × Comp) → List (Nat × Comp) × List Nat
  | 0, eng, _ => ([], eng)
  | _, eng, [] => ([], eng)
  | max + 1, eng, (k, cp) :: ps =>
    match eng[k]? with
    | none => pull (max + 1) eng ps
    | some i =>
      let r := pull max (eng.eraseIdx k) ps
      ((i, cp) :: r.1, r.2)

/-- /repo/ioengines.c:291-332 `td_io_getevents`; `none` is a negative result. -/
def tdIoGetevents (c : Cfg) (s : St) (min max : Nat) (a : Ev) : St × Option (List (Nat × Comp)) :=
  if s.done then (s, some [])
  else if min > 0 && c.hasCommit && a.commitFail then ({ s with error := true }, none)
  else
    let max := if max > s.depth then s.depth else max
    let max := if min > max then min else max
    if max ≠ 0 && c.hasEvents then
      if a.fail then ({ s with error := true }, none)
      else
        let r := pull max s.eng a.picks
        let s := { s with eng := r.2, inFlight := (s.inFlight + (w32 - r.1.length % w32)) % w32 }
        (r.1.foldl (fun s e => engDone s e.1 e.2) s, some r.1)
    else (s, some [])

/-- /repo/verify.c:833-853 `verify_io_u_async`. -/
def verifyAsync (s : St) (i : Nat) : St :=
  let s := if (s.u i).inDepth then
      { s with depth := (s.depth + (w32 - 1)) % w32 }.set i fun u => { u with inDepth := false }
    else s
  { s with ver := s.ver ++ [i] }

/-- /repo/io_u.c:2283-2299, the end of `io_completed`; the result is `icd->error`. -/
def compErr (s : St) (i : Nat) (keep : Bool) (e : Bool) (cp : Comp) : Res (Bool × Bool) :=
  if e then
    if cp.nonFatal then
      let s := { s with error := false }
      .ok (if keep then s.set i fun u => { u with err := false } else s) (keep, false)
    else .ok s (keep, true)
  else .ok s (keep, false)

/-- /repo/io_u.c:2158-2299 `io_completed`.  The result says whether the unit is still there (`*io_u_ptr`), and
`icd->error`. -/
def ioCompleted (c : Cfg) (s : St) (i : Nat) (e : Bool) (cp : Comp) : Res (Bool × Bool) :=
  if !(s.u i).flight then .crash else
  let s := clearInflight s i
  let u := s.u i
  if !u.ddir.rw then
    if u.err then compErr { s with error := s.error || !cp.nonFatal } i true true cp
    else .ok s (true, e)
  else if !u.err then
    let bytes := u.xferLen - u.resid
    let short := bytes ≠ 0 && u.resid ≠ 0
    let s := if short then
        s.set i fun u => { u with xferLen := u.resid, bufOff := u.bufOff + bytes, offset := u.offset + bytes }
      else s
    if short && !cp.eof then (requeueIoU c s i).bind fun s _ => .ok s (false, e)
    else
      let s := { s with ioBytes := upd s.ioBytes u.ddir (s.ioBytes u.ddir + bytes) }
      if u.endIo then
        if c.async then compErr (verifyAsync s i) i false e cp
        else compErr s i true (e || cp.endErr) cp
      else compErr s i true e cp
  else if cp.expected then compErr s i true e cp
  else compErr { s with error := s.error || !cp.nonFatal } i true true cp

/-- /repo/io_u.c:2327-2345 `ios_completed`. -/
def iosCompleted (c : Cfg) : St → List (Nat × Comp) → Bool → Res Bool
  | s, [], e => .ok s e
  | s, (i, cp) :: evs, e =>
    (ioCompleted c s i e cp).bind fun s r =>
      (if r.1 then putIoU c s i else .ok s ()).bind fun s _ => iosCompleted c s evs r.2

/-- /repo/io_u.c:2361-2379 `io_u_sync_complete`. -/
def syncComplete (c : Cfg) (s : St) (i : Nat) (cp : Comp) : Res Ret :=
  (ioCompleted c s i false cp).bind fun s r =>
    (if r.1 then putIoU c s i else .ok s ()).bind fun s _ =>
      if r.2 then .ok { s with error := true } .err else .ok s .completed

/-- /repo/io_u.c:2384-2417 `io_u_queued_complete`; `none` is a negative result. -/
def queuedComplete (c : Cfg) (s : St) (min : Nat) (a : Ev) : Res (Option Nat) :=
  let min := if min ≠ 0 ∧ min > s.depth then s.depth else min
  match tdIoGetevents c s min c.cmax a with
  | (s, none) => .ok { s with error := true } none
  | (s, some evs) =>
    if evs.isEmpty then .ok s (some 0)
    else (iosCompleted c s evs false).bind fun s e =>
      if e then .ok { s with error := true } none else .ok s (some evs.length)

/-- The loop of /repo/io_u.c:724-730. -/
def quiesceLoop (c : Cfg) : St → List Ev → Res Unit
  | s, [] => if s.inFlight = 0 then .ok s () else .more s
  | s, a :: as => if s.inFlight = 0 then .ok s () else (queuedComplete c s 1 a).bind fun s _ => quiesceLoop c s as

/-- /repo/io_u.c:708-739 `io_u_quiesce`. -/
def quiesce (c : Cfg) (s : St) (cf : Bool) (as : List Ev) : Res Unit :=
  quiesceLoop c (if s.queued ≠ 0 ∨ s.depth ≠ 0 then tdIoCommit c s cf else s) as

/-- The loop of /repo/backend.c:443-447. -/
def waitLoop (c : Cfg) (full : Bool) (min : Nat) : St → List Ev → Res Bool
  | s, [] => .more s
  | s, a :: as => (queuedComplete c s min a).bind fun s r =>
    match r with
    | none => .ok s true
    | some _ => if full && s.depth > c.low then waitLoop c full min s as else .ok s false

/-- /repo/backend.c:424-450 `wait_for_completions`, without `TD_F_REGROW_LOGS` (then it is `io_u_quiesce`).  The
result says whether it is negative. -/
def waitFor (c : Cfg) (s : St) (lat : Bool) (as : List Ev) : Res Bool :=
  let full := queueFull c s lat
  let min := min c.cmin s.depth
  let min := if (full && min = 0) || c.cmin = 0 then 1 else min
  waitLoop c full min s as

/-- What `break_on_this_error` finds in the options. -/
inductive Brk where
  | go | stop | stopClear

/-- /repo/backend.c:369-408 `break_on_this_error`. -/
def breakOn (s : St) (r : Ret) (b : Brk) : St × Ret × Bool :=
  if r = .err ∨ s.error then
    match b with
    | .go => ({ s with error := false }, .completed, false)
    | .stop => (s, r, true)
    | .stopClear => ({ s with error := false }, r, true)
  else (s, r, false)

/-- /repo/backend.c:452-542 `io_queue_event`; `cp` is what the engine answered if it completed.  The result is `ret`
and whether to leave the loop. -/
def ioQueueEvent (c : Cfg) (s : St) (i : Nat) (r : Ret) (fromVerify : Bool) (cp : Comp) (cf : Bool) (b : Brk) :
    Res (Ret × Bool) :=
  let fin (s : St) (r : Ret) : Res (Ret × Bool) := let x := breakOn s r b; .ok x.1 (x.2.1, x.2.2)
  let fin' (s : St) (r : Ret) : Res (Ret × Bool) := if fromVerify then .ok s (r, false) else fin s r
  let syncDone (s : St) : Res (Ret × Bool) := (syncComplete c s i cp).bind fun s r =>
    if r = .err then fin s r else fin' s r
  match r with
  | .completed =>
    if (s.u i).err then (clearIoU c s i).bind fun s _ => fin' s .err
    else if (s.u i).resid ≠ 0 then
      let bytes := (s.u i).xferLen - (s.u i).resid
      if bytes = 0 then (clearIoU c { s with error := true } i).bind fun s _ => fin s .completed
      else
        let s := s.set i fun u => { u with xferLen := u.resid, bufOff := u.bufOff + bytes, offset := u.offset + bytes }
        if cp.eof then syncDone s
        else (requeueIoU c s i).bind fun s _ => fin' s .completed
    else syncDone s
  | .queued => fin s .queued
  | .busy => (requeueIoU c s i).bind fun s _ => fin (tdIoCommit c s cf) .busy
  | .err => fin { s with error := true } .err

/-- How a unit from the free list is filled: by the generators, an I/O log, or the verification or trim lists. -/
structure Fill where
  ddir : Dir
  acct : Option Dir
  buflen : Nat
  offset : Nat
  verList : Bool
  trimmed : Bool
  deriving Repr

/-- Answers for one turn of the loop of `do_io`. -/
structure It where
  /-- the loop's conditions, lines 1197-1232 -/
  stop : Bool
  vd1 : List Nat
  lat1 : Bool
  /-- `io_u_quiesce` while the unit is filled (rate control and others) -/
  quiesce1 : Option (Bool × List Ev)
  /-- `none`: no file or offset; the flag says EBUSY -/
  fill : Option Fill
  fillBusy : Bool
  prepFail : Bool
  /-- verify state: this number is to be skipped, or the last was reached -/
  skip : Bool
  last : Bool
  /-- `end_io` is set for verification -/
  verify : Bool
  /-- `in_flight_overlap` -/
  overlap : Bool
  q : Q
  cf : Bool
  brk : Brk
  vd2 : List Nat
  lat2 : Bool
  evs : List Ev
  think : Option (Bool × List Ev)

/-- What a look for a unit gives. -/
inductive Got where
  | unit (i : Nat)
  | none
  | busy

/-- /repo/io_u.c:1924-2015 `get_io_u`. -/
def getIoU (c : Cfg) (s : St) (a : It) : Res Got :=
  (getU c s a.vd1 a.lat1).bind fun s o =>
  match o with
  | none => .ok s .none
  | some i =>
    let prep (s : St) : Res Got :=
      if a.prepFail then (putIoU c s i).bind fun s _ => .ok s .none else .ok s (.unit i)
    if (s.u i).file then prep s
    else
      (match a.quiesce1 with
        | Option.none => Res.ok s ()
        | some x => quiesce c s x.1 x.2).bind fun s _ =>
      match a.fill with
      | Option.none => (putIoU c s i).bind fun s _ => .ok s (if a.fillBusy then .busy else .none)
      | some f => prep (s.set i fun u =>
          { u with file := true, ddir := f.ddir, acct := f.acct, buflen := f.buflen, offset := f.offset,
                   off0 := f.offset, xferLen := f.buflen, bufOff := 0, verList := f.verList, trimmed := f.trimmed })

/-- /repo/backend.c:604-615 `io_u_submit`. -/
def submit (c : Cfg) (s : St) (i : Nat) (overlap : Bool) (q : Q) (cf : Bool) : Res Ret :=
  if s.depth > 1 && overlap then .ok s .busy else tdIoQueue c s i q cf

/-- How the loops go on. -/
inductive Next where
  | again (r : Ret)
  | leave

/-- /repo/backend.c:1367-1371 and 790-793: look for completions. -/
def reap (c : Cfg) (s : St) (r : Ret) (vd : List Nat) (lat : Bool) (evs : List Ev) : Res Ret :=
  (verDones c s vd).bind fun s _ =>
  let full := queueFull c s lat || (r = .busy && s.depth ≠ 0)
  if full || (c.cmin = 0 && c.cmax = 0) then
    (waitFor c s lat evs).bind fun s neg => .ok s (if neg then .err else .completed)
  else .ok s r

/-- /repo/backend.c:1373-1380: the end of a turn. -/
def turnEnd (c : Cfg) (s : St) (r : Ret) (a : It) : Res Next :=
  if r = .err then .ok s .leave
  else match a.think with
    | none => .ok s (.again r)
    | some x => (quiesce c s x.1 x.2).bind fun s _ => .ok s (.again r)

/-- What the engine says about a completed unit. -/
def Q.comp : Q → Comp
  | .completed cp => cp
  | _ => ⟨false, 0, false, false, false, false⟩

/-- One turn of the loop of /repo/backend.c:1197-1396 (`do_io`), without the check of the minimum rate; `r` is `ret` of
the turn before. -/
def doIoTurn (c : Cfg) (s : St) (r : Ret) (a : It) : Res Next :=
  if a.stop then .ok s .leave else
  (getIoU c s a).bind fun s g =>
  match g with
  | .none =>
    if c.latTarget then (reap c s r a.vd2 a.lat2 a.evs).bind fun s r => turnEnd c s r a
    else .ok s .leave
  | .busy => (reap c s .busy a.vd2 a.lat2 a.evs).bind fun s r => turnEnd c s r a
  | .unit i =>
    -- lines 1250-1256
    let s := if (s.u i).ddir = .write ∧ c.doVerify then s.set i fun u => { u with patDone := true } else s
    if a.verify && a.skip then
      let d := (s.u i).ddir
      (putIoU c { s with issues := upd s.issues d ((s.issues d + 1) % w64) } i).bind fun s _ => .ok s (.again r)
    else if a.verify && a.last then (putIoU c s i).bind fun s _ => .ok s .leave
    else
      let s := if a.verify then s.set i fun u => { u with endIo := true } else s
      (submit c s i a.overlap a.q a.cf).bind fun s r =>
      (ioQueueEvent c s i r false a.q.comp a.cf a.brk).bind fun s x =>
      if x.2 then .ok s .leave
      else (reap c s x.1 a.vd2 a.lat2 a.evs).bind fun s r => turnEnd c s r a

/-- The loop of `do_io`. -/
def doIoLoop (c : Cfg) : St → Ret → List It → Res Unit
  | s, _, [] => .more s
  | s, r, a :: as => (doIoTurn c s r a).bind fun s n =>
    match n with
    | .again r => doIoLoop c s r as
    | .leave => .ok s ()

/-- Answers for `fio_io_sync`. -/
structure Sy where
  vd : List Nat
  lat : Bool
  prepFail : Bool
  /-- the answers to `queue`, with those to `commit` -/
  qs : List (Q × Bool)
  ev : Ev

/-- The loop at `requeue` of /repo/backend.c:252-274. -/
def syncLoop (c : Cfg) (ev : Ev) (i : Nat) : St → List (Q × Bool) → Res Unit
  | s, [] => .more s
  | s, (q, cf) :: qs => (tdIoQueue c s i q cf).bind fun s r =>
    match r with
    | .queued => (queuedComplete c (tdIoCommit c s cf) 1 ev).bind fun s _ => .ok s ()
    | .completed =>
      if (s.u i).err then .ok { s with error := true } ()
      else (syncComplete c s i q.comp).bind fun s _ => .ok s ()
    | .busy => syncLoop c ev i (tdIoCommit c s cf) qs
    | .err => .ok s ()

/-- /repo/backend.c:235-277 `fio_io_sync`. -/
def ioSync (c : Cfg) (s : St) (a : Sy) : Res Unit :=
  (getU c s a.vd a.lat).bind fun s o =>
  match o with
  | none => .ok s ()
  | some i =>
    let s := s.set i fun u => { u with ddir := .sync, file := true }
    if a.prepFail then putIoU c s i else syncLoop c a.ev i s a.qs

/-- Several files. -/
def ioSyncs (c : Cfg) : St → List Sy → Res Unit
  | s, [] => .ok s ()
  | s, a :: as => (ioSync c s a).bind fun s _ => ioSyncs c s as

/-- /repo/backend.c:1403-1448: after the loop of `do_io`.  `clear`: the error is that the device is full, which
`fill_device` expects; `nob`: no bytes were transferred (`done`). -/
def doIoEnd (c : Cfg) (s : St) (ev : Ev) (syncs : List Sy) (clear nob : Bool) : Res Unit :=
  (if !(s.error && !clear) then
    (if s.depth ≠ 0 then queuedComplete c { s with error := false } s.depth ev
      else .ok { s with error := false } (some 0)).bind fun s _ =>
      if syncs.isEmpty then .ok s () else ioSyncs c { s with fsyncing := true } syncs
  else (queuedComplete c s s.depth ev).bind fun s _ => .ok s ()).bind fun s _ =>
  .ok { s with done := s.done || nob } ()

/-- One turn of the loop of /repo/backend.c:653-797 (`do_verify`), without `experimental_verify`. -/
def doVerifyTurn (c : Cfg) (s : St) (a : It) : Res Next :=
  if a.stop then .ok s .leave else
  (getU c s a.vd1 a.lat1).bind fun s o =>
  match o with
  | none => .ok s .leave
  | some i =>
    (match (s.u i).file, a.fill with
      | true, _ => Res.ok s true
      | false, some f => .ok (s.set i fun u =>
          { u with file := true, ddir := .read, buflen := f.buflen, offset := f.offset, off0 := f.offset,
                   xferLen := f.buflen, bufOff := 0, verList := true, trimmed := f.trimmed }) true
      | false, Option.none => .ok s false).bind fun s fill =>
    if !fill || a.prepFail || a.last then (putIoU c s i).bind fun s _ => .ok s .leave
    else
      let s := s.set i fun u => { u with endIo := true }
      (submit c s i a.overlap a.q a.cf).bind fun s r =>
      (ioQueueEvent c s i r true a.q.comp a.cf a.brk).bind fun s x =>
      if x.2 then .ok s .leave
      else (reap c s x.1 a.vd2 a.lat2 a.evs).bind fun s r =>
        .ok s (if r = Ret.err then Next.leave else Next.again r)

/-- The loop of `do_verify`. -/
def doVerifyLoop (c : Cfg) : St → List It → Res Unit
  | s, [] => .more s
  | s, a :: as => (doVerifyTurn c s a).bind fun s n =>
    match n with
    | .again _ => doVerifyLoop c s as
    | .leave => .ok s ()

/-- The phases of a job. -/
inductive Phase where
  /-- `do_io` -/
  | io (as : List It) (ev : Ev) (syncs : List Sy) (clear nob : Bool)
  /-- `do_verify` -/
  | verify (syncs : List Sy) (as : List It) (ev : Ev)

/-- /repo/backend.c:621-807 `do_verify`, 1153-1452 `do_io`. -/
def phase (c : Cfg) (s : St) : Phase → Res Unit
  | .io as ev syncs clear nob => (doIoLoop c s .completed as).bind fun s _ => doIoEnd c s ev syncs clear nob
  | .verify syncs as ev => (ioSyncs c s syncs).bind fun s _ =>
    if s.error then .ok s ()
    else (doVerifyLoop c s as).bind fun s _ =>
      if s.depth ≠ 0 then (queuedComplete c s s.depth ev).bind fun s _ => .ok s () else .ok s ()

/-- Several phases; between them counters and states are reset, which the answers cover. -/
def phases (c : Cfg) : St → List Phase → Res Unit
  | s, [] => .ok s ()
  | s, p :: ps => (phase c s p).bind fun s _ => phases c { s with fsyncing := false, error := false } ps

/-- A unit after /repo/backend.c:1508-1571 `init_io_u`. -/
def freshU : U :=
  ⟨true, false, false, false, false, false, false, .read, none, 0, 0, 0, 0, 0, 0, false, false⟩

/-- /repo/backend.c:1508-1571 `init_io_u`. -/
def init (c : Cfg) : St :=
  ⟨fun _ => freshU, (List.range c.n).reverse, [], [], [], 0, 0, 0, fun _ => 0, fun _ => 0, fun _ => 0, fun _ => 0,
   false, false, false, false⟩

end Fio.IoU
