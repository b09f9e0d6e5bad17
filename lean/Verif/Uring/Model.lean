/-!
# The rings of the io_uring engine (engines/io_uring.c)

The submission ring and the completion ring shared with the kernel, the four calls of the engine that work on them, and a
kernel that takes entries, finishes them in any order and posts what it has finished at any time.  The counters of the
rings are 32 bits wide.  Units are their numbers (`io_u->index`).  Not modelled: what the entries contain (property C84),
memory order, statistics.  Kernel answers are lists; when a list is used up the call is still `running`.
-/

namespace Fio.Uring

/-- /repo/lib/fls.h:12-39 `__fls`, for the 32 bits of its argument. -/
def fls (x : Nat) : Nat :=
  if x = 0 then 0
  else
    let (x, r) := if x &&& 0xffff0000 = 0 then (x * 2 ^ 16 % 2 ^ 32, 32 - 16) else (x, 32)
    let (x, r) := if x &&& 0xff000000 = 0 then (x * 2 ^ 8 % 2 ^ 32, r - 8) else (x, r)
    let (x, r) := if x &&& 0xf0000000 = 0 then (x * 2 ^ 4 % 2 ^ 32, r - 4) else (x, r)
    let (x, r) := if x &&& 0xc0000000 = 0 then (x * 2 ^ 2 % 2 ^ 32, r - 2) else (x, r)
    if x &&& 0x80000000 = 0 then r - 1 else r

/-- /repo/lib/roundup.h:6-9 `roundup_pow2` -/
def roundupPow2 (depth : Nat) : Nat := 1 <<< fls (depth - 1)

/-- `struct ioring_data` and the memory shared with the kernel (/repo/engines/io_uring.c:130-200).  `depth` is `iodepth` of the
job; the rings have `sqn` and `cqn` places; `queued` counts the entries not handed over yet; `off` is `cq_ring_off`. -/
structure Ld where
  depth : Nat
  sqn : Nat
  cqn : Nat
  sqpoll : Bool
  array : List Nat
  sqHead : Nat
  sqTail : Nat
  cqes : List (Nat × Int)
  cqHead : Nat
  cqTail : Nat
  queued : Nat
  off : Nat
deriving DecidableEq, Repr

/-- With the history: the units queued (`acc`), taken by the kernel (`sub`), marked as issued (`issued`), in the kernel
(`fly`), the completions posted (`posted`), how many of them are consumed or dealt with (`nread`), those handed to the job
(`back`), and those thrown away (`lost`). -/
structure St where
  ld : Ld
  acc : List Nat
  sub : List Nat
  issued : List Nat
  fly : List Nat
  posted : List (Nat × Int)
  nread : Nat
  back : List (Nat × Int)
  lost : List (Nat × Int)
deriving DecidableEq, Repr

/-- /repo/engines/io_uring.c:1807-1816, 1468-1558: rings of at least `roundup_pow2(iodepth)` places, all empty. -/
def init (depth sqn cqn : Nat) (sqpoll : Bool) : St :=
  { ld := {
      depth := depth
      sqn := sqn
      cqn := cqn
      sqpoll := sqpoll
      array := List.replicate sqn 0
      sqHead := 0
      sqTail := 0
      cqes := List.replicate cqn (0, 0)
      cqHead := 0
      cqTail := 0
      queued := 0
      off := 0 }
    acc := []
    sub := []
    issued := []
    fly := []
    posted := []
    nread := 0
    back := []
    lost := [] }

/-- `unsigned` -/
def u32 (n : Nat) : Nat := n % 2 ^ 32

/-- Subtraction of `unsigned` numbers. -/
def sub32 (a b : Nat) : Nat := (a + 2 ^ 32 - b) % 2 ^ 32

/-- Units the job does not have in its hands. -/
def out (s : St) : List Nat :=
  s.acc.drop s.sub.length ++ s.fly ++ (s.posted.drop s.nread).map (·.1) ++ s.lost.map (·.1)

/-! ## The kernel -/

/-- The kernel takes one entry. -/
def takeOne (s : St) : St :=
  if sub32 s.ld.sqTail s.ld.sqHead = 0 then s
  else
    match s.ld.array[s.ld.sqHead &&& (s.ld.sqn - 1)]? with
    | none => s
    | some u =>
      { s with
        ld := { s.ld with sqHead := u32 (s.ld.sqHead + 1) }
        sub := s.sub ++ [u]
        fly := s.fly ++ [u] }

/-- The kernel takes up to `n` entries. -/
def take : Nat → St → St
  | 0, s => s
  | n + 1, s => take n (takeOne s)

/-- The kernel posts the completion of one of its units, if there is room for it. -/
def post (s : St) (p : Nat × Int) : St :=
  if sub32 s.ld.cqTail s.ld.cqHead ≥ s.ld.cqn then s
  else
    match s.fly[p.1 % s.fly.length]? with
    | none => s
    | some u =>
      { s with
        ld := { s.ld with
          cqes := s.ld.cqes.set (s.ld.cqTail &&& (s.ld.cqn - 1)) (u, p.2)
          cqTail := u32 (s.ld.cqTail + 1) }
        fly := s.fly.eraseIdx (p.1 % s.fly.length)
        posted := s.posted ++ [(u, p.2)] }

/-- Several completions. -/
def posts (s : St) (ps : List (Nat × Int)) : St := ps.foldl post s

/-! ## The engine -/

/-- What calls lead to; `blocked`: the kernel waits for more events than can come. -/
inductive Res (α : Type)
  | ok (a : α)
  | running
  | blocked
  | crash
deriving DecidableEq, Repr

/-- /repo/ioengines.h:23-27 -/
inductive Status
  | completed | queued | busy
deriving DecidableEq, Repr

/-- /repo/engines/io_uring.c:1196-1266 `fio_ioring_queue`: `sync` is a unit that is done at once (`DDIR_SYNCFS`, or a trim
after an asynchronous one has failed). -/
def queue (s : St) (sync : Bool) (u : Nat) : Res (St × Status) :=
  if s.ld.queued = s.ld.depth then .ok (s, .busy)
  else if sync then
    if s.ld.queued ≠ 0 then .ok (s, .busy) else .ok (s, .completed)
  else if s.ld.sqTail &&& (s.ld.sqn - 1) < s.ld.array.length then
    .ok ({ s with
      ld := { s.ld with
        array := s.ld.array.set (s.ld.sqTail &&& (s.ld.sqn - 1)) u
        sqTail := u32 (s.ld.sqTail + 1)
        queued := s.ld.queued + 1 }
      acc := s.acc ++ [u] }, .queued)
  else .crash

/-- /repo/engines/io_uring.c:1268-1294 `fio_ioring_queued`: the units in the places from `start`. -/
def mark (ld : Ld) (start : Nat) : Nat → Option (List Nat)
  | 0 => some []
  | n + 1 =>
    match ld.array[start &&& (ld.sqn - 1)]? with
    | none => none
    | some u => (mark ld (u32 (start + 1)) n).map (u :: ·)

/-- /repo/engines/io_uring.c:1099-1120 `fio_ioring_cqring_reap` -/
def reap (ld : Ld) (max : Nat) : Ld × Nat :=
  let available := sub32 ld.cqTail ld.cqHead
  if available = 0 then (ld, 0)
  else
    let available := min available max
    ({ ld with cqHead := u32 (ld.cqHead + available) }, available)

/-- What `io_uring_enter` answers: `EAGAIN` or `EINTR`; error number `e + 1`. -/
inductive SRes
  | took (n : Nat)
  | again
  | err (e : Nat)
deriving DecidableEq, Repr

/-- Events consumed but never looked at. -/
def drop (s : St) (n : Nat) : St :=
  { s with
    lost := s.lost ++ (s.posted.drop s.nread).take n
    nread := s.nread + n }

/-- /repo/engines/io_uring.c:1324-1337: the kernel takes `n` of the entries offered (1330-1334), or none (1335-1337). -/
def tookStep (s : St) (n : Nat) : Option St :=
  let start := s.ld.sqHead
  let n := min n s.ld.queued
  if n > 0 then
    let s := take n s
    match mark s.ld start n with
    | none => none
    | some us => some { s with ld := { s.ld with queued := s.ld.queued - n }, issued := s.issued ++ us }
  else some s

/-- /repo/engines/io_uring.c:1339-1345: as many completions as there are entries waiting are consumed. -/
def againStep (s : St) : St :=
  let x := reap s.ld s.ld.queued
  drop { s with ld := x.1 } x.2

/-- The loop of /repo/engines/io_uring.c:1323-1354; before each call completions come in. -/
def commitLoop : List (List (Nat × Int) × SRes) → St → Res (St × Int)
  | [], _ => .running
  | (ps, .took n) :: as, s =>
    match tookStep (posts s ps) n with
    | none => .crash
    | some s => if s.ld.queued ≠ 0 then commitLoop as s else .ok (s, 0)
  | (ps, .again) :: as, s =>
    let s := againStep (posts s ps)
    if s.ld.queued ≠ 0 then commitLoop as s else .ok (s, 0)
  | (ps, .err e) :: _, s => .ok (posts s ps, -(e + 1))

/-- /repo/engines/io_uring.c:1296-1356 `fio_ioring_commit` -/
def commit (as : List (List (Nat × Int) × SRes)) (s : St) : Res (St × Int) :=
  if s.ld.queued = 0 then .ok (s, 0)
  else if s.ld.sqpoll then
    let start := sub32 s.ld.sqTail s.ld.queued
    match mark s.ld start s.ld.queued with
    | none => .crash
    | some us => .ok ({ s with ld := { s.ld with queued := 0 }, issued := s.issued ++ us }, 0)
  else commitLoop as s

/-- What the second use of `io_uring_enter` answers; error number `e + 1`. -/
inductive GRes
  | ok
  | again
  | err (e : Nat)
deriving DecidableEq, Repr

/-- What `fio_ioring_getevents` returns: a negative error number; the number of events. -/
inductive Out
  | error (e : Int)
  | events (n : Nat)
deriving DecidableEq, Repr

/-- /repo/engines/io_uring.c:1134 -/
def reapStep (s : St) (max : Nat) : St × Nat :=
  let x := reap s.ld max
  ({ s with ld := x.1 }, x.2)

/-- /repo/engines/io_uring.c:1140-1141, `actual_min` after `r` more events. -/
def nextMin (amin r : Nat) : Nat := if r ≠ 0 ∧ amin ≠ 0 then sub32 amin r else amin

/-- What `io_uring_enter(IORING_ENTER_GETEVENTS)` waits for: `amin` events in the ring. They never come if there are not as many
units to come. -/
def starved (s : St) (amin : Nat) : Bool := decide (amin > s.fly.length + sub32 s.ld.cqTail s.ld.cqHead)

/-- /repo/engines/io_uring.c:1136-1155, the rest of the body after `r` more events; `loop` goes round again. -/
def getBody (min : Nat) (g : GRes) (s : St) (events r amin : Nat) (loop : St → Nat → Nat → Res (St × Out)) : Res (St × Out) :=
  if r ≠ 0 ∧ events + r ≥ min then .ok (s, .events (events + r))
  else if s.ld.sqpoll then loop s (events + r) (nextMin amin r)
  else if starved s (nextMin amin r) then .blocked
  else
    match g with
    | .ok => loop s (events + r) (nextMin amin r)
    | .again => loop s (events + r) (nextMin amin r)
    | .err e => .ok (drop s (events + r), .error (-(e + 1)))

/-- The loop of /repo/engines/io_uring.c:1133-1155; `events` so far, `amin` is `actual_min`. -/
def getLoop (min max : Nat) : List (List (Nat × Int) × GRes) → St → Nat → Nat → Res (St × Out)
  | [], _, _, _ => .running
  | x :: gs, s, events, amin =>
    getBody min x.2 (reapStep (posts s x.1) (max - events)).1 events (reapStep (posts s x.1) (max - events)).2 amin
      (getLoop min max gs)

/-- /repo/engines/io_uring.c:1122-1156 `fio_ioring_getevents`; `bcm` is `iodepth_batch_complete_min`. -/
def getevents (bcm min max : Nat) (gs : List (List (Nat × Int) × GRes)) (s : St) : Res (St × Out) :=
  getLoop min max gs { s with ld := { s.ld with off := s.ld.cqHead } } 0 (if bcm = 0 then 0 else min)

/-- /repo/engines/io_uring.c:963-966, the entry `fio_ioring_event` looks at. -/
def event (ld : Ld) (i : Nat) : Option (Nat × Int) := ld.cqes[u32 (i + ld.off) &&& (ld.cqn - 1)]?

/-- /repo/io_u.c:2327-2341 `ios_completed`: the job looks at all events. -/
def readEvents (s : St) : Nat → Option (List (Nat × Int))
  | 0 => some []
  | n + 1 =>
    match readEvents s n, event s.ld n with
    | some es, some e => some (es ++ [e])
    | _, _ => none

/-- /repo/ioengines.c:304-316 and /repo/io_u.c:2399-2400: the values `td_io_getevents` passes on; `cur` is `cur_depth`. -/
def clamp (cur min max : Nat) : Nat × Nat :=
  let min := if min > cur then cur else min
  let max := if max > cur then cur else max
  (min, if min > max then min else max)

/-- What happens, in any order: the job queues a unit, hands over, collects events (more completions come in before it looks
at them); the kernel takes entries on its own if it polls, and posts completions. -/
inductive Op
  | queue (sync : Bool) (u : Nat)
  | commit (as : List (List (Nat × Int) × SRes))
  | get (bcm min max cur : Nat) (gs : List (List (Nat × Int) × GRes)) (late : List (Nat × Int))
  | poll (n : Nat)
  | post (ps : List (Nat × Int))
deriving Repr

/-- The job queues only units it has (`u < iodepth`, and neither queued, in flight, nor waiting to be looked at). -/
def step (s : St) : Op → Res St
  | .queue sync u =>
    if u < s.ld.depth ∧ u ∉ out s then
      match queue s sync u with
      | .crash => .crash
      | .running => .running
      | .blocked => .blocked
      | .ok (s, _) => .ok s
    else .ok s
  | .commit as =>
    match commit as s with
    | .crash => .crash
    | .running => .running
    | .blocked => .blocked
    | .ok (s, _) => .ok s
  | .get bcm min max cur gs late =>
    match getevents bcm (clamp (u32 cur) min max).1 (clamp (u32 cur) min max).2 gs s with
    | .crash => .crash
    | .running => .running
    | .blocked => .blocked
    | .ok (s, .error _) => .ok s
    | .ok (s, .events n) =>
      let s := posts s late
      match readEvents s n with
      | none => .crash
      | some es => .ok { s with back := s.back ++ es, nread := s.nread + n }
  | .poll n => .ok (if s.ld.sqpoll then take n s else s)
  | .post ps => .ok (posts s ps)

/-- One after the other. -/
def run : St → List Op → Res St
  | s, [] => .ok s
  | s, o :: os =>
    match step s o with
    | .crash => .crash
    | .running => .running
    | .blocked => .blocked
    | .ok s => run s os

end Fio.Uring
