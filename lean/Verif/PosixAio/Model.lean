/-!
# Reaping in the posixaio engine (engines/posixaio.c)
-/

namespace Fio.PosixAio

/-- What `aio_error` and `aio_return` say about a request that is over (C library). -/
inductive Res
  | done (n : Nat)
  | canceled
  | failed (err : Nat)
  deriving Repr, DecidableEq

/-- A unit: `IO_U_F_FLIGHT`, `seen`, `xfer_buflen`, `resid`, `error`, and the state of its request, `none` while it is in progress. -/
structure U where
  flight : Bool
  seen : Bool
  buflen : Nat
  resid : Nat
  error : Nat
  aio : Option Res
  deriving Repr, DecidableEq

/-- /repo/engines/posixaio.c:83-95: the unit gets its result; `resid` has 64 bits -/
def result (u : U) : Res → U
  | .canceled => { u with seen := true, resid := u.buflen }
  | .done n => { u with seen := true, resid := (u.buflen + 2 ^ 64 - n) % 2 ^ 64 }
  | .failed e => { u with seen := true, error := e }

/-- /repo/engines/posixaio.c:66-96: a pass over all units from number `i`: units afterwards, those found, those still in progress -/
def scan : List U → Nat → List U × List Nat × List Nat
  | [], _ => ([], [], [])
  | u :: us, i =>
    let (us', ev, wait) := scan us (i + 1)
    if u.seen || !u.flight then (u :: us', ev, wait)
    else match u.aio with
      | none => (u :: us', ev, i :: wait)
      | some r => (result u r :: us', i :: ev, wait)

/-- `suspend_list` has 8 entries (/repo/engines/posixaio.c:46, 76-79) -/
def suspendList (us : List U) : List Nat := (scan us 0).2.2.take 8

/-- The system: the request of unit `i` is over. -/
def finish (us : List U) : List (Nat × Res) → List U
  | [] => us
  | (i, r) :: l => finish (us.modify i fun u => if u.flight && u.aio.isNone then { u with aio := some r } else u) l

/-- What happens before a pass, and whether the time is over behind it. -/
structure Round where
  fin : List (Nat × Res)
  late : Bool
  deriving Repr, DecidableEq

inductive Out
  | ret (us : List U) (queued : Int) (ev : List Nat)
  | waiting (us : List U) (queued : Int) (ev : List Nat)
  | crash
  deriving Repr, DecidableEq

/-- /repo/engines/posixaio.c:48-116 `fio_posixaio_getevents`: passes until there are `min` events or the time is over; `cap` is the length of
`aio_events` (behind it `crash`), `waiting` that it sleeps in `aio_suspend` -/
def getevents (cap min : Nat) : List Round → List U → Int → List Nat → Out
  | [], us, q, ev => .waiting us q ev
  | rd :: rds, us, q, ev =>
    let (us', new, _) := scan (finish us rd.fin) 0
    if (ev ++ new).length > cap then .crash
    else if (ev ++ new).length ≥ min then .ret us' (q - new.length) (ev ++ new)
    else if rd.late then .ret us' (q - new.length) (ev ++ new)
    else getevents cap min rds us' (q - new.length) (ev ++ new)

end Fio.PosixAio
