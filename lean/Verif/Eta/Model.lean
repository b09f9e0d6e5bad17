/-!
# Requests for the ETA to several servers (client.c)

A client asks all its servers now and then how far they are, adds up the answers and shows the sum.  Of an answer one number is kept.
A `struct client_eta` is named by its number; `none` is a failed assertion or the use of one that was freed.
-/

namespace Fio.Eta

/-- /repo/client.h:112-115 `struct client_eta`: `pending`, the answers so far; `freed` -/
structure Req where
  pending : Nat
  got : List Nat
  freed : Bool

/-- A server, /repo/client.h:40-88 `struct fio_client`: whether it is connected, `state == Client_running`, whether messages can be sent to it,
whether it is on `eta_list`, `eta_in_flight`, and the tags of the answers awaited (`cmd_list`). -/
structure Cl where
  here : Bool
  running : Bool
  alive : Bool
  onList : Bool
  inflight : Option Nat
  cmds : List Nat

structure St where
  cls : List Cl
  reqs : List Req
  /-- what was shown: number of the request, answers -/
  shown : List (Nat × List Nat)

/-- /repo/client.c:280-289 `fio_client_dec_jobs_eta`; counting below 0 is an error here -/
def dec (st : St) (e : Nat) : Option St :=
  match st.reqs[e]? with
  | none => none
  | some x =>
    if x.freed = true ∨ x.pending = 0 then none
    else if x.pending = 1 then some { st with reqs := st.reqs.set e { x with pending := 0, freed := true }, shown := st.shown ++ [(e, x.got)] }
    else some { st with reqs := st.reqs.set e { x with pending := x.pending - 1 } }

/-- /repo/client.c:2040-2056, a round of the loop of `request_client_etas`: a server is asked -/
def askOne (e : Nat) (c : Cl) : Option Cl :=
  if c.here = false then some c
  else if c.onList = true then some c
  else if c.running = false then some c
  else if c.inflight.isSome then none
  else some { c with onList := true, inflight := some e, cmds := if c.alive then c.cmds ++ [e] else c.cmds }

/-- /repo/client.c:2058-2061, for the servers skipped -/
def skip (st : St) (e : Nat) : Nat → Option St
  | 0 => some st
  | n + 1 =>
    match dec st e with
    | none => none
    | some st =>
      match st.reqs[e]? with
      | some x => if x.freed then some st else skip st e n
      | none => none

/-- /repo/client.c:2025-2064 `request_client_etas` -/
def request (st : St) : Option St :=
  let e := st.reqs.length
  let nr := st.cls.countP (fun c => c.here)
  match st.cls.mapM (askOne e) with
  | none => none
  | some cls =>
    skip { st with cls := cls, reqs := st.reqs ++ [{ pending := nr, got := [], freed := false }] } e
      (st.cls.countP fun c => c.here && c.onList)

/-- /repo/client.c:1360-1383 `remove_reply_cmd` and /repo/client.c:1409-1427 `handle_eta`: answer `v` with tag `t` from server `i` -/
def reply (st : St) (i t v : Nat) : Option St :=
  match st.cls[i]? with
  | none => some st
  | some c =>
    if c.here = false ∨ t ∉ c.cmds then some st
    else if c.inflight ≠ some t then none
    else
      match st.reqs[t]? with
      | none => none
      | some x =>
        if x.freed then none
        else dec { st with cls := st.cls.set i { c with onList := false, inflight := none, cmds := c.cmds.erase t },
                           reqs := st.reqs.set t { x with got := x.got ++ [v] } } t

/-- /repo/client.c:2069-2094 `handle_cmd_timeout` for the answer with tag `t` -/
def timeout (st : St) (i t : Nat) : Option St :=
  match st.cls[i]? with
  | none => some st
  | some c =>
    if c.here = false ∨ t ∉ c.cmds then some st
    else
      match c.inflight with
      | none => some { st with cls := st.cls.set i { c with onList := false, cmds := c.cmds.erase t } }
      | some e => dec { st with cls := st.cls.set i { c with onList := false, inflight := none, cmds := c.cmds.erase t } } e

/-- /repo/client.c:310-336 `remove_client` -/
def remove (st : St) (i : Nat) : Option St :=
  match st.cls[i]? with
  | none => some st
  | some c =>
    if c.here = false then some st
    else
      let st := { st with cls := st.cls.set i { c with here := false, onList := false } }
      if c.onList then
        match c.inflight with
        | none => none
        | some e => dec st e
      else some st

/-- What happens: a request, an answer, a timeout, a server that leaves, or that changes its state. -/
inductive Ev where
  | request
  | reply (i t v : Nat)
  | timeout (i t : Nat)
  | remove (i : Nat)
  | state (i : Nat) (running alive : Bool)

/-- /repo/client.c:2169-2238, the loop of `fio_handle_clients`; states: /repo/client.c:1925, 1940 -/
def step (st : St) : Ev → Option St
  | .request => request st
  | .reply i t v => reply st i t v
  | .timeout i t => timeout st i t
  | .remove i => remove st i
  | .state i r a =>
    match st.cls[i]? with
    | none => some st
    | some c => some { st with cls := st.cls.set i { c with running := r, alive := a } }

/-- `n` servers that were connected, /repo/client.c:360-425 -/
def init (n : Nat) : St :=
  { cls := List.replicate n { here := true, running := false, alive := true, onList := false, inflight := none, cmds := [] }, reqs := [], shown := [] }

end Fio.Eta
