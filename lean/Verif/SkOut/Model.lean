/-!
# The queue of messages of the server (server.c)

Threads of the server queue messages, or send them at once (`SK_F_INLINE`); the thread of the connection sends those queued. A message is the
list of its parts (`SK_F_VEC`; other messages have one). Parts are sent whole (C37). Steps are those of the lock, the semaphore `xmit` and the
sending of a part.
-/

namespace Fio.SkOut

/-- /repo/server.c:42-50 `struct sk_entry`: `inl` is `SK_F_INLINE` -/
structure Entry where
  inl : Bool
  parts : List Nat
  deriving Repr, DecidableEq

/-- `list` of `struct sk_out` (/repo/server.h:14-26); `loc`, the list of `handle_xmits`; `hold`, the message being sent by who has `xmit`, with the parts still to send;
`waiting`, messages of threads at the semaphore. `wire`, `queued`, `asked` and `sent` are no fields in the code: parts that went out,
messages queued, messages to be sent at once, messages that went out whole. -/
structure St where
  list : List Entry
  loc : List Entry
  hold : Option (Entry × List Nat)
  waiting : List Entry
  wire : List Nat
  queued : List Entry
  asked : List Entry
  sent : List Entry
  deriving Repr, DecidableEq

def init : St := ⟨[], [], none, [], [], [], [], []⟩

inductive Op
  | queue (e : Entry)
  | splice
  | take
  | takeInline (i : Nat)
  | part
  | release
  deriving Repr, DecidableEq

/-- A step of some thread (/repo/server.c:595-608, 1286-1358); a step that cannot be taken changes nothing. -/
def step (st : St) : Op → St
  -- /repo/server.c:595-608 `fio_net_queue_entry`: to the end of the list under the lock, or `handle_sk_entry` at once
  | .queue e =>
    if e.inl then { st with waiting := st.waiting ++ [e], asked := st.asked ++ [e] }
    else { st with list := st.list ++ [e], queued := st.queued ++ [e] }
  -- /repo/server.c:1337-1358 `handle_xmits`: the whole list is taken under the lock, when all taken before were sent
  | .splice =>
    if st.loc = [] ∧ ¬ (∃ x ∈ st.hold, x.1.inl = false) then { st with loc := st.list, list := [] } else st
  -- /repo/server.c:1316, `handle_sk_entry` of the thread of the connection: `fio_sem_down(&sk_out->xmit)` with the first of its list
  | .take =>
    match st.hold, st.loc with
    | none, e :: es => { st with loc := es, hold := some (e, e.parts) }
    | _, _ => st
  -- /repo/server.c:1316, `handle_sk_entry` of another thread
  | .takeInline i =>
    match st.hold, st.waiting[i]? with
    | none, some e => { st with waiting := st.waiting.eraseIdx i, hold := some (e, e.parts) }
    | _, _ => st
  -- /repo/server.c:1286-1310, 1318-1326 `send_vec_entry` and the others: the next part
  | .part =>
    match st.hold with
    | some (e, p :: ps) => { st with hold := some (e, ps), wire := st.wire ++ [p] }
    | _ => st
  -- /repo/server.c:1328-1333 `fio_sem_up(&sk_out->xmit)`, `finish_entry`
  | .release =>
    match st.hold with
    | some (e, []) => { st with hold := none, sent := st.sent ++ [e] }
    | _ => st

def run (st : St) (os : List Op) : St := os.foldl step st

end Fio.SkOut
