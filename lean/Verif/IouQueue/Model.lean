/-
Model of io_u_queue.c / io_u_queue.h.
An I/O unit (`struct io_u *`) is a `Nat`; a NULL pointer is `none`.
-/
namespace Fio.IouQueue

/-- io_u_queue.h:11-15 `struct io_u_queue`.  `io_us` is the array of `max` pointers. -/
structure Queue where
  ious : List (Option Nat)
  nr : Nat
  max : Nat
deriving DecidableEq, Repr

/-- io_u_queue.c:6-19 `io_u_qinit`, allocation succeeding (zero filled in both cases). -/
def qinit (nr : Nat) : Queue := { ious := List.replicate nr none, nr := 0, max := nr }

/-- io_u_queue.h:17-28 `io_u_qpop`; the outer `none` is an access outside the array. -/
def qpop (q : Queue) : Option (Queue × Option Nat) :=
  if q.nr ≠ 0 then
    match q.ious[q.nr - 1]? with
    | none => none
    | some u => some ({ q with nr := q.nr - 1, ious := q.ious.set (q.nr - 1) none }, u)
  else some (q, none)

/-- io_u_queue.h:30-38 `io_u_qpush`; `none` is the failed assertion or an access outside the
array. -/
def qpush (q : Queue) (u : Nat) : Option Queue :=
  if q.nr < q.max then
    if q.nr < q.ious.length then some { q with ious := q.ious.set q.nr (some u), nr := q.nr + 1 }
    else none
  else none

/-- io_u_queue.h:40-43 `io_u_qempty`. -/
def qempty (q : Queue) : Bool := q.nr = 0

/-- io_u_queue.h:51-56 `struct io_u_ring`. -/
structure Ring where
  head : BitVec 32
  tail : BitVec 32
  max : BitVec 32
  ring : List (Option Nat)
deriving DecidableEq, Repr

/-- io_u_queue.c:33-39: set all bits below the highest set bit. -/
def smear (x : BitVec 32) : BitVec 32 :=
  let x := x ||| (x >>> 1)
  let x := x ||| (x >>> 2)
  let x := x ||| (x >>> 4)
  let x := x ||| (x >>> 8)
  x ||| (x >>> 16)

/-- io_u_queue.c:29-40: the ring size. -/
def ringMax (nr : BitVec 32) : BitVec 32 :=
  let max := nr + 1#32
  if max &&& (max - 1#32) ≠ 0#32 then smear (max - 1#32) + 1#32 else max

/-- io_u_queue.c:29-48 `io_u_rinit`, `calloc` succeeding. -/
def rinit (nr : BitVec 32) : Ring :=
  { head := 0#32, tail := 0#32, max := ringMax nr, ring := List.replicate (ringMax nr).toNat none }

/-- io_u_queue.h:61-70 `io_u_rpush`; `none` is the failed assertion or an access outside the
array. -/
def rpush (r : Ring) (u : Nat) : Option Ring :=
  if r.head + 1#32 ≠ r.tail then
    if r.head.toNat < r.ring.length then
      some { r with ring := r.ring.set r.head.toNat (some u), head := (r.head + 1#32) &&& (r.max - 1#32) }
    else none
  else none

/-- io_u_queue.h:72-82 `io_u_rpop`; the outer `none` is an access outside the array, the inner
one a NULL result. -/
def rpop (r : Ring) : Option (Ring × Option Nat) :=
  if r.head ≠ r.tail then
    match r.ring[r.tail.toNat]? with
    | none => none
    | some u => some ({ r with tail := (r.tail + 1#32) &&& (r.max - 1#32) }, u)
  else some (r, none)

/-- io_u_queue.h:84-87 `io_u_rempty`. -/
def rempty (r : Ring) : Bool := r.head = r.tail

end Fio.IouQueue
