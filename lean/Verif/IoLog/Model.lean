/-
Model of the verify history: log_io_piece, unlog_io_piece (iolog.c), the record part of
io_completed (io_u.c), get_next_verify (verify.c), get_next_trim and remove_trim_entry
(trim.c, trim.h).

The history is the red-black tree of `Verif.RbTree.Model`; a record (`struct io_piece`) is
identified by the address of its tree node.  Using a record after it was freed, freeing it twice,
following NULL and failing an `assert` are `none`.

Not modelled: the list that replaces the tree when writes cannot overlap (iolog.c:314-320), the
data in the file, and the other fields of the io_u.
-/
import Verif.RbTree.Model
namespace Fio.IoLog
open RbTree

/-- What a record says: `ipo->file`, `ipo->offset`, `ipo->len` (iolog.h:217-238).  Files are
compared by address. -/
structure Piece where
  file : Nat
  off : Nat
  len : Nat
deriving DecidableEq, Repr

/-- `td->io_hist_tree`, the records, `td->io_hist_len`, `td->trim_list` with
`td->trim_entries`. -/
structure St where
  heap : Heap
  piece : Nat → Piece
  /-- `IP_F_ONRB` -/
  onrb : Nat → Bool
  /-- `IP_F_IN_FLIGHT` -/
  inflight : Nat → Bool
  /-- the record was given to `free()` -/
  freed : Nat → Bool
  /-- `td->io_hist_len`, an `unsigned long` -/
  len : Nat
  /-- `td->trim_list` -/
  trims : List Nat

/-- Set one entry of a table. -/
def upd {α : Type} (f : Nat → α) (i : Nat) (v : α) : Nat → α := fun j => if j = i then v else f j

/-- `td->io_hist_len--` on an `unsigned long`. -/
def dec (n : Nat) : Nat := (n + (2 ^ 64 - 1)) % 2 ^ 64

/-- `td->io_hist_len++`. -/
def inc (n : Nat) : Nat := (n + 1) % 2 ^ 64

/-- The comparison of iolog.c:335-348: which way, and `overlap`.  Offsets and lengths are 64-bit,
their sum wraps. -/
def compare (p q : Piece) : Dir × Bool :=
  if p.file < q.file then (.L, false)
  else if p.file > q.file then (.R, false)
  else if p.off < q.off then (.L, (p.off + p.len) % 2 ^ 64 > q.off)
  else if p.off > q.off then (.R, (q.off + q.len) % 2 ^ 64 > p.off)
  else (.R, true)

/-- The descent of iolog.c:328-362 up to the first overlapping record (`Sum.inr`) or to the free
link (`Sum.inl`). -/
def search (s : St) (p : Piece) : Nat → Link → Option (Sum Link Nat)
  | fuel, at_ =>
    match s.heap.deref at_ with
    | none => some (.inl at_)
    | some m =>
      if s.freed m then none else
      if (compare p (s.piece m)).2 then some (.inr m) else
      match fuel with
      | 0 => none
      | fuel + 1 => search s p fuel (some (m, (compare p (s.piece m)).1))

/-- `remove_trim_entry` (trim.h:18-24). -/
def removeTrim (s : St) (m : Nat) : St := { s with trims := s.trims.erase m }

/-- `free(ipo)`. -/
def release (s : St) (m : Nat) : Option St :=
  if s.freed m then none else some { s with freed := upd s.freed m true }

/-- What happens to an overlapping record (iolog.c:350-361). -/
def evict (fuel : Nat) (m : Nat) (s : St) : Option St :=
  match rbErase fuel m s.heap with
  | none => none
  | some h =>
    let s := { s with heap := h, len := dec s.len, onrb := upd s.onrb m false }
    let s := removeTrim s m
    if s.inflight m then some s else release s m

/-- iolog.c:327-367: sort the record in, dropping records it overlaps. -/
def sortIn (n : Nat) : Nat → Nat → St → Option St
  | fuel, k, s =>
    match search s (s.piece n) fuel none with
    | none => none
    | some (.inl at_) =>
      match insertAt fuel n at_ s.heap with
      | none => none
      | some h => some { s with heap := h, onrb := upd s.onrb n true, len := inc s.len }
    | some (.inr m) =>
      match evict fuel m s with
      | none => none
      | some s =>
        match k with
        | 0 => none
        | k + 1 => sortIn n fuel k s

/-- `log_io_piece` (iolog.c:283-368) with a new record at address `n`; `trim` is the answer of
`io_u_should_trim`. -/
def logPiece (fuel n : Nat) (p : Piece) (trim : Bool) (s : St) : Option St :=
  let s := { s with piece := upd s.piece n p, onrb := upd s.onrb n false,
                    inflight := upd s.inflight n true, freed := upd s.freed n false }
  let s := if trim then { s with trims := s.trims ++ [n] } else s
  sortIn n fuel fuel s

/-- `unlog_io_piece` (iolog.c:386-396). -/
def unlog (fuel n : Nat) (s : St) : Option St :=
  if s.freed n then none else
  if s.onrb n then
    match rbErase fuel n s.heap with
    | none => none
    | some h => (release { s with heap := h } n).map (fun s => { s with len := dec s.len })
  else (release s n).map (fun s => { s with len := dec s.len })

/-- The record part of `io_completed` (io_u.c:2202-2223). -/
def complete (fuel n : Nat) (error : Bool) (s : St) : Option St :=
  if error then unlog fuel n s else
  if s.freed n then none else
  if s.onrb n then some { s with inflight := upd s.inflight n false }
  else release s n

/-- The walk of `get_next_verify` to the first record that is not in flight
(verify.c:1434-1439). -/
def firstDone (fuel : Nat) (s : St) : Nat → Option Nat → Option (Option Nat)
  | _, none => some none
  | k, some n =>
    if s.freed n then none else
    if s.inflight n then
      match k with
      | 0 => none
      | k + 1 =>
        match rbNext fuel n s.heap with
        | none => none
        | some x => firstDone fuel s k x
    else some (some n)

/-- `get_next_verify` on the tree (verify.c:1425-1502): the record taken, if any. -/
def nextVerify (fuel : Nat) (s : St) : Option (Option Nat × St) :=
  match rbFirst fuel s.heap with
  | none => none
  | some x =>
    match firstDone fuel s fuel x with
    | none => none
    | some none => some (none, s)
    | some (some n) =>
      match rbErase fuel n s.heap with
      | none => none
      | some h =>
        if s.onrb n then
          (release (removeTrim { s with heap := h, onrb := upd s.onrb n false,
                                        len := dec s.len } n) n).map (fun s => (some n, s))
        else none

/-- `get_next_trim` with `trim_zero=0` (trim.c:20-43): the record leaves the history and is
freed. -/
def nextTrim (fuel : Nat) (s : St) : Option St :=
  match s.trims with
  | [] => some s
  | n :: _ =>
    if s.freed n then none else
    let s := removeTrim s n
    if s.onrb n then
      match rbErase fuel n s.heap with
      | none => none
      | some h => release { s with heap := h, len := dec s.len } n
    else none

end Fio.IoLog
