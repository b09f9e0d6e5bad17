import Verif.Replay.Model

/-!
Reading the log in chunks (read_iolog_chunked): the log is read ahead as the
pieces are consumed.
-/
namespace Fio.Replay

/-- fio.h:475-478: `io_log_current`, `io_log_checkmark`, `io_log_highmark`
(unsigned int); the pieces queued are `r.pieces`, `rest` is what is left of the
file. -/
structure C where
  r : R
  rest : List Nat
  cur : Nat
  check : Nat
  high : Nat

/-- iolog.c:420-447 iolog_items_to_fetch(): `e` is the time since the last mark
in nanoseconds.  `(highmark - current) * 1000000000` is a product of unsigned
ints. -/
def itemsToFetch (c : C) (e : Nat) : Nat × C :=
  if c.high = 0 then (10, c)
  else
    let items := if e = 0 then 0
      else ((c.high + 2 ^ 32 - c.cur) % 2 ^ 32 * 1000000000 % 2 ^ 32) / e - c.cur
    let h := (c.cur + items) % 2 ^ 32
    (items, { c with high := h, check := (h + 1) % 2 ^ 32 / 2 })

/-- The local variables of read_iolog() at its start. -/
def restart (off by' junk : Nat) (s : R) : R :=
  { s with fname := none, act := none, offset := off, bytes := by', junk := junk, fileno := 0,
           fact := .add, reads := 0, writes := 0, trims := 0, waits := 0, syncs := 0 }

/-- iolog.c:471-475, 485-630, 636-640 and 650-653: read_iolog() with chunks.
`none` is a crash; the second component is the return value.  The buffers are
not modelled. -/
def readChunk (o : Opts) (g : Nat) (c : C) (e : Nat) : Option (C × Bool) :=
  let p := itemsToFetch c e
  if p.1 = 0 then some (p.2, true)
  else
    match readLoop o (p.2.rest.length + 1) (some p.1) (restart g g g p.2.r) p.2.rest with
    | none => none
    | some (s, rest) =>
      let cur := (p.2.cur + (s.pieces.length - p.2.r.pieces.length)) % 2 ^ 32
      some ({ r := s, rest := rest, cur := cur, high := cur, check := (cur + 1) % 2 ^ 32 / 2 },
        cur != 0)

/-- iolog.c:200-214: one round of read_iolog_get(): reads ahead when the mark is
reached, then takes the first piece.  `none` in the second component: the list
was empty, the job is done (256-257). -/
def getChunk (o : Opts) (g : Nat) (c : C) (e : Nat) : Option (C × Option Piece) :=
  if c.r.pieces = [] then some (c, none)
  else
    let c1 : Option (C × Bool) := if c.check = c.cur then readChunk o g c e else some (c, true)
    match c1 with
    | none => none
    | some (c, false) => some (c, none)
    | some (c, true) =>
      match c.r.pieces with
      | [] => none
      | p :: ps =>
        some ({ c with cur := (c.cur + 2 ^ 32 - 1) % 2 ^ 32, r := { c.r with pieces := ps } }, some p)

/-- The pieces a job gets until it is done; `es` are the times measured, one for
each round. -/
def drain (o : Opts) (g : Nat) : List Nat → C → Option (List Piece × C)
  | [], c => some ([], c)
  | e :: es, c =>
    match getChunk o g c e with
    | none => none
    | some (c, none) => some ([], c)
    | some (c, some p) => (drain o g es c).map fun q => (p :: q.1, q.2)

/-- iolog.c:718-766 init_iolog_read() and the first chunk. -/
def startChunk (o : Opts) (g : Nat) (s0 : R) (l : List Nat) : Option (C × Bool) :=
  match readVersion l with
  | none => some ({ r := s0, rest := l, cur := 0, check := 0, high := 0 }, false)
  | some (v, l') =>
    readChunk { o with version := v } g { r := s0, rest := l', cur := 0, check := 0, high := 0 } 0

/-- The whole: the pieces handed out. -/
def chunked (o : Opts) (g : Nat) (s0 : R) (l : List Nat) (es : List Nat) :
    Option (List Piece × C) :=
  match startChunk o g s0 l with
  | none => none
  | some (c, _) => drain { o with version := 3 } g es c

end Fio.Replay
