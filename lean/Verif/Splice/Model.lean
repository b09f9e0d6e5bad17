/-!
# The splice engine (engines/splice.c)

A pipe is the list of bytes in it. How much a call of the system moves is up to it: its answers come as a list. Writes are modelled whole; reads
that go through the pipe and `read`; of reads with `vmsplice` only what they leave behind when the system cannot do it.
-/

namespace Fio.Splice

/-- What a call answers: it moved up to so many bytes, try again, an error. -/
inductive K
  | moved (k : Nat)
  | again
  | fail
  deriving Repr, DecidableEq

/-- Within `fio_splice_read_old`: `offset`, `buflen`, `ret` of the inner loop, the pipe, what was put into the buffer, error. -/
structure R where
  off : Nat
  buflen : Nat
  ret : Nat
  pipe : List Nat
  buf : List Nat
  err : Bool
  deriving Repr, DecidableEq

/-- /repo/engines/splice.c:36-38: the start -/
def rstart (off len : Nat) (pipe : List Nat) : R := { off := off, buflen := len, ret := 0, pipe := pipe, buf := [], err := false }

def R.finished (st : R) : Bool := st.buflen == 0 && st.ret == 0 && !st.err

/-- /repo/engines/splice.c:39-63, a call in the loops: `splice` from the file to the pipe (no more than `SPLICE_DEF_SIZE`, 64 KiB), or `read` from
the pipe while `ret` is not 0 -/
def rstep (file : List Nat) (st : R) (k : K) : R :=
  if st.err then st
  else if st.ret ≠ 0 then
    match k with
    | .moved k =>
      let m := min k (min st.ret st.pipe.length)
      { st with ret := st.ret - m, buf := st.buf ++ st.pipe.take m, pipe := st.pipe.drop m }
    | _ => { st with err := true }
  else if st.buflen ≠ 0 then
    match k with
    | .moved k =>
      let m := min k (min (min st.buflen 65536) (file.length - st.off))
      { st with off := st.off + m, buflen := st.buflen - m, ret := m, pipe := st.pipe ++ (file.drop st.off).take m }
    | .again => st
    | .fail => { st with err := true }
  else st

/-- /repo/engines/splice.c:28-66 `fio_splice_read_old` -/
def readOld (file : List Nat) (off len : Nat) (pipe : List Nat) (ks : List K) : R := ks.foldl (rstep file) (rstart off len pipe)

/-- /repo/engines/splice.c:102-135: `fio_splice_read` when the system cannot `vmsplice` to the user: the pipe, with the bytes of the first `splice`,
when it returns `-EBADF` -/
def readEbadf (file : List Nat) (off len : Nat) (pipe : List Nat) (k : Nat) : List Nat :=
  pipe ++ (file.drop off).take (min k (min (min len 65536) (file.length - off)))

/-- Within `fio_splice_write`: bytes of the buffer in the pipe so far (`iov`), `ret` of the inner loop, the pipe, `off`, the file. -/
structure W where
  pos : Nat
  ret : Nat
  pipe : List Nat
  off : Nat
  file : Nat → Nat
  err : Bool

/-- The system writes bytes into a file. -/
def overwrite (f : Nat → Nat) (off : Nat) (l : List Nat) (i : Nat) : Nat := if off ≤ i then (l[i - off]?).getD (f i) else f i

def W.finished (buf : List Nat) (st : W) : Prop := st.pos = buf.length ∧ st.ret = 0 ∧ st.err = false

/-- /repo/engines/splice.c:178-197, a call in the loops: `vmsplice` from the buffer to the pipe, or `splice` from the pipe to the file -/
def wstep (buf : List Nat) (st : W) (k : K) : W :=
  if st.err then st
  else if st.ret ≠ 0 then
    match k with
    | .moved k =>
      let m := min k (min st.ret st.pipe.length)
      { st with ret := st.ret - m, pipe := st.pipe.drop m, off := st.off + m, file := overwrite st.file st.off (st.pipe.take m) }
    | _ => { st with err := true }
  else if st.pos < buf.length then
    match k with
    | .moved k =>
      let m := min k (buf.length - st.pos)
      { st with pos := st.pos + m, ret := m, pipe := st.pipe ++ (buf.drop st.pos).take m }
    | _ => { st with err := true }
  else st

/-- /repo/engines/splice.c:166-200 `fio_splice_write` -/
def write (file : Nat → Nat) (off : Nat) (buf pipe : List Nat) (ks : List K) : W :=
  ks.foldl (wstep buf) { pos := 0, ret := 0, pipe := pipe, off := off, file := file, err := false }

end Fio.Splice
