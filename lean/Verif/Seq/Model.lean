/-!
# The clock thread and its readers (gettime-thread.c, gettime.h, lib/seqlock.h)

One thread writes the time, a reader (there may be more, they do not change anything) reads it.  A store goes to the buffer of the writer and
is seen by others when it leaves it.  With `weak` false the stores leave in the order in which they were made (as on x86, if the compiler keeps
the order); with `weak` true stores to different places may overtake each other, but a release store leaves after all before it (as on
aarch64).  Loads of the reader are in the order of the program (the first is an acquire load, there is a barrier before the last), those of the
two parts of the time in either order.
-/

namespace Fio.Seq

inductive Loc
  | seq | sec | nsec
deriving DecidableEq, Repr

/-- A store that has not been seen yet. -/
structure Store where
  loc : Loc
  val : Nat
  release : Bool
deriving DecidableEq, Repr

/-- /repo/gettime.h:27-30 `struct fio_ts`; zeros as `smalloc` returns it (/repo/gettime-thread.c:18, /repo/smalloc.c:462). -/
structure Mem where
  seq : Nat := 0
  sec : Nat := 0
  nsec : Nat := 0
deriving DecidableEq, Repr

def Mem.set (m : Mem) : Loc → Nat → Mem
  | .seq, v => { m with seq := v }
  | .sec, v => { m with sec := v }
  | .nsec, v => { m with nsec := v }

/-- Where the reader is: /repo/gettime.h:32-45; `start` is how many stores had been seen when this try began (not in the program). -/
inductive Rd
  | idle
  | begin
  | load (start seq : Nat)
  | load2 (start seq : Nat) (secFirst : Bool) (v : Nat)
  | check (start seq sec nsec : Nat)
  | done (start sec nsec : Nat)
deriving DecidableEq, Repr

/-- The writer is at statement `pc` of update `k`; `wseq` is the number as the writer sees it; `seen` counts the stores that left the buffer (not in
the program). -/
structure St where
  mem : Mem := {}
  buf : List Store := []
  k : Nat := 0
  pc : Nat := 0
  wseq : Nat := 0
  seen : Nat := 0
  rd : Rd := .idle
deriving DecidableEq, Repr

/-- What happens next: the writer makes a store, the `i`-th store in the buffer is seen, the reader makes a step (in which order it loads the
parts). -/
inductive Ev
  | write
  | see (i : Nat)
  | read (secFirst : Bool)
deriving DecidableEq, Repr

/-- /repo/gettime-thread.c:21-35 `fio_gtod_update` with /repo/lib/seqlock.h:44-52; `h k` is what `gettimeofday` gives to update `k` (seconds and
microseconds). -/
def write (h : Nat → Nat × Nat) (s : St) : St :=
  match s.pc with
  | 0 => { s with pc := 1, wseq := (s.wseq + 1) % 2 ^ 32, buf := s.buf ++ [⟨.seq, (s.wseq + 1) % 2 ^ 32, false⟩] }
  | 1 => { s with pc := 2, buf := s.buf ++ [⟨.sec, (h s.k).1, false⟩] }
  | 2 => { s with pc := 3, buf := s.buf ++ [⟨.nsec, (h s.k).2 * 1000, false⟩] }
  | _ => { s with pc := 0, k := s.k + 1, wseq := (s.wseq + 1) % 2 ^ 32, buf := s.buf ++ [⟨.seq, (s.wseq + 1) % 2 ^ 32, true⟩] }

/-- A store leaves the buffer; nothing happens if it may not. -/
def see (weak : Bool) (s : St) (i : Nat) : St :=
  match s.buf[i]? with
  | none => s
  | some x =>
    if i = 0 ∨ (weak ∧ !x.release ∧ ∀ y ∈ s.buf.take i, y.loc ≠ x.loc) then
      { s with mem := s.mem.set x.loc x.val, buf := s.buf.eraseIdx i, seen := s.seen + 1 }
    else s

/-- /repo/gettime.h:39-44, /repo/lib/seqlock.h:22-42: a step of the reader. -/
def read (s : St) (secFirst : Bool) : St :=
  { s with rd :=
      match s.rd with
      | .idle => .begin
      | .begin => if s.mem.seq % 2 = 1 then .begin else .load s.seen s.mem.seq
      | .load st q => .load2 st q secFirst (if secFirst then s.mem.sec else s.mem.nsec)
      | .load2 st q o v => if o then .check st q v s.mem.nsec else .check st q s.mem.sec v
      | .check st q a b => if s.mem.seq ≠ q then .begin else .done st a b
      | .done _ _ _ => .idle }

def step (h : Nat → Nat × Nat) (weak : Bool) (s : St) : Ev → St
  | .write => write h s
  | .see i => see weak s i
  | .read o => read s o

def run (h : Nat → Nat × Nat) (weak : Bool) (s : St) (es : List Ev) : St := es.foldl (step h weak) s

end Fio.Seq
