import Verif.Replay.Model

/-!
What a replay has to do, stated about the entries of the log, not about its
bytes.
-/
namespace Fio.Replay.Spec
open Fio.Replay

/-- A name that fio can put into a log and find there again: not empty, at most
256 bytes, no white space, no NUL. -/
def Name (n : List Nat) : Prop :=
  1 ≤ n.length ∧ n.length ≤ 256 ∧
    ∀ b ∈ n, b ≠ 0 ∧ b ≠ 9 ∧ b ≠ 10 ∧ b ≠ 11 ∧ b ≠ 12 ∧ b ≠ 13 ∧ b ≠ 32

/-- An entry as a running job logs it: the file is one of the job's, the numbers
fit the fields of the log (the length is read into 32 bits), the direction is
one that can be read back. -/
def Entry (nfiles : Nat) : Ev → Prop
  | .file t f a => t < 2 ^ 64 ∧ f < nfiles ∧ a ≠ .add
  | .io t f d off len =>
    t < 2 ^ 64 ∧ f < nfiles ∧ off < 2 ^ 64 ∧ len < 2 ^ 32 ∧
      (d = .read ∨ d = .write ∨ d = .trim ∨ d = .sync ∨ d = .datasync)

/-- What a piece asks for. -/
inductive Out
  | special (f : Int) (a : FAct)
  | io (d : Ddir) (f : Int) (off len delay : Nat)
  | wait (ms : Nat)
  deriving DecidableEq, Repr

/-- What a piece asks for. -/
def strip (p : Piece) : Out :=
  match p.ddir with
  | .inval => .special p.fileno p.act
  | .wait => .wait p.delay
  | d => .io d p.fileno p.offset p.len p.delay

/-- The options a replay is proved for: alignment is a power of two
(options.c:3838). -/
def GoodOpts (o : Opts) : Prop := o.replayAlign = 0 ∨ ∃ k, o.replayAlign = 2 ^ k

/-- The directions that the options let through: replay_skip names directions
to be left out, a read-only job does neither write nor trim. -/
def Kept (o : Opts) (d : Ddir) : Bool :=
  match d with
  | .read => !o.skip.testBit 0
  | .write => !o.skip.testBit 1 && !o.readOnly
  | .trim => !o.skip.testBit 2 && !o.readOnly
  | .sync => !o.skip.testBit 3
  | .datasync => true
  | _ => false

/-- Where the I/O goes: replay_scale divides the offset, replay_align rounds it
down to a multiple (of a power of two). -/
def place (o : Opts) (off : Nat) : Nat :=
  let x := if o.replayScale = 0 then off else off / o.replayScale
  if o.replayAlign = 0 then x else x / o.replayAlign * o.replayAlign

/-- The pause before an entry: the time since the entry before, none with
no_stall, none after an entry of time 0. -/
def pause (o : Opts) (before t : Nat) : Nat :=
  if before = 0 ∨ o.noStall = true ∨ t < before then 0
  else match o.scaleTime with
    | none => t - before
    | some f => f (t - before)

/-- The pieces that the entries stand for. `before` is the time of the entry
before the first one, `fi` numbers the files. -/
def pieces (o : Opts) (fi : Nat → Int) : Nat → List Ev → List Out
  | _, [] => []
  | _, .file t f a :: es => .special (fi f) a :: pieces o fi t es
  | before, .io t f d off len :: es =>
    if Kept o d then .io d (fi f) (place o off) len (pause o before t) :: pieces o fi t es
    else pieces o fi t es

/-- The log names an I/O that counts for accepting the log. -/
def HasIo (o : Opts) (es : List Ev) : Prop :=
  ∃ t f d off len, Ev.io t f d off len ∈ es ∧ Kept o d = true ∧
    (d = .read ∨ d = .write ∨ d = .trim)

/-- The I/Os that the entries stand for, in order. -/
def ios (o : Opts) : List Ev → List Io
  | [] => []
  | .file _ _ _ :: es => ios o es
  | .io _ f d off len :: es =>
    if Kept o d then ⟨d, f, place o off, len⟩ :: ios o es else ios o es

/-- The history of the files in the log is possible: a file is opened when it is
not open, and used and closed only when open. -/
def History : (Nat → Bool) → List Ev → Prop
  | _, [] => True
  | op, .file _ f a :: es =>
    match a with
    | .add => History op es
    | .open => op f = false ∧ History (fun g => if g = f then true else op g) es
    | .close => op f = true ∧ History (fun g => if g = f then false else op g) es
  | op, .io _ f _ _ _ :: es => op f = true ∧ History op es

/-- The files opened by the entries, in order. -/
def opens : List Ev → List Nat
  | [] => []
  | .file _ f .open :: es => f :: opens es
  | _ :: es => opens es

/-- The schedule in which every I/O completes before the next piece is taken. -/
def oneByOne : Nat → List Bool
  | 0 => []
  | n + 1 => true :: false :: oneByOne n

end Fio.Replay.Spec
