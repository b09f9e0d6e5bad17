import Verif.Setup.Model

/-!
What the options ask for, in unbounded arithmetic: HOWTO.rst on `size`, `filesize`, `offset`, `offset_align`,
`offset_increment`.
-/

namespace Fio.Setup

/-- `y` is `x` rounded up to a multiple of `a`. -/
def RoundUp (a x y : Nat) : Prop := a ∣ y ∧ x ≤ y ∧ y < x + a

/-- `y` is `x` rounded down to a multiple of `a`. -/
def RoundDown (a x y : Nat) : Prop := a ∣ y ∧ y ≤ x ∧ x < y + a

/-- The increment from one clone of a job to the next. -/
def wantInc (o : Opts) (real : Nat) : Nat := if o.incPct ≠ 0 then o.incPct * real / 100 else o.inc

/-- The offset before alignment. -/
def wantOffset (o : Opts) (real : Nat) : Nat :=
  (if o.startPct ≠ 0 then o.startPct * real / 100 else o.startOffset) + o.subjob * wantInc o real

/-- Percentages are used for the offset. -/
def ByPercent (o : Opts) : Prop := o.incPct ≠ 0 ∨ o.startPct ≠ 0

/-- What an offset given in percent is aligned to. -/
def wantAlign (o : Opts) : Nat := o.align.getD o.minBs

/-- `y` is the offset where the job starts in file `f`. -/
def WantOffset (o : Opts) (f : File) (y : Nat) : Prop :=
  (o.append = true ∧ f.regular = true → y = f.real) ∧
  (¬ (o.append = true ∧ f.regular = true) → ByPercent o → RoundUp (wantAlign o) (wantOffset o f.real) y) ∧
  (¬ (o.append = true ∧ f.regular = true) → ¬ ByPercent o → y = wantOffset o f.real)

/-- The share of file `i` of `n` in `size=`: all the same, the first files get what is left over in blocks. -/
def share (o : Opts) (n i : Nat) : Nat := o.size / n + if i < o.size % n / o.minBs then o.minBs else 0

/-- `b` is the size of what the job has of file `i` of `n`, from offset `off`, before `size=` in percent. -/
def WantBase (o : Opts) (n i : Nat) (f : File) (off b : Nat) : Prop :=
  if o.fileLow = 0 then
    if share o n i = 0 then off + b = f.real else b = share o n i
  else if o.fileLow ≤ f.real ∧ f.real ≤ o.fileHigh then off + b = f.real
  else if o.fileLow = o.fileHigh then off + b = o.fileLow
  else o.fileLow < off + b + o.rwMinBs ∧ off + b ≤ o.fileHigh

/-- `io` is the size after `size=` in percent of the file, which has `off + b` bytes. -/
def WantSize (o : Opts) (off b io : Nat) : Prop :=
  if o.sizePct ≠ 0 ∧ o.sizePct ≠ 100 then RoundDown o.minBs (min (o.sizePct * (off + b) / 100) b) io
  else io = b

/-- Sizes and percentages are such that nothing wraps around: no size above 36 PB; the offset lies within a file
whose size is given (for a range of sizes: one block below the smallest).  Parsing sees to percentages up to
100. -/
structure Tame (o : Opts) (f : File) : Prop where
  size : o.size < 2 ^ 55
  bs : 0 < o.minBs ∧ o.minBs < 2 ^ 55
  rwbs : 0 < o.rwMinBs
  real : f.real < 2 ^ 55
  high : o.fileHigh < 2 ^ 53
  low : o.fileLow ≤ o.fileHigh
  rnd : f.rnd < 2 ^ randBits o
  pct : o.sizePct ≤ 100 ∧ o.startPct ≤ 100 ∧ o.incPct ≤ 100
  off : wantOffset o f.real < 2 ^ 54
  align : 0 < wantAlign o ∧ wantAlign o < 2 ^ 54
  inc : o.incPct = 0 ∨ o.inc = 0
  inside : ∀ y, WantOffset o f y → o.fileLow ≠ 0 →
    if o.fileLow ≤ f.real ∧ f.real ≤ o.fileHigh then y ≤ f.real
    else if o.fileLow = o.fileHigh then True else y + o.rwMinBs ≤ o.fileLow + 1

/-- The same job, clone number `k`. -/
def Opts.clone (o : Opts) (k : Nat) : Opts := { o with subjob := k }

/-- The part of a file a job works on. -/
def Out.region (g : Out) (x : Nat) : Prop := g.off ≤ x ∧ x < g.off + g.io

/-- What `write` may do: write some of what was asked for. -/
def Legal (asked : List Nat) (ws : List (Bool × Wr)) : Prop :=
  ∀ (i b : Nat) (t : Bool) (k : Nat), asked[i]? = some b → ws[i]? = some (t, Wr.wrote k) → k ≤ b

/-- The value of an option is what it was set to last. -/
def meaning : Setting → Nat × Nat
  | .bytes v => (v, 0)
  | .pct p => (0, p)

end Fio.Setup
