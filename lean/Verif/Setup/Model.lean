import Verif.Common.Double

/-!
Model of filesetup.c: where in each file a job works and how much (`get_start_offset`, `get_rand_file_size`,
`setup_files`), and how a file is laid out (`extend_file`); of options.c: what the settings `size=`, `offset=` and
`offset_increment=` leave behind when given more than once.

Simplifications: one pass over the files of a job whose sizes are known (`get_file_sizes` or the engine's setup have
been run); no zoned devices, no `read_iolog`, no `block_error_hist`, no `sprandom`, no file system failures other
than those of `write` and `ftruncate` in `extend_file`.  Values of type `unsigned long long` are natural numbers,
and every operation that can wrap around does so explicitly.
-/

namespace Fio.Setup

/-- `unsigned long long`. -/
def w (x : Nat) : Nat := x % 18446744073709551616

/-- Subtraction of values of type `unsigned long long`. -/
def sub (a b : Nat) : Nat := (a + 18446744073709551616 - b) % 18446744073709551616

/-- `-1ULL`. -/
def unknown : Nat := 18446744073709551615

/-- The outcome of a function: a value, an error reported to the user, or a crash (division by zero, assert). -/
inductive Res (α : Type) where
  | ok (a : α)
  | err
  | crash
deriving DecidableEq, Repr

/-- The options of a job (thread_options.h) as far as setup_files looks at them.  `minBs` is `td_min_bs`
(fio.h:893-899), `rwMinBs` is `rw_min_bs`, `align` is `start_offset_align` if `fio_option_is_set`; `subjob` is
`td->subjob_number`; `diskless`, `fakeio`, `noio` are flags of the engine; `use64`: does `file_size_state` deliver
64 bits? -/
structure Opts where
  size : Nat
  fileLow : Nat
  fileHigh : Nat
  minBs : Nat
  rwMinBs : Nat
  sizePct : Nat
  ioSizePct : Nat
  ioSize : Nat
  loops : Nat
  startOffset : Nat
  startPct : Nat
  inc : Nat
  incPct : Nat
  align : Option Nat
  subjob : Nat
  append : Bool
  diskless : Bool
  fakeio : Bool
  noio : Bool
  fillDevice : Bool
  createOnOpen : Bool
  use64 : Bool

/-- A file before setup_files: `regular`: FIO_TYPE_FILE; `real`: real_file_size; `rnd`: what `__rand` delivers when
`get_rand_file_size` asks on behalf of this file. -/
structure File where
  regular : Bool
  real : Nat
  rnd : Nat

/-- A file after setup_files: file_offset, io_size, real_file_size, whether it was extended, and what it adds to
total_size (`none`: makes it -1ULL). -/
structure Out where
  off : Nat
  io : Nat
  real : Nat
  extend : Bool
  part : Option Nat
deriving DecidableEq, Repr

/-- get_start_offset, filesetup.c:1003-1050. -/
def startOffset (o : Opts) (f : File) : Res Nat :=
  if o.append && f.regular then .ok f.real
  else if o.incPct ≠ 0 ∧ o.inc ≠ 0 then .crash
  else
    let inc := if o.incPct ≠ 0 then w (o.incPct * f.real) / 100 else o.inc
    let raw := if o.startPct > 0 then w (w (f.real * o.startPct) / 100 + w (o.subjob * inc))
      else w (o.startOffset + w (o.subjob * inc))
    if o.incPct ≠ 0 ∨ o.startPct > 0 then
      let a := o.align.getD o.minBs
      if a = 0 then .crash
      else .ok (w ((raw / a + (if raw % a ≠ 0 then 1 else 0)) * a))
    else .ok raw

/-- `frand_max + 1.0` as a power of two, filesetup.c:441, 444, lib/rand.h:rand_max. -/
def randBits (o : Opts) : Nat := if o.use64 then 64 else 32

/-- get_rand_file_size, filesetup.c:435-449; `round53` is rounding to a double. -/
def randSize (o : Opts) (f : File) : Nat :=
  let sized := sub o.fileHigh o.fileLow
  let ret := round53 (round53 sized * round53 f.rnd) / 2 ^ randBits o
  let ret := w (ret + o.fileLow)
  ret - ret % o.rwMinBs

/-- io_size of a file before percentages, filesetup.c:1255-1296; `fs` is the size per file, `extra` whether one of
the blocks left over goes to this file. -/
def baseSize (o : Opts) (fs : Nat) (extra : Bool) (f : File) (off : Nat) : Res Nat :=
  if o.fileLow = 0 then
    let io := if extra then w (fs + o.minBs) else fs
    if io = 0 then
      if off > f.real then .err else .ok (f.real - off)
    else .ok io
  else if f.real < o.fileLow ∨ f.real > o.fileHigh then
    if off > o.fileLow then .err
    else if o.fileLow = o.fileHigh then .ok (o.fileLow - off)
    else .ok (sub (randSize o f) off)
  else .ok (sub f.real off)

/-- What `size=` in percent makes of io_size, filesetup.c:1304-1314. -/
def pctSize (o : Opts) (io off : Nat) : Nat :=
  if o.sizePct ≠ 0 ∧ o.sizePct ≠ 100 then
    let fileSize := w (io + off)
    let a := w (fileSize * o.sizePct) / 100
    let b := if a > sub fileSize off then sub fileSize off else a
    b - b % o.minBs
  else io

/-- What a file adds to total_size, filesetup.c:1316-1322. -/
def totalPart (o : Opts) (io : Nat) : Nat :=
  if o.ioSizePct ≠ 0 ∧ o.ioSizePct ≠ 100 then w (io * o.ioSizePct) / 100 else io

/-- One file of the loop, filesetup.c:1245-1337. -/
def fileSetup (o : Opts) (fs : Nat) (extra : Bool) (f : File) : Res Out :=
  match startOffset o f with
  | .crash => .crash
  | .err => .err
  | .ok off =>
    match baseSize o fs extra f off with
    | .crash => .crash
    | .err => .err
    | .ok b =>
      let io := if b = unknown then b else pctSize o b off
      let part := if b = unknown then none else some (totalPart o io)
      if f.regular ∧ w (io + off) > f.real then
        if o.diskless = false ∧ o.createOnOpen = false then .ok { off, io, real := f.real, extend := true, part }
        else if o.diskless = false ∨ o.fakeio then .ok { off, io, real := w (io + off), extend := false, part }
        else .ok { off, io, real := f.real, extend := false, part }
      else .ok { off, io, real := f.real, extend := false, part }

/-- The loop, filesetup.c:1245-1337: `extra` is nr_fs_extra, `total` is total_size. -/
def loop (o : Opts) (fs : Nat) : Nat → Nat → List File → Res (List Out × Nat)
  | _, total, [] => .ok ([], total)
  | extra, total, f :: r =>
    match fileSetup o fs (decide (extra ≠ 0)) f with
    | .crash => .crash
    | .err => .err
    | .ok g =>
      let total := match g.part with | none => unknown | some p => w (total + p)
      match loop o fs (if o.fileLow = 0 then extra - 1 else extra) total r with
      | .crash => .crash
      | .err => .err
      | .ok (gs, t) => .ok (g :: gs, t)

/-- total_size of the first loop, filesetup.c:1191-1198. -/
def realTotal : Nat → List File → Nat
  | t, [] => t
  | t, f :: r => realTotal (if f.real = unknown then unknown else w (t + f.real)) r

/-- Size per file and blocks left over, filesetup.c:1226-1234. -/
def perFile (o : Opts) (n : Nat) : Nat × Nat :=
  if o.fileLow = 0 ∧ n ≠ 0 then
    let fs := o.size / n
    (fs, if fs * n < o.size then (o.size - fs * n) / o.minBs else 0)
  else (0, 0)

/-- The size a file to be extended gets, filesetup.c:1397. -/
def extended (g : Out) : Out := if g.extend then { g with real := w (g.io + g.off) } else g

/-- What setup_files leaves behind: the files, `size` and `total_io_size`. -/
structure Done where
  files : List Out
  size : Nat
  totalIo : Nat
deriving DecidableEq, Repr

/-- setup_files, filesetup.c:1191-1472; extend_file succeeds. -/
def setupFiles (o : Opts) (fs : List File) : Res Done :=
  if (realTotal 0 fs = 0 ∨ realTotal 0 fs = unknown) ∧ o.size = 0 ∧ o.noio = false ∧ o.fillDevice = false ∧
      ¬ (fs.length ≠ 0 ∧ (o.fileLow ≠ 0 ∨ o.fileHigh ≠ 0)) then .err
  else if o.fileLow = 0 ∧ fs.length ≠ 0 ∧ o.size / fs.length * fs.length < o.size ∧ o.minBs = 0 then .crash
  else
    match loop o (perFile o fs.length).1 (perFile o fs.length).2 0 fs with
    | .crash => .crash
    | .err => .err
    | .ok (gs, total) =>
      let size := if o.size = 0 ∨ (total ≠ 0 ∧ o.size > total) then total else o.size
      if size < o.minBs then .err
      else .ok { files := gs.map extended, size,
                 totalIo := if o.ioSize ≠ 0 then w (o.ioSize * o.loops) else w (size * o.loops) }

/-- What `write` delivers in extend_file: the number of bytes written, or an error; ENOSPC and EDQUOT apart. -/
inductive Wr where
  | wrote (r : Nat)
  | noSpace
  | fail
deriving DecidableEq, Repr

/-- How the loop in extend_file ends. -/
inductive End where
  | ok
  | err
  /-- the results of `write` given are used up -/
  | more
deriving DecidableEq, Repr

/-- The loop of extend_file, filesetup.c:211-247.  `ws`: for each call of `write`, whether `td->terminate` is set when
the loop is at its head, and what the call delivers; `pos` is how far the file has been written, from 0.  Also
delivered: the lengths asked for. -/
def writeLoop (fill : Bool) : (left bs pos : Nat) → List (Bool × Wr) → End × Nat × List Nat
  | 0, _, pos, _ => (.ok, pos, [])
  | _ + 1, _, pos, [] => (.more, pos, [])
  | left + 1, bs, pos, (term, wr) :: r =>
    if term then (.ok, pos, [])
    else
      let bs := if bs > left + 1 then left + 1 else bs
      match wr with
      | .wrote k =>
        if k > 0 then
          let q := writeLoop fill (left + 1 - k) bs (pos + k) r
          (q.1, q.2.1, bs :: q.2.2)
        else (.err, pos, [bs])
      | .noSpace => if fill then (.ok, pos, [bs]) else (.err, pos, [bs])
      | .fail => (.err, pos, [bs])

/-- The part of extend_file behind the opening of a file that is laid out anew (`new_layout`), filesetup.c:191-247:
`trunc`: does ftruncate succeed (EFBIG does not count as failure, `efbig`).  Delivered: how it ended, the size of the
file, how much of it was written, from its start. -/
def layout (o : Opts) (maxBs real : Nat) (trunc efbig : Bool) (ws : List (Bool × Wr)) : End × Nat × Nat :=
  let size0 := if o.fillDevice then 0 else if trunc then real else 0
  if o.fillDevice = false ∧ trunc = false ∧ efbig = false then (.err, 0, 0)
  else
    let q := writeLoop o.fillDevice real (if maxBs > real then real else maxBs) 0 ws
    (q.1, max size0 q.2.1, q.2.1)

/-- The values `size=`, `offset=` and `offset_increment=` take: a number or a percentage; options.c:1845-1906. -/
inductive Setting where
  | bytes (v : Nat)
  | pct (p : Nat)
deriving DecidableEq, Repr

/-- str_size_cb, options.c:1887-1906: (size, size_percent); str_offset_cb and str_offset_increment_cb
(options.c:1845-1885) are alike. -/
def setSize (old : Nat × Nat) : Setting → Nat × Nat
  | .pct p => (0, p)
  | .bytes v => (v, old.2)

end Fio.Setup
