import Verif.Common.Double
/-
Model of the generation of the next I/O of a job for a given file: fill_io_u and what it calls,
/repo/io_u.c, the part of setup_files that splits `size` is not modelled.

All integers are 64-bit: sums and differences are taken modulo 2^64 where the C code computes them
in uint64_t.  Everything random is a parameter (`Draws`): the decision of should_do_random, the
blocks that get_next_rand_offset returns, the draws for the block size and the number of blocks
axmap_set_nr reports.  `none` is the failure of fill_io_u (or a failing assertion, or a loop of
get_next_buflen that consumed all the draws given).
Not modelled: zonemode=zbd (see Verif/Zbd), multi-range trims, sync directions, invalidation of
caches, dprint, data placement.
-/
namespace Fio.IoGen

/-- The directions with ddir_rw, io_ddir.h:6-22. -/
inductive Dir where
  | read | write | trim
  deriving DecidableEq, Repr

/-- uint64_t addition -/
def add64 (a b : Nat) : Nat := (a + b) % 2 ^ 64
/-- uint64_t subtraction -/
def sub64 (a b : Nat) : Nat := (2 ^ 64 + a - b % 2 ^ 64) % 2 ^ 64
/-- a `long long` added to a uint64_t -/
def addS64 (a : Nat) (b : Int) : Nat := (((a : Int) + b) % 2 ^ 64).toNat

/-- `-1ULL` -/
def m1 : Nat := 2 ^ 64 - 1

/-- `o.rw_seq`, RW_SEQ_SEQ or RW_SEQ_IDENT. -/
inductive RwSeq where
  | seq | ident | other
  deriving DecidableEq

/-- zonemode=strided: `zone_size`, `zone_range`, `zone_skip`. -/
structure Strided where
  size : Nat
  range : Nat
  skip : Nat

/-- The options of a job (thread_options.h) that are read. -/
structure Opts where
  minBs : Dir → Nat
  maxBs : Dir → Nat
  /-- `ba`, the alignment of random blocks -/
  ba : Dir → Nat
  /-- `bssplit`: block size and percentage -/
  bssplit : Dir → List (Nat × Nat)
  bsIsSeqRand : Bool
  bsUnaligned : Bool
  /-- `ddir_seq_add` -/
  seqAdd : Int
  /-- `ddir_seq_nr` -/
  seqNr : Nat
  rwSeq : RwSeq
  timeBased : Bool
  /-- `file_service_type & __FIO_FSERVICE_NONUNIFORM` -/
  nonUniform : Bool
  nrFiles : Nat
  /-- `o->io_size > o->size` -/
  overlap : Bool
  /-- td_write(td) -/
  tdWrite : Bool
  /-- td_random(td) -/
  tdRandom : Bool
  /-- td_randtrimwrite(td) -/
  randTrimWrite : Bool
  /-- file_randommap(td, f) -/
  randomMap : Bool
  zone : Option Strided

/-- The fields of struct fio_file (file.h) and of struct thread_data that are read or written. -/
structure File where
  /-- `f->file_offset` -/
  fileOff : Nat
  /-- `f->io_size` -/
  ioSize : Nat
  /-- `f->real_file_size` -/
  real : Nat
  /-- get_start_offset(td, f), filesetup.c:1003-1051 -/
  startOff : Nat
  lastPos : Dir → Nat
  lastStart : Dir → Nat
  /-- `td->zone_bytes` -/
  zoneBytes : Nat
  /-- `td->ddir_seq_nr` -/
  seqCnt : Nat

/-- The random choices made in one call of fill_io_u. -/
structure Draws where
  /-- should_do_random, io_u.c:358-368 -/
  doRandom : Bool
  /-- first get_next_rand_offset, `none` if it returns 1, io_u.c:328-356 -/
  rand1 : Option Nat
  /-- the one after fio_file_reset -/
  rand2 : Option Nat
  /-- draws of `td->bsrange_state` -/
  bs : List Nat
  /-- the bits of a draw: rand_max is `2 ^ bits - 1` -/
  bits : Nat
  /-- result of axmap_set_nr -/
  setNr : Nat

/-- Assignment to one entry of `last_pos` or `last_start`. -/
def upd (g : Dir → Nat) (d : Dir) (v : Nat) : Dir → Nat := fun e => if e = d then v else g e

/-- fio_file_reset, filesetup.c:2173-2188, without the random map. -/
def fileReset (f : File) : File :=
  { f with lastPos := fun _ => f.fileOff, lastStart := fun _ => m1 }

/-- last_block, io_u.c:59-85; the subtraction may wrap. -/
def lastBlock (o : Opts) (f : File) (d : Dir) : Nat :=
  let m := if f.ioSize > f.real then f.real else f.ioSize
  let m := match o.zone with
    | some z => if z.range ≠ 0 then z.range else m
    | none => m
  let m := if o.minBs d > o.ba d then sub64 m (o.minBs d - o.ba d) else m
  m / o.ba d

/-- `n * (r / (rand_max + 1.0))` in double arithmetic, cut to an integer, io_u.c:117 and 652. -/
def scaled (n r bits : Nat) : Nat := round53 (round53 n * round53 r) / 2 ^ bits

/-- get_next_rand_block, io_u.c:381-400. -/
def randBlock (o : Opts) (f : File) (e : Draws) : File × Option Nat :=
  match e.rand1 with
  | some b => (f, some b)
  | none => if o.timeBased ∨ o.nonUniform then (fileReset f, e.rand2) else (f, none)

/-- The two resets to the start of the file, io_u.c:414-434. -/
def seqReset (o : Opts) (f : File) (d : Dir) : File :=
  let f := if f.lastPos d ≥ add64 f.ioSize f.startOff ∧ o.timeBased ∧ o.nrFiles = 1 then
    { f with lastPos := upd f.lastPos d f.fileOff } else f
  if o.tdWrite ∧ o.overlap ∧ f.lastPos d ≥ add64 f.ioSize f.startOff then
    { f with lastPos := upd f.lastPos d f.fileOff } else f

/-- The rewind of backwards I/O, io_u.c:442-448. -/
def seqRewind (o : Opts) (f : File) (d : Dir) : File :=
  if f.lastPos d = f.fileOff ∧ f.fileOff ≠ 0 ∧ o.seqAdd < 0 then
    { f with lastPos := upd f.lastPos d (if f.real > f.ioSize then f.ioSize else f.real) }
  else f

/-- The step of holed or backwards I/O, io_u.c:450-471. -/
def seqPos (o : Opts) (f : File) (d : Dir) : Nat :=
  let pos := sub64 (f.lastPos d) f.fileOff
  if pos ≠ 0 ∧ o.seqAdd ≠ 0 then
    let pos := addS64 pos o.seqAdd
    if pos ≥ f.real then
      if o.seqAdd > 0 then f.fileOff
      else addS64 (if f.real > f.ioSize then f.ioSize else f.real) o.seqAdd
    else pos
  else pos

/-- get_next_seq_offset, io_u.c:402-478; `none` is the return value 1. -/
def seqOffset (o : Opts) (f : File) (d : Dir) : File × Option Nat :=
  let f := seqReset o f d
  if f.lastPos d < f.real then
    let f := seqRewind o f d
    (f, some (seqPos o f d))
  else (f, none)

/-- What get_next_block chose: `offset` and `b` (`-1ULL` if not set), `is_random`, IO_U_F_BUSY_OK. -/
structure Choice where
  off : Nat := m1
  b : Nat := m1
  isRandom : Bool
  busyOk : Bool

/-- get_next_seq_offset, and get_next_rand_block if it fails, io_u.c:499-502 and 514-518. -/
def seqElseRand (o : Opts) (f : File) (d : Dir) (e : Draws) : File × Option Choice :=
  match seqOffset o f d with
  | (f, some off) => (f, some { off := off, isRandom := false, busyOk := true })
  | (f, none) =>
    match randBlock o f e with
    | (f, some b) => (f, some { b := b, isRandom := false, busyOk := true })
    | (f, none) => (f, none)

/-- The choice of an offset or a block, io_u.c:487-528. -/
def choose (o : Opts) (f : File) (d : Dir) (hit : Bool) (e : Draws) : File × Option Choice :=
  if o.randTrimWrite ∧ d = .write then
    (f, some { off := sub64 (f.lastStart .trim) f.fileOff, isRandom := true, busyOk := true })
  else if hit then
    if o.tdRandom then
      if e.doRandom then
        match randBlock o f e with
        | (f, some b) => (f, some { b := b, isRandom := true, busyOk := false })
        | (f, none) => (f, none)
      else seqElseRand o f d e
    else
      match seqOffset o f d with
      | (f, some off) => (f, some { off := off, isRandom := false, busyOk := false })
      | (f, none) => (f, none)
  else
    match o.rwSeq with
    | .seq => seqElseRand o f d e
    | .ident =>
      let off := if f.lastStart d ≠ m1 then sub64 (f.lastStart d) f.fileOff else 0
      (f, some { off := off, isRandom := false, busyOk := true })
    | .other => (f, none)

/-- get_next_block, io_u.c:477-543: the offset relative to `file_offset`. -/
def nextBlock (o : Opts) (f : File) (d : Dir) (hit : Bool) (e : Draws) :
    File × Option (Nat × Choice) :=
  match choose o f d hit e with
  | (f, none) => (f, none)
  | (f, some c) =>
    if c.off ≠ m1 then (f, some (c.off, c))
    else if c.b ≠ m1 then (f, some ((c.b * o.ba d) % 2 ^ 64, c))
    else (f, none)

/-- The count of I/Os before the next jump, io_u.c:559-562; returns rw_seq_hit. -/
def seqHit (o : Opts) (f : File) : File × Bool :=
  if o.seqNr ≠ 0 then
    let n := (2 ^ 32 + f.seqCnt - 1) % 2 ^ 32
    if n = 0 then ({ f with seqCnt := o.seqNr }, true) else ({ f with seqCnt := n }, false)
  else (f, false)

/-- get_next_offset, io_u.c:550-605. -/
def nextOffset (o : Opts) (f : File) (d : Dir) (e : Draws) : Option (File × Nat × Choice) :=
  let (f, hit) := seqHit o f
  match nextBlock o f d hit e with
  | (_, none) => none
  | (f, some (off, c)) =>
    if off ≥ f.ioSize then none
    else
      let off := add64 off f.fileOff
      if off ≥ f.real then none
      else if o.randTrimWrite ∧ d = .trim ∧ f.lastStart .trim = off then
        some ({ f with lastStart := upd f.lastStart .write (sub64 (f.lastStart .write) 1) }, off, c)
      else some (f, off, c)

/-- io_u_fits, io_u.c:607-613. -/
def fits (f : File) (off len : Nat) : Bool := decide (add64 off len ≤ add64 f.ioSize f.startOff)

/-- The loop over `bssplit`, io_u.c:655-668: `buflen` is the value so far, `perc` the sum. -/
def splitPick (f : File) (off r frandMax : Nat) : List (Nat × Nat) → (buflen perc : Nat) → Nat
  | [], buflen, _ => buflen
  | (bs, p) :: rest, buflen, perc =>
    if p = 0 then splitPick f off r frandMax rest buflen perc
    else
      let perc := perc + p
      if r / perc ≤ frandMax / 100 ∧ fits f off bs then bs
      else splitPick f off r frandMax rest bs perc

/-- Rounding to a multiple of the minimum and the cap, io_u.c:671-677; `buflen & ~(minbs - 1)` is
`buflen - buflen % minbs` for a power of 2. -/
def roundLen (unaligned : Bool) (minbs maxbs buflen : Nat) : Nat :=
  let l := if unaligned then buflen else buflen - buflen % minbs
  if l > maxbs then maxbs else l

/-- The length drawn in one round, io_u.c:648-669. -/
def drawLen (o : Opts) (f : File) (d : Dir) (off bits r prev : Nat) : Nat :=
  match o.bssplit d with
  | [] => add64 (o.minBs d) (scaled (o.maxBs d) r bits)
  | sp => splitPick f off r (2 ^ bits - 1) sp prev 0

/-- The loop of get_next_buflen, io_u.c:647-678, one draw per round; `none` if the draws are used up.
`buflen` is the value of the variable from the round before. -/
def lenLoop (o : Opts) (f : File) (d : Dir) (off bits : Nat) : List Nat → (buflen : Nat) → Option Nat
  | [], _ => none
  | r :: rs, buflen =>
    let l := roundLen o.bsUnaligned (o.minBs d) (o.maxBs d) (drawLen o f d off bits r buflen)
    if fits f off l then some l else lenLoop o f d off bits rs l

/-- The direction whose block sizes are used, io_u.c:632-633. -/
def lenDir (o : Opts) (d : Dir) (isRandom : Bool) : Dir :=
  if o.bsIsSeqRand then (if isRandom then .write else .read) else d

/-- get_next_buflen, io_u.c:615-681. -/
def nextLen (o : Opts) (f : File) (d : Dir) (off : Nat) (isRandom : Bool) (e : Draws) : Option Nat :=
  if o.randTrimWrite ∧ d = .write then some (sub64 (f.lastPos .trim) (f.lastStart .trim))
  else
    let k := lenDir o d isRandom
    if o.minBs k = o.maxBs k then some (o.minBs k)
    else if ¬ fits f off (o.minBs k) then some 0
    else lenLoop o f k off e.bits e.bs 0

/-- setup_strided_zone_mode, io_u.c:978-1014; `none` if an assertion fails. -/
def strided (z : Strided) (f : File) (d : Dir) : Option File :=
  if z.size = 0 ∨ z.range = 0 then none
  else
    let f := if f.zoneBytes ≥ z.size then
        let fo := add64 f.fileOff (add64 z.range z.skip)
        let fo := if fo ≥ f.real then f.startOff else fo
        { f with zoneBytes := 0, fileOff := fo, lastPos := upd f.lastPos d fo }
      else f
    let f := if f.lastPos d ≥ add64 f.fileOff z.range then
      { f with lastPos := upd f.lastPos d f.fileOff } else f
    some (if f.zoneBytes % z.range = 0 then fileReset f else f)

/-- setup_strided_zone_mode if the option is set, io_u.c:1101-1102. -/
def setupZone (o : Opts) (f : File) (d : Dir) : Option File :=
  match o.zone with
  | some z => strided z f d
  | none => some f

/-- mark_random_map, io_u.c:36-57: `min_bs` is that of the direction of the I/O; `none` if an
assertion fails. -/
def markMap (o : Opts) (d : Dir) (busyOk : Bool) (len setNr : Nat) : Option Nat :=
  let mb := o.minBs d
  let nr := add64 len (mb - 1) / mb
  if nr = 0 then none
  else
    let nr := if busyOk then nr else setNr
    if nr = 0 then none
    else some (if (nr * mb) % 2 ^ 64 < len then (nr * mb) % 2 ^ 64 else len)

/-- A generated I/O. -/
structure Io where
  dir : Dir
  off : Nat
  /-- the length before mark_random_map -/
  gen : Nat
  /-- `io_u->buflen` -/
  len : Nat
  isRandom : Bool

/-- fill_io_u, io_u.c:1078-1153, for a direction with ddir_rw. -/
def fill (o : Opts) (f : File) (d : Dir) (e : Draws) : Option (File × Io) := do
  let f ← setupZone o f d
  let (f, off, c) ← nextOffset o f d e
  let gen ← nextLen o f d off c.isRandom e
  if gen = 0 then none
  else if add64 off gen > f.real then none
  else
    let len ← if o.tdRandom ∧ o.randomMap then markMap o d c.busyOk gen e.setNr else some gen
    some ({ f with zoneBytes := add64 f.zoneBytes len },
      { dir := d, off := off, gen := gen, len := len, isRandom := c.isRandom })

/-- get_io_u, io_u.c:1980-1981: the last position after an I/O was generated. -/
def advance (f : File) (io : Io) : File :=
  { f with lastStart := upd f.lastStart io.dir io.off,
           lastPos := upd f.lastPos io.dir (add64 io.off io.len) }

/-- I/Os generated one after the other. -/
def run (o : Opts) (f : File) : List (Dir × Draws) → Option (File × List Io)
  | [] => some (f, [])
  | (d, e) :: rest => do
    let (g, io) ← fill o f d e
    let (g, ios) ← run o (advance g io) rest
    some (g, io :: ios)

/-- set_rw_ddir for a trimwrite job, io_u.c:876-882. -/
def trimWriteDir (f : File) : Dir := if f.lastStart .write = f.lastStart .trim then .trim else .write

/-- A randtrimwrite job: I/Os are generated until one fails. -/
def runTrimWrite (o : Opts) (f : File) : List Draws → List Io
  | [] => []
  | e :: rest =>
    match fill o f (trimWriteDir f) e with
    | none => []
    | some (g, io) => io :: runTrimWrite o (advance g io) rest

/-- bssplit_ddir, options.c:136-207: the percentages that are missing (`-1U`) share what is left to
100; returns the minimum, the maximum and the entries, before the sort by percentage.
`none` is the return value 1. -/
def bssplitDdir (l : List (Nat × Nat)) : Option (Nat × Nat × List (Nat × Nat)) :=
  let missing := (l.filter fun x => x.2 = 2 ^ 32 - 1).length
  let perc := ((l.filter fun x => x.2 ≠ 2 ^ 32 - 1).map (·.2)).foldl (fun a b => (a + b) % 2 ^ 32) 0
  if perc > 100 ∧ missing > 1 then none
  else
    let perc := if missing = 1 ∧ l.length = 1 then 100 else perc
    let share := (2 ^ 32 + 100 - perc) % 2 ^ 32 / missing
    some (l.foldl (fun m x => if x.1 < m then x.1 else m) m1,
      l.foldl (fun m x => if x.1 > m then x.1 else m) 0,
      l.map fun x => if x.2 = 2 ^ 32 - 1 then (x.1, share) else x)

end Fio.IoGen
