/-
Replaying an I/O log: the log written with write_iolog and read back with
read_iolog, at the level of the bytes of the file.

Bytes are natural numbers below 256.  The C library functions used are modelled
as the C standard describes them: `fprintf` with %llu and %s, `fgets`, `sscanf`
with %llu, %u and %256s.
-/
namespace Fio.Replay

/-- The bytes of a string literal. -/
def str (s : String) : List Nat := s.toList.map (·.toNat)

/-- Decimal digits of `n`, at most `f` of them. -/
def decF : Nat → Nat → List Nat
  | 0, _ => []
  | f + 1, n => if n < 10 then [48 + n] else decF f (n / 10) ++ [48 + n % 10]

/-- fprintf's %llu: 20 digits hold every 64-bit number. -/
def dec (n : Nat) : List Nat := decF 20 n

/-- io_ddir.h:4-16: the directions. -/
inductive Ddir
  | read | write | trim | sync | datasync | syncFileRange | syncfs | wait | inval
  deriving DecidableEq, Repr

/-- io_ddir.h:23-40 io_ddir_name(). -/
def ddirName : Ddir → List Nat
  | .read => str "read"
  | .write => str "write"
  | .trim => str "trim"
  | .sync => str "sync"
  | .datasync => str "datasync"
  | .syncFileRange => str "sync_file_range"
  | .syncfs => str "syncfs"
  | .wait => str "wait"
  | .inval => str "invalid"

/-- io_ddir.h:5-12: the numbers of the directions, used as an index. -/
def Ddir.idx : Ddir → Nat
  | .read => 0 | .write => 1 | .trim => 2 | .sync => 3 | .datasync => 4
  | .syncFileRange => 5 | .syncfs => 6 | .wait => 7 | .inval => 0

/-- file.h: enum file_log_act. -/
inductive FAct
  | add | open | close
  deriving DecidableEq, Repr

/-- iolog.c:60: the names of the file actions. -/
def factName : FAct → List Nat
  | .add => str "add"
  | .open => str "open"
  | .close => str "close"

/-- An entry of the log: what happened, to which file, and when. -/
inductive Ev
  | file (t : Nat) (f : Nat) (a : FAct)
  | io (t : Nat) (f : Nat) (d : Ddir) (off len : Nat)
  deriving DecidableEq, Repr

/-- iolog.c:42-56 log_io_u() and iolog.c:57-79 log_file(): one line.
`names` are the names of the files of the job. -/
def logLine (names : List (List Nat)) : Ev → List Nat
  | .file t f a => dec t ++ [32] ++ names.getD f [] ++ [32] ++ factName a ++ [10]
  | .io t f d off len =>
    dec t ++ [32] ++ names.getD f [] ++ [32] ++ ddirName d ++ [32] ++ dec off ++ [32]
      ++ dec len ++ [10]

/-- iolog.c:33-34. -/
def ver2 : List Nat := str "fio version 2 iolog"
def ver3 : List Nat := str "fio version 3 iolog"

/-- iolog.c:799-803: the `add` entries of all files, written at the times `ts`. -/
def addEvs (names : List (List Nat)) (ts : List Nat) : List Ev :=
  (List.range names.length).map fun i => .file (ts.getD i 0) i .add

/-- iolog.c:771-806 init_iolog_write(), then the entries logged during the run.
The file is opened for appending: modelled is the case that it did not exist. -/
def writeLog (names : List (List Nat)) (ts : List Nat) (evs : List Ev) : List Nat :=
  ver3 ++ [10] ++ ((addEvs names ts ++ evs).map (logLine names)).flatten

/-! ### The C library reading -/

/-- `fgets(buf, n + 1, f)`: at most `n` bytes, up to and with the newline. -/
def fgets : Nat → List Nat → List Nat × List Nat
  | 0, l => ([], l)
  | _ + 1, [] => ([], [])
  | n + 1, b :: l => if b = 10 then ([b], l) else (b :: (fgets n l).1, (fgets n l).2)

/-- `isspace` in the C locale. -/
def isSpace (b : Nat) : Bool := b == 32 || (9 ≤ b && b ≤ 13)

def isDigit (b : Nat) : Bool := 48 ≤ b && b ≤ 57

def skipWs (l : List Nat) : List Nat := l.dropWhile isSpace

/-- The conversions used. -/
inductive Conv
  | ull | u | s (width : Nat)
  deriving DecidableEq, Repr

inductive Val
  | num (n : Nat)
  | bytes (l : List Nat)
  deriving DecidableEq, Repr

/-- The number that a run of decimal digits denotes. -/
def numVal (ds : List Nat) : Nat := ds.foldl (fun a d => a * 10 + (d - 48)) 0

/-- strtoull() as used by sscanf: sign, digits; saturates. -/
def readNum (l : List Nat) : Option (Nat × List Nat) :=
  let neg := l.head? == some 45
  let l' := if l.head? == some 45 || l.head? == some 43 then l.tail else l
  let ds := l'.takeWhile isDigit
  if ds = [] then none
  else
    let v := numVal ds
    let r := if 2 ^ 64 ≤ v then 2 ^ 64 - 1 else if neg then (2 ^ 64 - v) % 2 ^ 64 else v
    some (r, l'.dropWhile isDigit)

/-- One conversion of sscanf; leading white space is skipped. -/
def conv1 (c : Conv) (l : List Nat) : Option (Val × List Nat) :=
  match c with
  | .ull => (readNum (skipWs l)).map fun p => (.num p.1, p.2)
  | .u => (readNum (skipWs l)).map fun p => (.num (p.1 % 2 ^ 32), p.2)
  | .s w =>
    let l' := skipWs l
    let t := (l'.take w).takeWhile (fun b => !isSpace b)
    if t = [] then none else some (.bytes t, l'.drop t.length)

/-- sscanf: the values converted; the return value is their number. -/
def scan : List Conv → List Nat → List Val
  | [], _ => []
  | c :: cs, l =>
    match conv1 c l with
    | none => []
    | some (v, l') => v :: scan cs l'

/-- A C string ends at the first NUL. -/
def cstr (l : List Nat) : List Nat := l.takeWhile (fun b => b != 0)

/-! ### read_iolog -/

/-- iolog.h: struct io_piece, the parts that a replay uses. -/
structure Piece where
  ddir : Ddir
  fileno : Int
  offset : Nat
  len : Nat
  delay : Nat
  act : FAct
  deriving DecidableEq, Repr

/-- The options that matter.  `scaleTime` stands for the floating point
arithmetic of delay_since_ttime() (iolog.c:190-192), `none` for
replay_time_scale=100.  `dir` is the directory prefix that add_file() puts
before a name (filesetup.c:1867-1871); clones (`numjob` ≠ 0) are not modelled. -/
structure Opts where
  version : Nat := 3
  redirect : Option (List Nat) := none
  skip : Nat := 0
  replayScale : Nat := 0
  replayAlign : Nat := 0
  readOnly : Bool := false
  noStall : Bool := false
  scaleTime : Option (Nat → Nat) := none
  dir : List Nat := []

/-- The variables of read_iolog() (iolog.c:460-469) and the parts of
`td` it changes.  `act` and `fname` are `none` as long as the buffers were not
filled.  `offset`, `bytes` start with whatever is on the stack.  `ttime`, too,
starts each round with an unspecified value, `junk`.
`bs` is the memory of `max_bs[3]` followed by `bssplit[3]`
(thread_options.h:121-122), as eight-byte words. -/
structure R where
  files : List (List Nat) := []
  fname : Option (List Nat) := none
  act : Option (List Nat) := none
  offset : Nat
  bytes : Nat
  junk : Nat
  fileno : Int := 0
  fact : FAct := .add
  last : Nat := 0
  size : Nat := 0
  total : Nat := 0
  bs : List Nat := [0, 0, 0, 0, 0, 0]
  reads : Nat := 0
  writes : Nat := 0
  trims : Nat := 0
  waits : Nat := 0
  syncs : Nat := 0
  pieces : List Piece := []

/-- iolog.c:177-193 delay_since_ttime(). -/
def delaySince (o : Opts) (last t : Nat) : Nat :=
  if last = 0 ∨ o.noStall ∨ t < last then 0
  else match o.scaleTime with
    | none => t - last
    | some f => f (t - last)

/-- filesetup.c:2148-2158 get_fileno(). -/
def getFileno (files : List (List Nat)) (n : List Nat) : Int :=
  match files.findIdx? (fun f => f == n) with
  | some i => i
  | none => -1

/-- iolog.h:335-341 ipo_bytes_align(): the low bits of `align` − 1 are cleared
(64 bits). -/
def alignOff (align off : Nat) : Nat :=
  if align = 0 then off else off &&& ((2 ^ 64 - 1) ^^^ (align - 1))

/-- The number converted at a position of the format. -/
def natAt (vs : List Val) (i : Nat) : Nat :=
  match vs[i]? with
  | some (.num n) => n
  | _ => 0

/-- The string converted at a position of the format. -/
def bytAt (vs : List Val) (i : Nat) : List Nat :=
  match vs[i]? with
  | some (.bytes l) => l
  | _ => []

/-- iolog.c:491-493 and 504-505: the values converted are stored, the variables
of the others keep what they had.  Returns the state, the return value and
`ttime`. -/
def doScan (o : Opts) (s : R) (line : List Nat) : R × Nat × Nat :=
  if o.version = 3 then
    let vs := scan [.ull, .s 256, .s 256, .ull, .u] (cstr line)
    ({ s with
        fname := if 2 ≤ vs.length then some (bytAt vs 1) else s.fname,
        act := if 3 ≤ vs.length then some (bytAt vs 2) else s.act,
        offset := if 4 ≤ vs.length then natAt vs 3 else s.offset,
        bytes := if 5 ≤ vs.length then natAt vs 4 else s.bytes },
     vs.length, if 1 ≤ vs.length then natAt vs 0 else s.junk)
  else
    let vs := scan [.s 256, .s 256, .ull, .u] (cstr line)
    ({ s with
        fname := if 1 ≤ vs.length then some (bytAt vs 0) else s.fname,
        act := if 2 ≤ vs.length then some (bytAt vs 1) else s.act,
        offset := if 3 ≤ vs.length then natAt vs 2 else s.offset,
        bytes := if 4 ≤ vs.length then natAt vs 3 else s.bytes },
     vs.length, 0)

/-- iolog.c:514-538: the direction of an action; `none` for a bad one. -/
def ddirOf (a : List Nat) : Option Ddir :=
  if a = str "wait" then some .wait
  else if a = str "read" then some .read
  else if a = str "write" then some .write
  else if a = str "sync" then some .sync
  else if a = str "datasync" then some .datasync
  else if a = str "trim" then some .trim
  else none

/-- iolog.c:516-534: replay_skip applies to all but wait and datasync. -/
def skipped (o : Opts) : Ddir → Bool
  | .read => o.skip.testBit 0
  | .write => o.skip.testBit 1
  | .trim => o.skip.testBit 2
  | .sync => o.skip.testBit 3
  | _ => false

/-- iolog.c:567-592: read-only jobs drop writes and trims, no_stall drops waits. -/
def dropped (o : Opts) : Ddir → Bool
  | .write => o.readOnly
  | .trim => o.readOnly
  | .wait => o.noStall
  | _ => false

/-- iolog.c:567-592: the counters. -/
def count (s : R) : Ddir → R
  | .read => { s with reads := s.reads + 1 }
  | .write => { s with writes := s.writes + 1 }
  | .trim => { s with trims := s.trims + 1 }
  | .wait => { s with waits := s.waits + 1 }
  | .inval => s
  | _ => { s with syncs := s.syncs + 1 }

/-- iolog.c:612-615: max_bs is enlarged; the index is the direction. -/
def growBs (bs : List Nat) (d : Ddir) (bytes : Nat) : List Nat :=
  if d ≠ .inval ∧ bs.getD d.idx 0 < bytes then bs.set d.idx bytes else bs

/-- iolog.c:598-622: the piece is made and queued (36-40 queue_io_piece()).
`o.size` and `total_io_size` are 64-bit. -/
def queue (o : Opts) (s : R) (rw : Ddir) (delay : Nat) : R :=
  if rw = .wait then
    { s with pieces := s.pieces ++ [⟨rw, 0, 0, 0, s.offset, .add⟩] }
  else
    let off := if o.replayScale ≠ 0 then s.offset / o.replayScale else s.offset
    { s with
        pieces := s.pieces ++ [⟨rw, s.fileno, alignOff o.replayAlign off, s.bytes,
          if o.version = 3 then delay else 0, s.fact⟩],
        bs := growBs s.bs rw s.bytes,
        size := (s.size + s.bytes) % 2 ^ 64,
        total := (s.total + s.bytes) % 2 ^ 64 }

/-- What a round of the loop did: a crash is reading an unfilled buffer. -/
inductive Res
  | crash
  | next (s : R)
  | queued (s : R)

/-- iolog.c:510-539 and 567-622 for a line of an I/O.  `a` is the action,
`fn` the file name. -/
def ioLine (o : Opts) (s : R) (a fn : List Nat) (delay : Nat) : Res :=
  match ddirOf a with
  | none => .next s
  | some d =>
    if skipped o d then .next s
    else
      let s := { s with fileno := getFileno s.files fn }
      if dropped o d then .next s
      else .queued (queue o (count s d) d delay)

/-- iolog.c:540-560 and 598-622 for a line of a file. -/
def fileLine (o : Opts) (s : R) (a fn : List Nat) (delay : Nat) : Res :=
  if a = str "add" then
    if o.redirect.isSome ∧ getFileno s.files fn ≠ -1 then
      .queued (queue o s .inval delay)
    else
      .queued (queue o { s with fileno := s.files.length, files := s.files ++ [o.dir ++ fn],
                                fact := .add } .inval delay)
  else if a = str "open" then
    .queued (queue o { s with fileno := getFileno s.files fn, fact := .open } .inval delay)
  else if a = str "close" then
    .queued (queue o { s with fileno := getFileno s.files fn, fact := .close } .inval delay)
  else .next s

/-- iolog.c:449-452: io_act and file_act. -/
def ioAct (o : Opts) (r : Nat) : Bool := (o.version == 3 && r == 5) || (o.version == 2 && r == 4)
def fileAct (o : Opts) (r : Nat) : Bool := (o.version == 3 && r == 3) || (o.version == 2 && r == 2)

/-- iolog.c:510-565, when the line was split: `fname` is the redirection if
there is one (507-508). -/
def classify (o : Opts) (s : R) (r delay : Nat) : Res :=
  match s.act, s.fname with
  | some a, some fn =>
    let fn := o.redirect.getD fn
    if ioAct o r then ioLine o s a fn delay
    else if fileAct o r then fileLine o s a fn delay
    else .next s
  | _, _ => if ioAct o r ∨ fileAct o r then .crash else .next s

/-- iolog.c:494-503: with version 3 the delay is taken and "wait" is refused
(`act` is compared even if the line was too short). -/
def readLine (o : Opts) (s : R) (line : List Nat) : Res :=
  let p := doScan o s line
  if o.version = 3 then
    let delay := delaySince o p.1.last p.2.2
    let s := { p.1 with last := p.2.2 }
    match s.act with
    | none => .crash
    | some a => if a = str "wait" then .next s else classify o s p.2.1 delay
  else classify o p.1 p.2.1 0

/-- iolog.c:485-630: the loop.  `budget` is `items_to_fetch` when the log is
read in chunks.  Returns the state and the rest of the file; `none` is a crash.
`fuel` bounds the number of lines. -/
def readLoop (o : Opts) : Nat → Option Nat → R → List Nat → Option (R × List Nat)
  | 0, _, s, l => some (s, l)
  | fuel + 1, budget, s, l =>
    if l = [] then some (s, [])
    else
      match readLine o s (fgets 4095 l).1 with
      | .crash => none
      | .next s' => readLoop o fuel budget s' (fgets 4095 l).2
      | .queued s' =>
        match budget with
        | none => readLoop o fuel none s' (fgets 4095 l).2
        | some k =>
          if k = 1 then some (s', (fgets 4095 l).2)
          else readLoop o fuel (some (k - 1)) s' (fgets 4095 l).2

/-- iolog.c:718-766 init_iolog_read(): the version line decides. -/
def readVersion (l : List Nat) : Option (Nat × List Nat) :=
  let p := fgets 255 l
  if p.1 = [] then none
  else if ver2 <+: p.1 then some (2, p.2)
  else if ver3 <+: p.1 then some (3, p.2)
  else none

/-- iolog.c:458-676 read_iolog() without chunks: the state at the end and
whether the log is accepted (665-666; `writes` is 0 for a read-only job, it was
not counted). -/
def readLog (o : Opts) (s0 : R) (l : List Nat) : Option (R × Bool) :=
  match readVersion l with
  | none => some (s0, false)
  | some (v, l') =>
    match readLoop { o with version := v } (l'.length + 1) none s0 l' with
    | none => none
    | some (s, _) =>
      some (s, !(s.reads == 0 && s.writes == 0 && s.waits == 0 && s.trims == 0))

/-! ### Handing out the pieces -/

/-- file.h: the state of a file: open, closing, references. -/
structure FSt where
  isOpen : Bool := false
  closing : Bool := false
  refs : Nat := 0
  deriving DecidableEq, Repr

/-- filesetup.c:1970-2006 put_file(); `none` is a failed assertion. -/
def putFile (f : FSt) : Option FSt :=
  if !f.isOpen then some f
  else if f.refs = 0 then none
  else if f.refs = 1 then some { isOpen := false, closing := false, refs := 0 }
  else some { f with refs := f.refs - 1 }

/-- ioengines.c:538-562 td_io_open_file() of a file that can be opened: it must
not be open (`assert(f->fd == -1)`). -/
def openFile (f : FSt) : Option FSt :=
  if f.isOpen then none else some { isOpen := true, closing := false, refs := 1 }

/-- ioengines.c:643-654 td_io_close_file(). -/
def closeFile (f : FSt) : Option FSt := putFile { f with closing := true }

/-- filesetup.c:1963-1968 get_file(). -/
def getFile (f : FSt) : Option FSt :=
  if f.isOpen then some { f with refs := f.refs + 1 } else none

/-- The file a piece names: `td->files[ipo->fileno]`; `none` outside the array. -/
def fileOf (fs : List FSt) (i : Int) : Option (Nat × FSt) :=
  if i < 0 then none
  else match fs[i.toNat]? with
    | none => none
    | some f => some (i.toNat, f)

/-- An I/O as it is handed to the engine. -/
structure Io where
  ddir : Ddir
  file : Nat
  offset : Nat
  len : Nat
  deriving DecidableEq, Repr

/-- iolog.c:118-173 ipo_special(): the file state afterwards. -/
def special (o : Opts) (fs : List FSt) (p : Piece) : Option (List FSt) :=
  match fileOf fs p.fileno with
  | none => none
  | some (i, f) =>
    match p.act with
    | .add => some fs
    | .open =>
      if o.redirect.isSome ∧ f.isOpen then some fs
      else (openFile f).map (fs.set i)
    | .close => (closeFile f).map (fs.set i)

/-- iolog.c:195-258 read_iolog_get() for one piece: the files afterwards and the
I/O handed out, if any. -/
def getPiece (o : Opts) (fs : List FSt) (p : Piece) : Option (List FSt × Option Io) :=
  match p.ddir with
  | .inval => (special o fs p).map fun fs => (fs, none)
  | .wait => some (fs, none)
  | d =>
    match fileOf fs p.fileno with
    | none => none
    | some (i, f) => (getFile f).map fun f' => (fs.set i f', some ⟨d, i, p.offset, p.len⟩)

/-- An I/O completes: io_u.c put_io_u() drops the reference to its file. -/
def completeIo (fs : List FSt) (i : Nat) : Option (List FSt) :=
  match fs[i]? with
  | none => none
  | some f => (putFile f).map (fs.set i)

/-- The run of a replay: `true` takes the next piece, `false` completes the
oldest I/O in flight (if there is one).  The result is the list of I/Os handed
out. -/
def replay (o : Opts) : List Bool → List FSt → List Piece → List Io → Option (List Io)
  | [], _, _, _ => some []
  | false :: w, fs, ps, [] => replay o w fs ps []
  | false :: w, fs, ps, io :: q =>
    match completeIo fs io.file with
    | none => none
    | some fs => replay o w fs ps q
  | true :: w, fs, [], q => replay o w fs [] q
  | true :: w, fs, p :: ps, q =>
    match getPiece o fs p with
    | none => none
    | some (fs, none) => replay o w fs ps q
    | some (fs, some io) => (replay o w fs ps (q ++ [io])).map (io :: ·)

end Fio.Replay
