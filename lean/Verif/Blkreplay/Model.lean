import Verif.Blkmerge.Model
/-
Replaying a block trace: `init_blktrace_read`, `read_blktrace` and what they call in blktrace.c.

Left out: reading in chunks (`read_iolog_chunked`), errors of reading, memory, and warnings. Counters
(`unsigned long`), sizes and depths (`int`) are numbers without overflow, which would take 2^31 records.
The device lookup is the environment, and so is the scaling of a delay in floating point.
-/
namespace Fio.Blkreplay
open Fio.Blkmerge (Trace decode byteswap isBlktrace)

/-- Directions of an io_piece in use here (io_ddir.h:8-20). -/
inductive Ddir where
  | read | write | trim | sync
deriving DecidableEq, Repr

/-- Options that matter (thread_options.h:392-395, `read_only` of fio.h), and the environment:
`lookup` is `blktrace_lookup_device` (oslib/linux-dev-lookup.c:11-66), the names being numbers, and
`stretch` the delay in floating point for a time scale other than 100 (iolog.c:190-192). -/
structure Opts where
  align : Nat
  scale : Nat
  skip : Ddir → Bool
  noStall : Bool
  timeScale : Nat
  readOnly : Bool
  lookup : Nat → Nat → Option Nat
  stretch : Nat → Nat

/-- An io_piece in the list of the thread (iolog.h:195-225). -/
inductive Ev where
  | opened (fileno : Nat)
  | closed (fileno : Nat)
  | io (dd : Ddir) (offset len delay fileno : Nat)
deriving DecidableEq, Repr

/-- The parts of `struct fio_file` that matter (file.h:89-105). -/
structure FileE where
  name : Nat
  maj : Nat
  min : Nat
deriving DecidableEq, Repr

/-- State of `read_blktrace` (blktrace.c:434-450) and of the thread. `cache` is the `file_cache`
(blktrace.c:17-21). -/
structure St where
  evs : List Ev
  files : List FileE
  cacheMaj : Nat
  cacheMin : Nat
  cacheNo : Nat
  ios : Ddir → Nat
  bs : Ddir → Nat
  thisDepth : Ddir → Int
  depth : Ddir → Int
  last : Nat
  size : Nat
  skipped : Nat

/-- Update of one entry of an array. -/
def upd {α : Type} (f : Ddir → α) (d : Ddir) (v : α) : Ddir → α := fun x => if x = d then v else f x

/-- State at the start (blktrace.c:402-413, 434-450): the files were freed, the last time is 0. -/
def start : St where
  evs := []
  files := []
  cacheMaj := 2 ^ 32 - 1
  cacheMin := 2 ^ 32 - 1
  cacheNo := 0
  ios := fun _ => 0
  bs := fun _ => 0
  thisDepth := fun _ => 0
  depth := fun _ => 0
  last := 0
  size := 0
  skipped := 0

/-- A bit of the category of a trace (blktrace_api.h:9-30). -/
def cat (t : Trace) (b : Nat) : Bool := t.action &&& BitVec.twoPow 32 (b + 16) != 0#32

/-- `t_get_ddir` (blktrace.c:360-370). -/
def ddirOf (t : Trace) : Option Ddir :=
  if cat t 0 then some .read else if cat t 1 then some .write else if cat t 13 then some .trim
  else none

/-- First index with the property, for the loops over files. -/
def findIdx (p : FileE → Bool) : List FileE → Nat → Option Nat
  | [], _ => none
  | f :: l, i => if p f then some i else findIdx p l (i + 1)

/-- `trace_add_file` (blktrace.c:95-140) with `add_file_exclusive` (filesetup.c:1950-1961). -/
def addFile (o : Opts) (s : St) (device : Nat) : Nat × St :=
  let maj := device / 2 ^ 20
  let min := device % 2 ^ 20
  if s.cacheMaj = maj ∧ s.cacheMin = min then (s.cacheNo, s)
  else
    let s := { s with cacheMaj := maj, cacheMin := min }
    match findIdx (fun f => f.maj == maj && f.min == min) s.files 0 with
    | some i => (i, { s with cacheNo := i })
    | none =>
      match o.lookup maj min with
      | none => (s.cacheNo, s)
      | some name =>
        match findIdx (fun f => f.name == name) s.files 0 with
        | some i =>
          (i, { s with files := s.files.set i ⟨name, maj, min⟩, evs := s.evs ++ [.opened i]
                       cacheNo := i })
        | none =>
          (s.files.length, { s with files := s.files ++ [⟨name, maj, min⟩]
                                    evs := s.evs ++ [.opened s.files.length]
                                    cacheNo := s.files.length })

/-- `x & ~(a - 1)` in a `w` bit unsigned (blktrace.c:147, iolog.h:340). -/
def alignDown (w a x : Nat) : Nat := x &&& ((2 ^ w - 1) ^^^ (a - 1))

/-- `t_bytes_align` (blktrace.c:142-148), 32 bits. -/
def bytesAlign (o : Opts) (bytes : Nat) : Nat :=
  if o.align = 0 then bytes else alignDown 32 o.align ((bytes + o.align - 1) % 2 ^ 32)

/-- The offset in `store_ipo` and `handle_trace_discard` (blktrace.c:162-165, 225-228), with
`ipo_bytes_align` (iolog.h:335-341). -/
def place (o : Opts) (sector : Nat) : Nat :=
  let off := sector * 512 % 2 ^ 64
  let off := if o.scale ≠ 0 then off / o.scale else off
  if o.align = 0 then off else alignDown 64 o.align off

/-- `handle_trace_discard` (blktrace.c:201-243). -/
def discard (o : Opts) (s : St) (t : Trace) (bytes delay : Nat) : St :=
  if o.skip .trim then s
  else
    let no := (addFile o s t.device.toNat).1
    let s := (addFile o s t.device.toNat).2
    { s with
      ios := upd s.ios .trim (s.ios .trim + 1)
      bs := if bytes > s.bs .trim then upd s.bs .trim bytes else s.bs
      size := s.size + bytes
      evs := s.evs ++ [.io .trim (place o t.sector.toNat) bytes (delay / 1000) no] }

/-- `handle_trace_fs` (blktrace.c:250-283) with `store_ipo` (blktrace.c:153-178). -/
def fs (o : Opts) (s : St) (t : Trace) (bytes delay : Nat) : St :=
  let no := (addFile o s t.device.toNat).1
  let s := (addFile o s t.device.toNat).2
  let dd := if cat t 1 then Ddir.write else Ddir.read
  if o.skip dd then s
  else if bytes = 0 then s
  else
    { s with
      ios := upd s.ios dd (s.ios dd + 1)
      bs := if bytes > s.bs dd then upd s.bs dd bytes else s.bs
      size := s.size + bytes
      evs := s.evs ++ [.io dd (place o t.sector.toNat) bytes (delay / 1000) no] }

/-- `handle_trace_flush` (blktrace.c:285-312). -/
def flush (o : Opts) (s : St) (t : Trace) (delay : Nat) : St :=
  if o.skip .sync then s
  else
    let no := (addFile o s t.device.toNat).1
    let s := (addFile o s t.device.toNat).2
    { s with
      ios := upd s.ios .sync (s.ios .sync + 1)
      evs := s.evs ++ [.io .sync 0 0 (delay / 1000) no] }

/-- `delay_since_ttime` (iolog.c:177-193). -/
def delaySince (o : Opts) (last time : Nat) : Nat :=
  if last = 0 ∨ o.noStall = true ∨ time < last then 0
  else if o.timeScale = 100 then time - last
  else o.stretch (time - last)

/-- `queue_trace` (blktrace.c:318-338); a notification (`handle_trace_notify`, blktrace.c:180-199)
leaves nothing. -/
def queueTrace (o : Opts) (s : St) (t : Trace) : St :=
  if t.action &&& 0xffff#32 ≠ 1#32 then s
  else if cat t 10 then s
  else
    let delay := delaySince o s.last t.time.toNat
    let s := { s with last := t.time.toNat }
    let bytes := bytesAlign o t.bytes.toNat
    if cat t 13 then discard o s t bytes delay
    else if cat t 2 then flush o s t delay
    else fs o s t bytes delay

/-- The depths (blktrace.c:372-400, 484-491): `depth_inc`, `depth_dec`, `depth_end`. -/
def depths (s : St) (t : Trace) : St :=
  match ddirOf t with
  | none => s
  | some d =>
    let act := t.action &&& 0xffff#32
    if act = 1#32 then { s with thisDepth := upd s.thisDepth d (s.thisDepth d + 1) }
    else if act = 2#32 ∨ act = 3#32 then { s with thisDepth := upd s.thisDepth d (s.thisDepth d - 1) }
    else if act = 8#32 then
      { s with depth := upd s.depth d (if s.depth d > s.thisDepth d then s.depth d else s.thisDepth d)
               thisDepth := upd s.thisDepth d 0 }
    else s

/-- What the loop of `read_blktrace` does with a record (blktrace.c:483-500). -/
def record (o : Opts) (s : St) (t : Trace) : St :=
  if cat t 10 then queueTrace o s t
  else
    let s := depths s t
    if (cat t 1 || cat t 13) && o.readOnly then { s with skipped := s.skipped + 1 }
    else queueTrace o s t

/-- The loop of `read_blktrace` (blktrace.c:456-508). The flag says that it left to `err`. -/
def readLoop (o : Opts) (swap : Bool) (d : List Byte) : Nat → Nat → St → Option (Bool × St)
  | 0, _, _ => none
  | n + 1, pos, s =>
    let got := (d.drop pos).take 48
    if got.length < 48 then some (false, s)
    else
      let t := if swap then byteswap (decode got) else decode got
      if t.magic &&& 0xffffff00#32 ≠ 0x65617400#32 then some (true, s)
      else if t.magic &&& 0xff#32 ≠ 7#32 then some (true, s)
      else readLoop o swap d n (pos + 48 + t.pduLen.toNat) (record o s t)

/-- The depth of a direction after the loop (blktrace.c:551-555). -/
def clamp (depth : Int) (ios : Nat) : Int :=
  if depth > 1024 then 1024 else if depth = 0 ∧ ios ≠ 0 then 1 else depth

/-- The larger one, `max` of minmax.h. -/
def imax (a b : Int) : Int := if a > b then a else b

/-- What a job becomes (blktrace.c:559-599): its directions, block sizes, probed depth. -/
structure Job where
  evs : List Ev
  files : List FileE
  ddir : Ddir → Bool
  maxBs : Ddir → Nat
  iodepth : Int

/-- What `init_blktrace_read` returns. -/
inductive Res where
  | failed
  | ready (j : Job)

/-- `init_blktrace_read` with `read_blktrace` (blktrace.c:402-604) for a file that `is_blktrace` has
seen (iolog.c:820). `none`: undefined behaviour. At `err` the file is closed by `read_blktrace` and
`io_log_rfile` is left, so that `init_blktrace_read` closes it again (blktrace.c:601-603, 424-428). -/
def initRead (o : Opts) (swap : Bool) (d : List Byte) : Option Res :=
  match readLoop o swap d (d.length + 1) 0 start with
  | none => none
  | some (true, _) => none
  | some (false, s) =>
    let evs := s.evs ++ (List.range s.files.length).map Ev.closed
    let m := imax (clamp (s.depth .trim) (s.ios .trim))
              (imax (clamp (s.depth .write) (s.ios .write))
                (imax (clamp (s.depth .read) (s.ios .read)) 0))
    if s.ios .read = 0 ∧ s.ios .write = 0 ∧ s.ios .trim = 0 ∧ s.ios .sync = 0 then some .failed
    else if s.files = [] then some .failed
    else some (.ready
      { evs := evs, files := s.files, ddir := fun x => s.ios x != 0 && x != .sync, maxBs := s.bs
        iodepth := m })

/-- The whole: `is_blktrace` (blktrace.c:42-76) decides whether the bytes are to be swapped. -/
def replay (o : Opts) (d : List Byte) : Option Res :=
  match isBlktrace d with
  | none => some .failed
  | some sw => initRead o sw d

end Fio.Blkreplay
