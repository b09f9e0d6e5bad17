import Verif.Common.Le
/-
Merging several blktrace files into one: `merge_blktrace_iologs` of blktrace.c and its helpers.

Left out: errors of reading, of writing and of memory, the output file that cannot be opened (its
`fopen` is not checked, blktrace.c:735), and the splitting of the option into file names.
The host is little endian.
-/
namespace Fio.Blkmerge

/-- `struct blk_io_trace` (blktrace_api.h:94-106). -/
structure Trace where
  magic : BitVec 32
  sequence : BitVec 32
  time : BitVec 64
  sector : BitVec 64
  bytes : BitVec 32
  action : BitVec 32
  pid : BitVec 32
  device : BitVec 32
  cpu : BitVec 32
  error : BitVec 16
  pduLen : BitVec 16
deriving DecidableEq, Repr

/-- The bytes of a trace in memory (blktrace_api.h:94-106): 48 bytes without padding. -/
def encode (t : Trace) : List Byte :=
  le 4 t.magic.toNat ++ le 4 t.sequence.toNat ++ le 8 t.time.toNat ++ le 8 t.sector.toNat ++
  le 4 t.bytes.toNat ++ le 4 t.action.toNat ++ le 4 t.pid.toNat ++ le 4 t.device.toNat ++
  le 4 t.cpu.toNat ++ le 2 t.error.toNat ++ le 2 t.pduLen.toNat

/-- The `n` bytes at offset `o` as a number (blktrace_api.h:94-106). -/
def field (b : List Byte) (o n : Nat) : Nat := fromLe ((b.drop o).take n)

/-- The trace that 48 bytes in memory are (blktrace_api.h:94-106). -/
def decode (b : List Byte) : Trace where
  magic := BitVec.ofNat 32 (field b 0 4)
  sequence := BitVec.ofNat 32 (field b 4 4)
  time := BitVec.ofNat 64 (field b 8 8)
  sector := BitVec.ofNat 64 (field b 16 8)
  bytes := BitVec.ofNat 32 (field b 24 4)
  action := BitVec.ofNat 32 (field b 28 4)
  pid := BitVec.ofNat 32 (field b 32 4)
  device := BitVec.ofNat 32 (field b 36 4)
  cpu := BitVec.ofNat 32 (field b 40 4)
  error := BitVec.ofNat 16 (field b 44 2)
  pduLen := BitVec.ofNat 16 (field b 46 2)

/-- `fio_swap16`, `fio_swap32`, `fio_swap64` (os/os-linux.h:230-239): the bytes in
the other order. -/
def swap (n : Nat) (v : Nat) : Nat := fromLe (le n v).reverse

/-- `byteswap_trace` (blktrace.c:340-353). -/
def byteswap (t : Trace) : Trace where
  magic := BitVec.ofNat 32 (swap 4 t.magic.toNat)
  sequence := BitVec.ofNat 32 (swap 4 t.sequence.toNat)
  time := BitVec.ofNat 64 (swap 8 t.time.toNat)
  sector := BitVec.ofNat 64 (swap 8 t.sector.toNat)
  bytes := BitVec.ofNat 32 (swap 4 t.bytes.toNat)
  action := BitVec.ofNat 32 (swap 4 t.action.toNat)
  pid := BitVec.ofNat 32 (swap 4 t.pid.toNat)
  device := BitVec.ofNat 32 (swap 4 t.device.toNat)
  cpu := BitVec.ofNat 32 (swap 4 t.cpu.toNat)
  error := BitVec.ofNat 16 (swap 2 t.error.toNat)
  pduLen := BitVec.ofNat 16 (swap 2 t.pduLen.toNat)

/-- `t_get_ddir` is not `DDIR_INVAL` (blktrace.c:360-370): a read (bit 0 of the category), a write
(bit 1) or a discard (bit 13), the category shifted by 16 (blktrace_api.h:29-30). -/
def hasDdir (t : Trace) : Bool :=
  t.action &&& 0x10000#32 != 0#32 || t.action &&& 0x20000#32 != 0#32 ||
  t.action &&& 0x20000000#32 != 0#32

/-- `is_blktrace` (blktrace.c:42-76): `none` for false, else `need_swap`. -/
def isBlktrace (d : List Byte) : Option Bool :=
  if (d.take 48).length = 48 then
    let m := (decode (d.take 48)).magic
    if m &&& 0xffffff00#32 = 0x65617400#32 then some false
    else if BitVec.ofNat 32 (swap 4 m.toNat) &&& 0xffffff00#32 = 0x65617400#32 then some true
    else none
  else none

/-- `struct blktrace_cursor` (blktrace.h:11-20). The file is its contents and the position in it,
`none` a pointer to no open file. -/
structure Cursor where
  f : Option (List Byte)
  pos : Nat
  length : BitVec 64
  t : Trace
  swap : Bool
  scalar : Int
  iter : Int
  nrIter : Int
deriving DecidableEq, Repr

/-- The loop of `read_trace` (blktrace.c:659-692). `none`: a read from no open file or a loop that
does not end. At the end of the file `fread` leaves the bytes it did not get as they were. -/
def readLoop : Nat → Cursor → Option (Int × Cursor)
  | 0, _ => none
  | n + 1, c =>
    match c.f with
    | none => none
    | some d =>
      let got := (d.drop c.pos).take 48
      if got.length < 48 then
        let t := decode (got ++ (encode c.t).drop got.length)
        some (got.length, { c with
          pos := c.pos + got.length
          t := t
          length := if c.length = 0#64 then t.time else c.length })
      else
        let t := if c.swap then byteswap (decode got) else decode got
        if t.action &&& 0xffff#32 ≠ 1#32 ∨ hasDdir t = false then
          readLoop n { c with t := t, pos := c.pos + 48 + t.pduLen.toNat }
        else
          let time := (t.time + BitVec.ofInt 64 c.iter * c.length) * BitVec.ofInt 64 c.scalar
                        / 100#64
          some (48, { c with t := { t with time := time }, pos := c.pos + 48 })

/-- `read_trace` (blktrace.c:654-695). -/
def readTrace (c : Cursor) : Option (Int × Cursor) :=
  readLoop ((c.f.getD []).length + 1) c

/-- State of `merge_blktrace_iologs` (blktrace.c:706-813): the cursors, how many of them are in use,
`ret`, and what was written. -/
structure St where
  bcs : List Cursor
  nr : Nat
  ret : Int
  out : List Byte
deriving DecidableEq, Repr

/-- `merge_finish_file` (blktrace.c:637-652). `none`: `iter` overflows or no such cursor. -/
def finish (s : St) (i : Nat) : Option St :=
  match s.bcs[i]? with
  | none => none
  | some c =>
    if c.iter = 2 ^ 31 - 1 then none
    else if c.iter + 1 < c.nrIter then
      some { s with bcs := s.bcs.set i { c with iter := c.iter + 1, pos := 0 } }
    else
      let b := s.bcs.set i { c with iter := c.iter + 1, f := none }
      match b[s.nr - 1]? with
      | none => none
      | some l => some { s with bcs := b.set i l, nr := s.nr - 1 }

/-- `find_earliest_io` (blktrace.c:622-635): index and time found so far. -/
def earliestFrom : List Cursor → Nat → Nat → BitVec 64 → Nat
  | [], _, idx, _ => idx
  | c :: l, i, idx, time =>
    if c.t.time < time then earliestFrom l (i + 1) i c.t.time else earliestFrom l (i + 1) idx time

/-- `find_earliest_io` (blktrace.c:622-635). -/
def findEarliest (s : St) : Nat := earliestFrom (s.bcs.take s.nr) 0 0 (BitVec.allOnes 64)

/-- A file to merge: its contents or the error of opening it (blktrace.c:746-752). -/
inductive Src where
  | absent (errno : Nat)
  | data (d : List Byte)
deriving DecidableEq, Repr

/-- The loop that opens the files (blktrace.c:745-772); the flag says that it left to `err_file`. -/
def setup : List Src → Nat → St → Option (Bool × St)
  | [], _, s => some (false, s)
  | .absent e :: _, _, s => some (true, { s with ret := -(e : Int) })
  | .data d :: rest, i, s =>
    match s.bcs[i]? with
    | none => none
    | some c =>
      let c := { c with f := some d, pos := 0 }
      let s := { s with bcs := s.bcs.set i c, nr := s.nr + 1 }
      match isBlktrace d with
      | none => some (true, s)
      | some sw =>
        match readTrace { c with swap := sw } with
        | none => none
        | some (ret, c) =>
          let s := { s with bcs := s.bcs.set i c, ret := ret }
          if ret = 0 then
            match finish s i with
            | none => none
            | some s => setup rest i s
          else setup rest (i + 1) s

/-- The loop that merges (blktrace.c:775-791). -/
def mergeLoop : Nat → St → Option St
  | 0, _ => none
  | n + 1, s =>
    if s.nr = 0 then some s
    else
      let i := findEarliest s
      match s.bcs[i]? with
      | none => none
      | some c =>
        -- discard_pdu (blktrace.c:26-36), write_trace (blktrace.c:697-702)
        let t := { c.t with pduLen := 0#16 }
        let c := { c with pos := c.pos + c.t.pduLen.toNat, t := t }
        match readTrace c with
        | none => none
        | some (ret, c) =>
          let s := { s with bcs := s.bcs.set i c, ret := ret, out := s.out ++ encode t }
          if ret = 0 then
            match finish s i with
            | none => none
            | some s => mergeLoop n s
          else mergeLoop n s

/-- The counting loop of `init_merge_param_list` (blktrace.c:609-610): values before the first 0. -/
def valsLen : List Int → Nat
  | [] => 0
  | v :: l => if v ≠ 0 then valsLen l + 1 else 0

/-- `init_merge_param_list` (blktrace.c:605-626): the number of values if it is wrong, else the value
of each cursor. The values are whole numbers here. -/
def params (vals : List Int) (nr : Nat) (dflt : Int) : Nat ⊕ (Nat → Int) :=
  let len := valsLen vals
  if len ≠ 0 ∧ len ≠ nr then .inl len
  else .inr fun i => if len ≠ 0 then vals.getD i 0 else dflt

/-- What the job asks for: the files, `merge_blktrace_scalars` and `merge_blktrace_iters`, which are
arrays of 20 (thread_options.h:308-309, stat.h:36), and what `malloc` found in the memory of the
cursors (blktrace.c:709-710). -/
structure Cfg where
  files : List Src
  scalars : List Int
  iters : List Int
  garbage : Nat → Cursor

/-- The cursors after `init_merge_param_list` (blktrace.c:709-731). -/
def cursors (g : Nat → Cursor) (sc it : Nat → Int) (n : Nat) : List Cursor :=
  (List.range n).map fun i => { g i with scalar := sc i, nrIter := it i }

/-- `merge_blktrace_iologs` (blktrace.c:706-813): what it returns, and the merged file if it was
opened. `none`: undefined behaviour or more than `fuel` records. -/
def merge (fuel : Nat) (c : Cfg) : Option (Int × Option (List Byte)) :=
  let n := c.files.length
  match params c.scalars n 100 with
  | .inl l => some (l, none)
  | .inr sc =>
    match params c.iters n 1 with
    | .inl l => some (l, none)
    | .inr it =>
      match setup c.files 0 { bcs := cursors c.garbage sc it n, nr := 0, ret := 0, out := [] } with
      | none => none
      | some (true, s) =>
        -- err_file (blktrace.c:799-803)
        if (s.bcs.take s.nr).any (fun b => b.f.isNone) then none else some (s.ret, some s.out)
      | some (false, s) =>
        match mergeLoop fuel s with
        | none => none
        | some s => some (0, some s.out)

/-- The call in `add_job` (init.c:1957-1958): whether the job is refused. -/
def refuses (ret : Int) : Bool := !(ret != 0)

end Fio.Blkmerge
