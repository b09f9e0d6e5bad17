/-!
# Commands of the sg engine (engines/sg.c)

Bytes are numbers below 256.  Not modelled: the ioctl for block devices (one command, answered at once), counters and times, opening and
closing of streams, the text of errors.  The device and the kernel are environments: the answers of a file are a list of headers and errors,
and a read when there is none never comes back.
-/

namespace Fio.Sg

/-- `n` bytes of `v`, most significant first: /repo/engines/sg.h:26-45 `sgio_set_be16` and the others. -/
def be : Nat → Nat → List Nat
  | 0, _ => []
  | n + 1, v => be n (v / 256) ++ [v % 256]

/-- Storing bytes at a place. -/
def put (m : List Nat) (i : Nat) (s : List Nat) : List Nat := m.take i ++ s ++ m.drop (i + s.length)

/-- /repo/engines/sg.c:187 -/
def max10 : Nat := 0xFFFFFFFF

/-- /repo/engines/sg.c:68-77 -/
inductive Mode
  | write | writeVerify | writeSame | writeSameNdob | writeStream | verify00 | verify01 | verify11
deriving DecidableEq, Repr

/-- Options and the number of the stream (`engine_pos` of the file). -/
structure Opts where
  mode : Mode := .write
  readfua : Bool := false
  writefua : Bool := false
  stream : Nat := 0
deriving DecidableEq, Repr

inductive Dir
  | fromDev | toDev | none
deriving DecidableEq, Repr

/-- What is given to the kernel: the command, the direction and the length of the data. -/
structure Cmd where
  cdb : List Nat
  dir : Dir
  len : Nat
deriving DecidableEq, Repr

inductive Ddir
  | read | write | sync
deriving DecidableEq, Repr

/-- /repo/engines/sg.c:226-247 `sgio_hdr_init`: sixteen zeros. -/
def zero16 : List Nat := List.replicate 16 0

/-- /repo/engines/sg.c:520-532 `fio_sgio_rw_lba` -/
def rwLba (cdb : List Nat) (lba nr : Nat) (override16 : Bool) : List Nat :=
  if lba < max10 ∧ !override16 then put (put cdb 2 (be 4 lba)) 7 (be 2 nr)
  else put (put cdb 2 (be 8 lba)) 10 (be 4 nr)

/-- The first byte: the short or the long command. -/
def op (lba a b : Nat) : List Nat := put zero16 0 [if lba < max10 then a else b]

/-- /repo/engines/sg.c:534-679 `fio_sgio_prep` for reads, writes and syncs of `len` bytes at `off`; `none` is EINVAL. -/
def prep (o : Opts) (bs : Nat) (dd : Ddir) (off len : Nat) : Option Cmd :=
  if len &&& (bs - 1) ≠ 0 then none
  else
    let nr := len / bs
    let lba := off / bs
    match dd with
    | .read => some ⟨rwLba (put (op lba 0x28 0x88) 1 [if o.readfua then 8 else 0]) lba nr false, .fromDev, len⟩
    | .write =>
      match o.mode with
      | .write => some ⟨rwLba (put (op lba 0x2a 0x8a) 1 [if o.writefua then 8 else 0]) lba nr false, .toDev, len⟩
      | .writeVerify => some ⟨rwLba (op lba 0x2e 0x8e) lba nr false, .toDev, len⟩
      | .writeSame => some ⟨rwLba (op lba 0x41 0x93) lba nr false, .toDev, bs⟩
      | .writeSameNdob => some ⟨rwLba (put (put zero16 0 [0x93]) 1 [1]) lba nr true, .toDev, 0⟩
      | .writeStream => some ⟨put (put (put (put (put zero16 0 [0x9a]) 1 [if o.writefua then 8 else 0]) 2 (be 8 lba)) 10 (be 2 o.stream)) 12 (be 2 nr), .toDev, len⟩
      | .verify00 => some ⟨rwLba (op lba 0x2f 0x8f) lba nr false, .toDev, 0⟩
      | .verify01 => some ⟨rwLba (put (op lba 0x2f 0x8f) 1 [2]) lba nr false, .toDev, len⟩
      | .verify11 => some ⟨rwLba (put (op lba 0x2f 0x8f) 1 [6]) lba nr false, .toDev, bs⟩
    | .sync => some ⟨op lba 0x35 0x91, .none, 0⟩

/-! ## Trims -/

/-- A unit: its number, its file, its place. -/
structure Unit where
  idx : Nat
  file : Nat
  off : Nat
  len : Nat
deriving DecidableEq, Repr

/-- /repo/engines/sg.c:200-204 `struct sgio_trim` -/
structure Queue where
  cnt : Nat
  us : List Unit
  param : List Nat
deriving DecidableEq, Repr

/-- The queues (one for each unit) and the current one. -/
structure State where
  cur : Option Nat
  qs : Nat → Queue

/-- /repo/engines/sg.c:954-962: as `fio_sgio_init` leaves it, with room for `depth` units. -/
def init (depth : Nat) : State := ⟨none, fun _ => ⟨0, [], List.replicate (16 * (depth + 1)) 0⟩⟩

def State.setQ (s : State) (i : Nat) (q : Queue) : State := { s with qs := fun j => if j = i then q else s.qs j }

/-- /repo/engines/sg.c:636-666: a trim is added to the current queue; `none`: not aligned, or past the end of the arrays. -/
def prepTrim (depth bs : Nat) (s : State) (u : Unit) : Option State :=
  if u.len &&& (bs - 1) ≠ 0 then none
  else
    let c := s.cur.getD u.idx
    let q := s.qs c
    if depth ≤ q.cnt then none
    else
      let o := 8 + 16 * q.cnt
      some (({ s with cur := some c } : State).setQ c ⟨q.cnt + 1, q.us.take q.cnt ++ [u], put (put q.param o (be 8 (u.off / bs))) (o + 8) (be 4 (u.len / bs))⟩)

/-- A command with its data, to a file. -/
structure Sent where
  file : Nat
  cdb : List Nat
  data : List Nat
deriving DecidableEq, Repr

/-- /repo/engines/sg.c:681-691 `fio_sgio_unmap_setup`: the command, the data and its length. -/
def unmapSetup (q : Queue) : List Nat × List Nat × Nat :=
  let cnt := q.cnt * 16 % 65536
  (put (put zero16 0 [0x42]) 7 (be 2 (cnt + 8)), put (put q.param 0 (be 2 (cnt + 6))) 2 (be 2 cnt), cnt + 8)

/-- /repo/engines/sg.c:751-805 `fio_sgio_commit`; `fails`: the command could not be given to the kernel.  The units then have an error, and
the queue stays as it is. -/
def commit (s : State) (fails : Bool) : State × Option Sent × List Unit :=
  match s.cur with
  | none => (s, none, [])
  | some c =>
    let q := s.qs c
    match q.us with
    | [] => (s, none, [])
    | u :: _ =>
      let (cdb, param, len) := unmapSetup q
      let s' := ({ s with cur := none } : State).setQ c { q with param := param }
      if fails then (s', none, q.us.take q.cnt) else (s', some ⟨u.file, cdb, param.take len⟩, [])

/-! ## Completions -/

/-- An answer of a file: the header of the command of a unit (by its number), with or without an error, or an error of the read. -/
inductive Ans
  | hdr (u : Nat) (check : Bool)
  | err (e : Nat)
deriving DecidableEq, Repr

/-- How many units the command of unit `u` stands for; `trim` tells which are trims. -/
def weight (trim : Nat → Bool) (qs : Nat → Queue) (u : Nat) : Nat := if trim u then (qs u).cnt else 1

/-- /repo/engines/sg.c:355-372: reading the answers of one file until `left` units are done.  `none`: for ever. -/
def readFile (trim : Nat → Bool) (qs : Nat → Queue) (left : Nat) : Nat → List Ans → Option (List (Nat × Bool) × Nat × Option Nat × List Ans)
  | n, [] => if left ≤ n then some ([], 0, none, []) else none
  | n, .err e :: as => if left ≤ n then some ([], 0, none, .err e :: as) else some ([], 0, some e, as)
  | n, .hdr u c :: as =>
    if left ≤ n then some ([], 0, none, .hdr u c :: as)
    else (readFile trim qs left (n + weight trim qs u) as).map fun r => ((u, c) :: r.1, weight trim qs u + r.2.1, r.2.2)

/-- All files: the headers, the number of units, the last error, and what is left. -/
def readAll (trim : Nat → Bool) (qs : Nat → Queue) (left : Nat) : List (List Ans) → Option (List (Nat × Bool) × Nat × Option Nat × List (List Ans))
  | [] => some ([], 0, none, [])
  | as :: fs =>
    (readFile trim qs left 0 as).bind fun r =>
      (readAll trim qs left fs).map fun r' => (r.1 ++ r'.1, r.2.1 + r'.2.1, r'.2.2.1.or r.2.2.1, r.2.2.2 :: r'.2.2.2)

/-- The array of events and the units with an error. -/
structure Evs where
  ev : Nat → Option Nat
  bad : List Nat

def Evs.set (e : Evs) (i u : Nat) (c : Bool) : Evs := ⟨fun j => if j = i then some u else e.ev j, if c then e.bad ++ [u] else e.bad⟩

/-- /repo/engines/sg.c:404-416: the other units of an unmap. -/
def others (c : Bool) (i : Nat) : List Unit → Nat → Evs → Nat × Evs
  | [], trims, e => (trims, e)
  | u :: us, trims, e => others c i us (trims + 1) (e.set (i + trims + 1) u.idx c)

/-- /repo/engines/sg.c:385-420: the headers read become events. -/
def proc (trim : Nat → Bool) : List (Nat × Bool) → Nat → Nat → Nat → (Nat → Queue) → Evs → Nat × (Nat → Queue) × Evs
  | [], _, _, trims, qs, e => (trims, qs, e)
  | (u, c) :: hs, i, events, trims, qs, e =>
    if events ≤ i then (trims, qs, e)
    else
      let e := e.set (i + trims) u c
      if trim u then
        let q := qs u
        let (trims, e) := others c i ((q.us.take q.cnt).drop 1) trims e
        proc trim hs (i + 1) (events + 1 - q.cnt) trims (fun j => if j = u then { q with cnt := 0 } else qs j) e
      else proc trim hs (i + 1) events trims qs e

/-- /repo/engines/sg.c:326-421: the loop of `fio_sgio_getevents`; `left` and the answer are integers as there.  `none`: it does not come
back. -/
def evLoop (trim : Nat → Bool) : Nat → Int → Int → Nat → (Nat → Queue) → Evs → List (List Ans) → Option (Int × (Nat → Queue) × Evs × List (List Ans))
  | 0, _, _, _, _, _, _ => none
  | n + 1, left, r, trims, qs, e, fs =>
    if left ≤ 0 ∨ r < 0 then some (r, qs, e, fs)
    else
      (readAll trim qs left.toNat fs).bind fun x =>
        let r := match x.2.2.1 with
          | some er => -(er : Int)
          | none => r
        if r < 0 ∧ x.2.1 = 0 then some (r, qs, e, x.2.2.2)
        else if x.2.1 = 0 then evLoop trim n left r trims qs e x.2.2.2
        else
          let (trims, qs, e) := proc trim x.1 0 x.2.1 trims qs e
          evLoop trim n (left - x.2.1) (r + x.2.1) trims qs e x.2.2.2

/-- /repo/engines/sg.c:289-434 `fio_sgio_getevents` for at most `max` units; `n` bounds the turns. -/
def getevents (trim : Nat → Bool) (n max : Nat) (qs : Nat → Queue) (fs : List (List Ans)) : Option (Int × (Nat → Queue) × Evs × List (List Ans)) :=
  evLoop trim n max 0 0 qs ⟨fun _ => none, []⟩ fs

/-- The end of a synchronous command. -/
structure Waited where
  completed : List Nat
  own : Bool
  left : List Ans
deriving DecidableEq, Repr

/-- /repo/engines/sg.c:457-496 `fio_sgio_rw_doio` waiting for the command of unit `own`; `bad`: completing that unit reports an error.  `none`:
for ever. -/
def syncWait (bad : Nat → Bool) (own : Nat) : List Ans → Option Waited
  | [] => none
  | .err _ :: as => some ⟨[], false, as⟩
  | .hdr u c :: as =>
    if u = own then some ⟨[], true, as⟩
    else if c ∨ bad u then some ⟨[u], false, as⟩
    else (syncWait bad own as).map fun w => { w with completed := u :: w.completed }

/-! ## Capacity -/

/-- The number in the bytes, most significant first: /repo/engines/sg.h:11-24. -/
def getBe (b : List Nat) (i n : Nat) : Nat := ((b.drop i).take n).foldl (fun a x => a * 256 + x) 0

/-- The answer of the device to a command: an error, or bytes. -/
inductive Reply
  | check
  | bytes (b : List Nat)

/-- /repo/engines/sg.c:814-906 `fio_sgio_read_capacity`: block size and last block; the buffer of 32 bytes is used for both commands. -/
def readCapacity (r10 r16 : Reply) : Option (Nat × Nat) :=
  let zero := List.replicate 32 0
  let (buf, bs, lba) := match r10 with
    | .check => (zero, 0, max10)
    | .bytes b => let buf := put zero 0 b; (buf, getBe buf 4 4, getBe buf 0 4)
  let (bs, lba) :=
    if lba = max10 then
      let buf := match r16 with
        | .check => buf
        | .bytes b => put buf 0 b
      (getBe buf 8 4, getBe buf 0 8)
    else (bs, lba)
  if bs ≠ 0 then some (bs, lba) else none

/-- /repo/engines/sg.c:1342-1379 `fio_sgio_get_file_size` of file `i`: the device asked is that of the first file (/repo/engines/sg.c:830). -/
def fileSize (devs : Nat → Reply × Reply) (_i : Nat) : Option Nat :=
  (readCapacity (devs 0).1 (devs 0).2).map fun r => (r.2 + 1) % 2 ^ 64 * r.1 % 2 ^ 64

end Fio.Sg
