/-!
# The mmap engine (engines/mmap.c)

A file is a function from offsets to bytes.  A mapping has a number, the offset in the file it starts at, and a length; a pointer
is the number of a mapping and a distance.  Accesses through a pointer whose mapping is gone, or outside of it, are a `crash`.
Mappings are shared, so a store is a write to the file; what has been written since the last `msync` of that part is listed.
Not modelled: `odirect`, huge pages (private mappings), trims, 32-bit wrap of offsets.  What `mmap`, `madvise` and `munmap` answer are arguments.
-/

namespace Fio.Mmap

/-- A mapping: number, offset, length. -/
structure Map where
  id : Nat
  off : Nat
  sz : Nat
deriving DecidableEq, Repr

/-- `struct fio_mmap_data` (/repo/engines/mmap.c:24-28) of the file, `fio_file_partial_mmap`, and the process: mappings, the file,
the parts (offset, length) written and not yet synced. -/
structure St where
  ptr : Option Nat
  sz : Nat
  off : Nat
  partMap : Bool
  live : List Map
  next : Nat
  file : Nat → Nat
  dirty : List (Nat × Nat)

/-- What cannot change: `file_offset` and `io_size` of the file, `mmap_map_size`, and whether `size_t` has less than 64 bits. -/
structure Cfg where
  fileOff : Nat
  ioSize : Nat
  mapSize : Nat
  small : Bool
deriving DecidableEq, Repr

/-- /repo/engines/mmap.c:284-304: the file has been opened. -/
def openFile (file : Nat → Nat) : St :=
  { ptr := none, sz := 0, off := 0, partMap := false, live := [], next := 0, file := file, dirty := [] }

/-- Answers of the system: did `munmap`, `mmap` and `madvise` work, the latter two for the whole file (1) and for a part (2). -/
structure Ans where
  munmap : Bool
  mmap1 : Bool
  adv1 : Bool
  mmap2 : Bool
  adv2 : Bool
deriving DecidableEq, Repr

/-- All work. -/
def allOk : Ans := ⟨true, true, true, true, true⟩

/-- /repo/engines/mmap.c:102-143 `fio_mmap_file`: after a failed `madvise` the mapping is gone, but the pointer stays. -/
def mmapFile (s : St) (length off : Nat) (mmap adv : Bool) : St × Bool :=
  if mmap then
    let s := { s with ptr := some s.next, live := ⟨s.next, off, length⟩ :: s.live, next := s.next + 1 }
    if adv then (s, true)
    else ({ s with live := s.live.filter (fun m => some m.id ≠ s.ptr) }, false)
  else ({ s with ptr := none }, false)

/-- /repo/engines/mmap.c:148-162 `fio_mmapio_prep_limited` -/
def prepLimited (c : Cfg) (s : St) (offset buflen : Nat) (a : Ans) : St × Bool :=
  if buflen > c.mapSize then (s, false)
  else mmapFile { s with off := offset, sz := buflen } buflen offset a.mmap2 a.adv2

/-- /repo/engines/mmap.c:167-190 `fio_mmapio_prep_full` -/
def prepFull (c : Cfg) (s : St) (a : Ans) : St × Bool :=
  if s.partMap then (s, false)
  else if c.small ∧ c.ioSize > c.mapSize then ({ s with partMap := true }, false)
  else
    let r := mmapFile { s with sz := c.ioSize, off := c.fileOff } c.ioSize c.fileOff a.mmap1 a.adv1
    if r.2 then r else ({ r.1 with partMap := true }, false)

/-- /repo/engines/mmap.c:208-212 -/
def unmap (s : St) : St := { s with live := s.live.filter (fun m => some m.id ≠ s.ptr), ptr := none }

/-- /repo/engines/mmap.c:201-203 -/
def fits (s : St) (offset buflen : Nat) : Bool := decide (offset ≥ s.off ∧ offset + buflen ≤ s.off + s.sz)

/-- /repo/engines/mmap.c:207-219 -/
def remap (c : Cfg) (s : St) (offset buflen : Nat) (a : Ans) : St × Bool :=
  if s.ptr.isSome ∧ ¬a.munmap then (s, false)
  else
    let s := if s.ptr.isSome then unmap s else s
    let r := prepFull c s a
    if r.2 then r else prepLimited c r.1 offset buflen a

/-- /repo/engines/mmap.c:192-224 `fio_mmapio_prep`: the pointer is that of the mapping and a distance. -/
def prep (c : Cfg) (s : St) (offset buflen : Nat) (a : Ans) : St × Option (Option Nat × Int) :=
  if fits s offset buflen then (s, some (s.ptr, (offset : Int) - s.off))
  else
    let r := remap c s offset buflen a
    if r.2 then (r.1, some (r.1.ptr, (offset : Int) - r.1.off)) else (r.1, none)

/-- What a pointer points to: an offset in the file, if `len` bytes from there are mapped. -/
def deref (s : St) (p : Option Nat × Int) (len : Nat) : Option Nat :=
  match s.live.find? (fun m => some m.id = p.1) with
  | none => none
  | some m => if 0 ≤ p.2 ∧ p.2 + len ≤ m.sz then some (m.off + p.2.toNat) else none

/-- Units, and that the file is closed and opened again: `buflen` is the length prepared, `len` (`xfer_buflen`) the length moved; for writes with the data. -/
inductive Op
  | read (offset buflen len : Nat)
  | write (offset buflen : Nat) (data : List Nat)
  | sync (offset buflen : Nat)
  | reopen
deriving Repr

/-- Results; `done` with the data read. -/
inductive Res
  | done (data : List Nat)
  | failed
  | crash
deriving DecidableEq, Repr

/-- Bytes stored from an offset on. -/
def store (file : Nat → Nat) (off : Nat) (data : List Nat) : Nat → Nat := fun i =>
  if off ≤ i then (match data[i - off]? with | some b => b | none => file i) else file i

/-- `msync` of the mapping in use: parts inside are on the disk then. -/
def msync (s : St) : St :=
  match s.live.find? (fun m => some m.id = s.ptr) with
  | none => s
  | some m => { s with dirty := s.dirty.filter (fun d => !decide (m.off ≤ d.1 ∧ d.1 + d.2 ≤ m.off + s.sz)) }

/-- /repo/engines/mmap.c:284-316, `fio_mmapio_close_file` and `fio_mmapio_open_file`: what is mapped stays mapped. -/
def reopen (s : St) : St := { s with ptr := none, sz := 0, off := 0, partMap := false }

/-- /repo/engines/mmap.c:226-265 `fio_mmapio_queue` after `fio_mmapio_prep`: moving nothing (`memcpy` of 0 bytes) is always fine. -/
def step (c : Cfg) (s : St) (op : Op) (a : Ans) : St × Res :=
  match op with
  | .read offset buflen len =>
    match prep c s offset buflen a with
    | (s, none) => (s, .failed)
    | (s, some p) =>
      if len = 0 then (s, .done [])
      else
        match deref s p len with
        | none => (s, .crash)
        | some o => (s, .done ((List.range len).map (fun i => s.file (o + i))))
  | .write offset buflen data =>
    match prep c s offset buflen a with
    | (s, none) => (s, .failed)
    | (s, some p) =>
      if data.length = 0 then (s, .done [])
      else
        match deref s p data.length with
        | none => (s, .crash)
        | some o => ({ s with file := store s.file o data, dirty := (o, data.length) :: s.dirty }, .done [])
  | .sync offset buflen =>
    match prep c s offset buflen a with
    | (s, none) => (s, .failed)
    | (s, some _) => (msync s, .done [])
  | .reopen => (reopen s, .done [])

/-- One unit after the other. -/
def run (c : Cfg) : St → List (Op × Ans) → St × List Res
  | s, [] => (s, [])
  | s, (op, a) :: r =>
    let x := step c s op a
    let y := run c x.1 r
    (y.1, x.2 :: y.2)

end Fio.Mmap
