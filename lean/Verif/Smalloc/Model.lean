/-
Model of the shared memory allocator, smalloc.c: one pool, and the list of pools.

A pool is its bitmap (one bit per block of 32 bytes), its counters and its bytes.  In memory the
bitmap follows the blocks; here it is a separate list, and every access to either is bounds-checked.
Failed asserts and accesses outside the pool are `none`.

`find_next_zero` shifts an `int` arithmetically, so a word whose bits from `start` on are all ones
becomes -1, and ffz(-1) and the shifts that follow in `blocks_iter` are undefined.  What they do is a
parameter (`Env`).

Not modelled: the semaphore of the pool (every operation runs between down and up), mmap failing.
-/
import Verif.Common.Bits
import Verif.Common.Mem
import Verif.Common.Le
namespace Fio.Smalloc

/-- What happens where C leaves the result open. -/
structure Env where
  /-- `ffz(-1)` -/
  z : Nat
  /-- `((1U << this_blocks) - 1) << idx` with a shift by 32 or more, `none` when anything may
  happen -/
  over : Nat → Nat → Option (BitVec 32)

/-- `struct pool` (smalloc.c:36-44) with the bytes it manages. -/
structure Pool where
  bitmap : List (BitVec 32)
  free : Nat
  next : Nat
  mem : List Byte

/-- smalloc.c:70-73 -/
def sizeToBlocks (size : Nat) : Nat := (size + 31) / 32

/-- The mask of smalloc.c:92-95.  The blocks of one word: `this_blocks = 32` is all ones. -/
def mask (e : Env) (this idx : Nat) : Option (BitVec 32) :=
  if this = 32 then some (BitVec.allOnes 32)
  else if this < 32 ∧ idx < 32 then some (((1#32 <<< this) - 1#32) <<< idx)
  else e.over this idx

/-- `this_blocks` (smalloc.c:86-90), an `unsigned int`. -/
def thisBlocks (idx nr : Nat) : Nat :=
  if nr % 2 ^ 32 + idx > 32 then (2 ^ 32 + 32 - idx % 2 ^ 32) % 2 ^ 32 else nr % 2 ^ 32

/-- `blocks_iter` (smalloc.c:75-105).  `func` gives its return value and the new word, or fails an
assert.  The loop visits one word per round, so the number of words is enough fuel. -/
def blocksIter (e : Env) (func : BitVec 32 → BitVec 32 → Option (Bool × BitVec 32)) :
    Nat → Nat → Nat → Nat → List (BitVec 32) → Option (Bool × List (BitVec 32))
  | fuel, i, idx, nr, bm =>
    if nr = 0 then some (true, bm) else
    match bm[i]? with
    | none => some (false, bm)
    | some w =>
      match mask e (thisBlocks idx nr) idx with
      | none => none
      | some m =>
        match func w m with
        | none => none
        | some (false, w') => some (false, bm.set i w')
        | some (true, w') =>
          match fuel with
          | 0 => none
          | fuel + 1 => blocksIter e func fuel (i + 1) 0 (nr - thisBlocks idx nr) (bm.set i w')

/-- smalloc.c:107-110 -/
def maskCmp (w m : BitVec 32) : Option (Bool × BitVec 32) := some (decide (w &&& m = 0#32), w)

/-- smalloc.c:112-117 -/
def maskClear (w m : BitVec 32) : Option (Bool × BitVec 32) :=
  if w &&& m = m then some (true, w &&& ~~~ m) else none

/-- smalloc.c:119-124 -/
def maskSet (w m : BitVec 32) : Option (Bool × BitVec 32) :=
  if w &&& m = 0#32 then some (true, w ||| m) else none

/-- `blocks_free` (smalloc.c:126-130) -/
def blocksFree (e : Env) (i idx nr : Nat) (bm : List (BitVec 32)) : Option Bool :=
  (blocksIter e maskCmp bm.length i idx nr bm).map (·.1)

/-- `set_blocks` (smalloc.c:132-136) -/
def setBlocks (e : Env) (i idx nr : Nat) (bm : List (BitVec 32)) : Option (List (BitVec 32)) :=
  (blocksIter e maskSet bm.length i idx nr bm).map (·.2)

/-- `clear_blocks` (smalloc.c:138-142) -/
def clearBlocks (e : Env) (i idx nr : Nat) (bm : List (BitVec 32)) : Option (List (BitVec 32)) :=
  (blocksIter e maskClear bm.length i idx nr bm).map (·.2)

/-- `find_next_zero` (smalloc.c:144-149): the word is an `int`, widened to `unsigned long` by the
call of `ffz`. -/
def findNextZero (e : Env) (w : BitVec 32) (start : Nat) : Option Nat :=
  if w = BitVec.allOnes 32 then none else
  let v := (w.sshiftRight start).signExtend 64
  if v = BitVec.allOnes 64 then some (e.z + start) else some (ffz v + start)

/-- The first word that is not full at or after `i` (the loop of smalloc.c:372), and the scan from
the start (smalloc.c:376-378). -/
def firstNonFull (bm : List (BitVec 32)) (i : Nat) : Option Nat :=
  ((bm.drop i).findIdx? (fun w => w != BitVec.allOnes 32)).map (i + ·)

/-- `find_best_index` (smalloc.c:366-383).  Running off the end of the bitmap is `none`. -/
def findBestIndex (p : Pool) : Option Nat :=
  if p.free = 0 then none else
  if p.next < p.bitmap.length then
    match firstNonFull p.bitmap p.next with
    | some i => some i
    | none => firstNonFull p.bitmap 0
  else none

/-- The search loop of `__smalloc_pool` (smalloc.c:405-432): where the blocks start and the bitmap
with the blocks set; `some none` when no room was found.  Every round moves on by at least one
block. -/
def findRun (e : Env) (nr : Nat) (bm : List (BitVec 32)) :
    Nat → Nat → Nat → Option (Option (Nat × Nat × List (BitVec 32)))
  | fuel, i, last =>
    match bm[i]? with
    | none => some none
    | some w =>
      match fuel with
      | 0 => none
      | fuel + 1 =>
        if w = BitVec.allOnes 32 then findRun e nr bm fuel (i + 1) 0 else
        match findNextZero e w last with
        | none => none
        | some idx =>
          match blocksFree e i idx nr bm with
          | none => none
          | some true => (setBlocks e i idx nr bm).map (fun bm' => some (i, idx, bm'))
          | some false =>
            if idx + nr < 32 then findRun e nr bm fuel i (idx + nr)
            else findRun e nr bm fuel (i + (idx + nr) / 32) 0

/-- `__smalloc_pool` (smalloc.c:385-441): the offset of the blocks, or NULL (`some (none, _)`). -/
def allocBlocks (e : Env) (size : Nat) (p : Pool) : Option (Option Nat × Pool) :=
  let nr := sizeToBlocks size
  if nr > p.free then some (none, p) else
  match findBestIndex p with
  | none => none
  | some b =>
    match findRun e nr p.bitmap (32 * p.bitmap.length + 1) b 0 with
    | none => none
    | some none => some (none, { p with next := b })
    | some (some (i, idx, bm)) =>
      some (some ((i * 1024 + idx * 32) % 2 ^ 32),
        { p with next := b, bitmap := bm, free := p.free - nr })

/-- `size_to_alloc_size` (smalloc.c:443-457): the header of 16 bytes, the bytes, the guard word,
rounded up to 4 (`size_t`, 64 bits). -/
def allocSize (size : Nat) : Nat :=
  ((size + 16) % 2 ^ 64 + 4 + 3) % 2 ^ 64 / 4 * 4

/-- smalloc.c:26-27 -/
def preRed : Nat := 0xdeadbeef

/-- smalloc.c:27 -/
def postRed : Nat := 0x5aa55aa5

/-- `postred_ptr` (smalloc.c:256-264): rounded up to 4.  The map is page aligned. -/
def postOff (hdr size : Nat) : Nat := (hdr + size - 4 + 3) / 4 * 4

/-- `smalloc_pool` (smalloc.c:459-476): a pointer is its offset from `pool->map`.  `hdr->size` is at
offset 0, `hdr->prered` at offset 8 of the header; the header has 16 bytes. -/
def alloc (e : Env) (size : Nat) (p : Pool) : Option (Option Nat × Pool) :=
  match allocBlocks e (allocSize size) p with
  | none => none
  | some (none, p) => some (none, p)
  | some (some h, p) =>
    match memWrite p.mem h (le 8 (allocSize size)) with
    | none => none
    | some m =>
      match memWrite m (h + 8) (le 4 preRed) with
      | none => none
      | some m =>
        match memWrite m (postOff h (allocSize size)) (le 4 postRed) with
        | none => none
        | some m =>
          match memWrite m (h + 16) (List.replicate size 0) with
          | none => none
          | some m => some (some (h + 16), { p with mem := m })

/-- Read a number of `n` bytes. -/
def readLe (m : List Byte) (off n : Nat) : Option Nat := (memRead m off n).map fromLe

/-- `sfree_pool` (smalloc.c:313-341) for a pointer at offset `ptr` from the map. -/
def free (e : Env) (ptr : Nat) (p : Pool) : Option Pool :=
  if ptr < 16 then none else
  let h := ptr - 16
  if ¬ h < (p.bitmap.length * 1024) % 2 ^ 32 then none else
  match readLe p.mem (h + 8) 4, readLe p.mem h 8 with
  | some pre, some size =>
    if pre ≠ preRed then none else
    match readLe p.mem (postOff h size) 4 with
    | none => none
    | some post =>
      if post ≠ postRed then none else
      let i := h / 1024
      let idx := h % 1024 / 32
      match clearBlocks e i idx (sizeToBlocks size) p.bitmap with
      | none => none
      | some bm =>
        some { p with bitmap := bm, next := if i < p.next then i else p.next,
                      free := p.free + sizeToBlocks size }
  | _, _ => none

/-- A fresh pool of `n` words over arbitrary bytes (smalloc.c:151-199, `mp` is zeroed). -/
def fresh (n : Nat) (mem : List Byte) : Pool :=
  { bitmap := List.replicate n 0#32, free := 32 * n, next := 0, mem := mem }

end Fio.Smalloc
