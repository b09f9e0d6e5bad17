import Verif.Common.Mem
/-
Model of fifo.c / fifo.h.
-/
namespace Fio.Fifo

/-- fifo.h:24-29 `struct fifo`; the pointer `buffer` is the list of its bytes.  `unsigned int` is
32 bits wide. -/
structure Fifo where
  buffer : List Byte
  size : BitVec 32
  inn : BitVec 32
  out : BitVec 32
deriving DecidableEq, Repr

/-- fifo.c:29-42 `fifo_alloc`, `malloc` succeeding; the initial contents are arbitrary bytes
`mem` (of which there must be `size`). -/
def fifoAlloc (size : BitVec 32) (mem : List Byte) : Fifo :=
  { buffer := mem, size := size, inn := 0#32, out := 0#32 }

/-- fifo.h:36-39 `fifo_len`. -/
def fifoLen (f : Fifo) : BitVec 32 := f.inn - f.out

/-- fifo.h:41-44 `fifo_room`. -/
def fifoRoom (f : Fifo) : BitVec 32 := f.size - f.inn + f.out

/-- `min` on `unsigned int` (minmax.h). -/
def umin (a b : BitVec 32) : BitVec 32 := if a < b then a else b

/-- fifo.c:50-71 `fifo_put`; `none` when a `memcpy` leaves a buffer. -/
def fifoPut (f : Fifo) (data : List Byte) (len : BitVec 32) : Option (Fifo × BitVec 32) := do
  let len := umin len (fifoRoom f)
  let pos := f.inn &&& (f.size - 1#32)
  let l := umin len (f.size - pos)
  let s1 ← memRead data 0 l.toNat
  let b1 ← memWrite f.buffer pos.toNat s1
  let s2 ← memRead data l.toNat (len - l).toNat
  let b2 ← memWrite b1 0 s2
  return ({ f with buffer := b2, inn := f.inn + len }, len)

/-- fifo.c:73-98 `fifo_get`; `want` is whether `buf` is non-NULL.  Returns the bytes stored
into `buf` (empty without a buffer) and the return value. -/
def fifoGet (f : Fifo) (want : Bool) (len : BitVec 32) : Option (Fifo × List Byte × BitVec 32) := do
  let len := umin len (f.inn - f.out)
  let bytes ←
    if want then do
      let pos := f.out &&& (f.size - 1#32)
      let l := umin len (f.size - pos)
      let s1 ← memRead f.buffer pos.toNat l.toNat
      let s2 ← memRead f.buffer 0 (len - l).toNat
      pure (s1 ++ s2)
    else pure []
  let out := f.out + len
  if f.inn = out then return ({ f with inn := 0#32, out := 0#32 }, bytes, len)
  else return ({ f with out := out }, bytes, len)

/-- A user operation on the FIFO: put the bytes of a buffer, or get up to `len` bytes, with or
without a destination buffer. -/
inductive Op where
  | put (data : List Byte)
  | get (want : Bool) (len : BitVec 32)
deriving DecidableEq, Repr

/-- What the caller of an operation sees: the count returned and the bytes delivered. -/
structure Res where
  count : Nat
  bytes : List Byte
deriving DecidableEq, Repr

/-- One operation; `none` is undefined behaviour. -/
def step (f : Fifo) : Op → Option (Fifo × Res)
  | .put data => do
    let (f', n) ← fifoPut f data (BitVec.ofNat 32 data.length)
    return (f', ⟨n.toNat, []⟩)
  | .get want len => do
    let (f', bytes, n) ← fifoGet f want len
    return (f', ⟨n.toNat, bytes⟩)

/-- A sequence of operations. -/
def run (f : Fifo) : List Op → Option (Fifo × List Res)
  | [] => some (f, [])
  | op :: ops => do
    let (f', r) ← step f op
    let (f'', rs) ← run f' ops
    return (f'', r :: rs)

end Fio.Fifo
