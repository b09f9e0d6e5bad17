import Verif.Axmap.Model
/-
The random-map users of the axmap: io_u.c `__get_next_rand_offset` and `mark_random_map`.
-/
namespace Fio.Axmap

/-- io_u.c:132-148, the part of `__get_next_rand_offset` after a raw block `raw` was drawn, with
a random map.  `.some b` is "return 0 with *b = b", `.none` is "return 1".  The raw draw itself
(lines 110-127) is an argument; see Verif/Rand and Verif/Lfsr for it. -/
def nextRandBlock (a : Axmap) (raw : Nat) : Found :=
  match axmapIsset a raw with
  | none => .ub
  | some busy => if !busy then .some raw else axmapNextFree a raw

/-- io_u.c:36-57 `mark_random_map` for an io_u without IO_U_F_BUSY_OK; returns the trimmed
length.  `none`: an assertion fails or the map is accessed outside its bounds.  All quantities
are exact (`buflen + min_bs` does not exceed 64 bits for block sizes, which are 32-bit option
values times small factors). `nr_blocks` is passed as `unsigned int` in C; it is a quotient of a
block size, so no truncation is modelled. -/
def markRandomMap (a : Axmap) (minBs fileOffset offset buflen : Nat) : Option (Axmap × Nat) := do
  let block := (offset - fileOffset) / minBs
  let nrBlocks := (buflen + minBs - 1) / minBs
  if nrBlocks = 0 then none
  let (a', nr) ← axmapSetNr a block nrBlocks
  if nr = 0 then none
  return (a', if nr * minBs < buflen then nr * minBs else buflen)

/-- One generated I/O: its first block and its length in bytes. -/
structure Io where
  block : Nat
  len : Nat
deriving DecidableEq, Repr

/-- A pass over a file: for each draw (raw block number, and the length the block size logic
would pick for each possible block) take the next block and mark it; stop at the first "return
1".  The Boolean says whether the pass ended that way. -/
def pass (minBs fileOffset : Nat) : Axmap → List (Nat × (Nat → Nat)) → Option (List Io × Bool)
  | _, [] => some ([], false)
  | a, (raw, lenOf) :: ds =>
    match nextRandBlock a raw with
    | .ub => none
    | .none => some ([], true)
    | .some b => do
      let (a', len) ← markRandomMap a minBs fileOffset (fileOffset + b * minBs) (lenOf b)
      let (ios, ex) ← pass minBs fileOffset a' ds
      return (⟨b, len⟩ :: ios, ex)

end Fio.Axmap
