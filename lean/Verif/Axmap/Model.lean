import Verif.Common.Bits
/-
Model of lib/axmap.c (64-bit `unsigned long`, i.e. UNIT_SHIFT = 6).

Simplifications (all of them visible in the definitions):
* a level is its word array `List (BitVec 64)`; `al->map_size` is the length of the list and
  `al->level` is the position of the level in `levels`;
* indices are `Nat`.  The C code keeps them in `uint64_t`; the only arithmetic on them is
  `>> 6`, `& 63`, `+ 1`, `<< 6`; the results stay below `nr_bits + 4096`, so nothing wraps for
  `nr_bits <= 2^64 - 4096` (`nr_bits` itself is a number of blocks of a file);
* an access outside a word array (undefined behaviour in C) or a failing `assert` makes the
  operation return `none`;
* allocation failure is not modelled.
-/
namespace Fio.Axmap

abbrev Word := BitVec 64

/-- lib/axmap.c:67-84 `struct axmap_level`, `struct axmap`. -/
structure Axmap where
  levels : List (List Word)
  nrBits : Nat
deriving DecidableEq, Repr

/-- The constant `-1UL` (lib/axmap.c:260). -/
def minusOne : Word := BitVec.allOnes 64

/-- lib/axmap.c:38-58 `bit_masks[]`, the literal table. -/
def bitMasks : List Word := [
  0x0000000000000000, 0x0000000000000001, 0x0000000000000003, 0x0000000000000007,
  0x000000000000000f, 0x000000000000001f, 0x000000000000003f, 0x000000000000007f,
  0x00000000000000ff, 0x00000000000001ff, 0x00000000000003ff, 0x00000000000007ff,
  0x0000000000000fff, 0x0000000000001fff, 0x0000000000003fff, 0x0000000000007fff,
  0x000000000000ffff, 0x000000000001ffff, 0x000000000003ffff, 0x000000000007ffff,
  0x00000000000fffff, 0x00000000001fffff, 0x00000000003fffff, 0x00000000007fffff,
  0x0000000000ffffff, 0x0000000001ffffff, 0x0000000003ffffff, 0x0000000007ffffff,
  0x000000000fffffff, 0x000000001fffffff, 0x000000003fffffff, 0x000000007fffffff,
  0x00000000ffffffff,
  0x00000001ffffffff, 0x00000003ffffffff, 0x00000007ffffffff, 0x0000000fffffffff,
  0x0000001fffffffff, 0x0000003fffffffff, 0x0000007fffffffff, 0x000000ffffffffff,
  0x000001ffffffffff, 0x000003ffffffffff, 0x000007ffffffffff, 0x00000fffffffffff,
  0x00001fffffffffff, 0x00003fffffffffff, 0x00007fffffffffff, 0x0000ffffffffffff,
  0x0001ffffffffffff, 0x0003ffffffffffff, 0x0007ffffffffffff, 0x000fffffffffffff,
  0x001fffffffffffff, 0x003fffffffffffff, 0x007fffffffffffff, 0x00ffffffffffffff,
  0x01ffffffffffffff, 0x03ffffffffffffff, 0x07ffffffffffffff, 0x0fffffffffffffff,
  0x1fffffffffffffff, 0x3fffffffffffffff, 0x7fffffffffffffff, 0xffffffffffffffff]

/-- lib/axmap.c:122-127: the loop that counts levels.  `i` is an `unsigned int`, so the sum
wraps modulo 2^32. -/
def countLevels (i levels : Nat) : Nat :=
  if h : 1 < i then countLevels ((i + 63) % 2 ^ 32 / 64) (levels + 1) else levels
termination_by i
decreasing_by
  have : (i + 63) % 2 ^ 32 ≤ i + 63 := Nat.mod_le _ _
  omega

/-- lib/axmap.c:135-148: allocate `count` levels, each zero filled (axmap_reset), dividing the
number of bits by 64 (rounding up) each time. -/
def mkLevels : (count nrBits : Nat) → List (List Word)
  | 0, _ => []
  | c + 1, nrBits =>
    let nr := (nrBits + 63) / 64
    List.replicate nr 0#64 :: mkLevels c nr

/-- lib/axmap.c:113-160 `axmap_new`. -/
def axmapNew (nrBits : Nat) : Axmap :=
  { levels := mkLevels (countLevels ((nrBits + 63) / 64 % 2 ^ 32) 1) nrBits, nrBits := nrBits }

/-- lib/axmap.c:87-96 `axmap_reset`. -/
def axmapReset (a : Axmap) : Axmap :=
  { a with levels := a.levels.map fun l => List.replicate l.length 0#64 }

/-- lib/axmap.c:213-216 `struct axmap_set_data`. -/
structure SetData where
  nrBits : Nat
  setBits : Nat
deriving DecidableEq, Repr

/-- lib/axmap.c:223-261 `axmap_set_fn`.  Result: (returned bool, new words, new data). -/
def axmapSetFn (level : Nat) (map : List Word) (offset bit : Nat) (d : SetData) :
    Option (Bool × List Word × SetData) := do
  let w ← map[offset]?
  let nr := min d.nrBits (64 - bit)
  let mask := (← bitMasks[nr]?) <<< bit
  let overlap := w &&& mask
  if overlap = mask then
    return (true, map, { d with setBits := 0 })
  if overlap ≠ 0#64 then
    let nr := ffz (~~~ overlap) - bit
    if nr = 0 then
      return (true, map, d)
    let mask := (← bitMasks[nr]?) <<< bit
    if mask = 0#64 ∨ w &&& mask ≠ 0#64 then none    -- assert()s, lines 250-251
    let map' := map.set offset (w ||| mask)
    return (w ||| mask ≠ minusOne, map', ⟨1, if level = 0 then nr else d.setBits⟩)
  else
    if mask = 0#64 ∨ w &&& mask ≠ 0#64 then none    -- assert()s, lines 250-251
    let map' := map.set offset (w ||| mask)
    return (w ||| mask ≠ minusOne, map', ⟨1, if level = 0 then nr else d.setBits⟩)

/-- lib/axmap.c:167-189 `axmap_handler` applied to `axmap_set_fn`, from level `level` upwards. -/
def axmapHandlerSet : (level : Nat) → List (List Word) → (index : Nat) → SetData →
    Option (List (List Word) × SetData)
  | _, [], _, d => some ([], d)
  | level, m :: ms, index, d => do
    let (stop, m', d') ← axmapSetFn level m (index / 64) (index % 64) d
    if stop then return (m' :: ms, d')
    let (ms', d'') ← axmapHandlerSet (level + 1) ms (index / 64) d'
    return (m' :: ms', d'')

/-- lib/axmap.c:271-284 `__axmap_set`.  The clamped local `nr_bits` of the C code is only used
in an assertion; the unclamped `data->nr_bits` is what reaches the handler. -/
def axmapSet0 (a : Axmap) (bitNr : Nat) (d : SetData) : Option (Axmap × SetData) := do
  if bitNr > a.nrBits then return (a, d)
  let nrBits := if bitNr + d.nrBits > a.nrBits then a.nrBits - bitNr else d.nrBits
  if ¬ nrBits ≤ 64 then none                           -- assert(), line 281
  let (ls, d') ← axmapHandlerSet 0 a.levels bitNr d
  return ({ a with levels := ls }, d')

/-- lib/axmap.c:286-291 `axmap_set`. -/
def axmapSet (a : Axmap) (bitNr : Nat) : Option Axmap :=
  (axmapSet0 a bitNr ⟨1, 0⟩).map (·.1)

/-- lib/axmap.c:308-312: number of bits handed to one `__axmap_set` call. -/
def chunk (bitNr nrBits : Nat) : Nat :=
  if nrBits > 64 - bitNr % 64 then 64 - bitNr % 64 else nrBits

/-- lib/axmap.c:299-323 `axmap_set_nr`, the do/while loop; `setBits` is the running total. -/
def axmapSetNrLoop (a : Axmap) (bitNr nrBits setBits : Nat) : Option (Axmap × Nat) :=
  match axmapSet0 a bitNr ⟨chunk bitNr nrBits, 0⟩ with
  | none => none
  | some (a', d) =>
    if d.setBits ≠ chunk bitNr nrBits then some (a', setBits + d.setBits)
    else if nrBits - d.setBits = 0 then some (a', setBits + d.setBits)
    else axmapSetNrLoop a' (bitNr + d.setBits) (nrBits - d.setBits) (setBits + d.setBits)
termination_by nrBits
decreasing_by
  rename_i h1 h2
  have : 0 < chunk bitNr nrBits := by unfold chunk; split <;> omega
  omega

/-- lib/axmap.c:299-323 `axmap_set_nr`. -/
def axmapSetNr (a : Axmap) (bitNr nrBits : Nat) : Option (Axmap × Nat) :=
  axmapSetNrLoop a bitNr nrBits 0

/-- lib/axmap.c:196-211 and 325-329: `axmap_handler_topdown` applied to `axmap_isset_fn`,
looking at levels `i-1, ..., 0`. -/
def issetFrom (levels : List (List Word)) (bitNr : Nat) : Nat → Option Bool
  | 0 => some false
  | i + 1 => do
    let l ← levels[i]?
    let index := bitNr / 64 ^ i
    let w ← l[index / 64]?
    if w.getLsbD (index % 64) then return true
    issetFrom levels bitNr i

/-- lib/axmap.c:331-337 `axmap_isset`. -/
def axmapIsset (a : Axmap) (bitNr : Nat) : Option Bool :=
  if bitNr ≤ a.nrBits then issetFrom a.levels bitNr a.levels.length else some false

/-- lib/axmap.c:384-392: scan the following words for one with a free bit.  Returns the offset
and the complemented word. -/
def scanWords : List Word → (offset : Nat) → Option (Nat × Word)
  | [], _ => none
  | w :: ws, offset => if ~~~ w ≠ 0#64 then some (offset, ~~~ w) else scanWords ws (offset + 1)

/-- lib/axmap.c:366-399: one level of `axmap_find_first_free`; `none` is "return -1ULL". -/
def findLevel (l : List Word) (index : Nat) : Option Nat :=
  let offset := index / 64
  let bit := index % 64
  if offset ≥ l.length then none else
    let temp := ~~~ (bitMasks[bit]?.getD 0) &&& ~~~ (l[offset]?.getD 0)
    if temp ≠ 0#64 then some (offset * 64 + ffz (~~~ temp))
    else
      match scanWords (l.drop (offset + 1)) (offset + 1) with
      | none => none
      | some (o, t) => some (o * 64 + ffz (~~~ t))

/-- The loop of lib/axmap.c:352-400 over levels `i-1, ..., 0`. -/
def findFrom (levels : List (List Word)) (bitNr : Nat) : (i index : Nat) → Option Nat
  | 0, index => some index
  | i + 1, index =>
    let index := index * 64
    let base := bitNr / 64 ^ i
    let index := if index < base then base else index
    match findLevel (levels[i]?.getD []) index with
    | none => none
    | some j => findFrom levels bitNr i j

/-- lib/axmap.c:343-407 `axmap_find_first_free`; `none` is -1. -/
def axmapFindFirstFree (a : Axmap) (bitNr : Nat) : Option Nat :=
  match findFrom a.levels bitNr a.levels.length 0 with
  | none => none
  | some index => if index ≥ a.nrBits then none else some index

/-- Result of a lookup: undefined behaviour, the "-1" answer, or a block. -/
inductive Found | ub | none | some (b : Nat)
deriving DecidableEq, Repr

def Found.ofOption : Option Nat → Found
  | Option.none => .none
  | Option.some b => .some b

/-- lib/axmap.c:413-454 `axmap_next_free`. -/
def axmapNextFree (a : Axmap) (bitNr : Nat) : Found :=
  if bitNr ≥ a.nrBits then .none else
  let next := if bitNr + 1 = a.nrBits then 0 else bitNr + 1
  match a.levels[0]? with
  | Option.none => .ub
  | Option.some l =>
  match l[next / 64]? with
  | Option.none => .ub
  | Option.some w =>
    let temp := ~~~ (bitMasks[next % 64]?.getD 0) &&& ~~~ w
    let ret :=
      if temp ≠ 0#64 then
        let r := next / 64 * 64 + ffz (~~~ temp)
        if r ≥ a.nrBits then Option.none else Option.some r
      else axmapFindFirstFree a next
    if ret = Option.none ∧ next ≠ 0 then .ofOption (axmapFindFirstFree a 0)
    else .ofOption ret

end Fio.Axmap
