/-!
# JSON output

Model of /repo/json.c (building and printing a tree) and of /repo/lib/output_buffer.c (the buffer it is printed to).

Simplifications:
* A tree is a value; the C code links parents to children, and `json_…_level` (json.c:270-298) walks back up to the
  root to find the depth.  Here the depth is passed down.
* Memory allocation succeeds.
* A double is what `%f` prints of it: its sign and its value in millionths, or `nan`, or infinity.
* Characters are abstract; whether bytes above 127 form valid UTF-8 is not considered.
-/

namespace Fio.Json

/-- A C string. -/
abbrev Str := List Char

/-- A double as far as `%f` shows it (json.c:357). -/
inductive Flt where
  /-- a finite number: sign, and absolute value in millionths -/
  | fin (neg : Bool) (micro : Nat)
  | inf (neg : Bool)
  | nan (neg : Bool)
  deriving DecidableEq, Repr

mutual
/-- What callers hand to `json_object_add_value_…` and `json_array_add_value_…` (json.h:47-175). -/
inductive Val where
  | str (s : Str)
  | int (i : Int)
  | flt (f : Flt)
  | obj (ps : Pairs)
  | arr (vs : Vals)

/-- The pairs of an object in the order they were added (json.c:180-192). -/
inductive Pairs where
  | nil
  | cons (name : Str) (v : Val) (ps : Pairs)

/-- The values of an array in the order they were added (json.c:164-178). -/
inductive Vals where
  | nil
  | cons (v : Val) (vs : Vals)
end

/-- The number of characters `strpbrk` finds, /repo/json.c:59-63. -/
def countEscapes : Str → Nat
  | [] => 0
  | c :: s => (if c = '\\' ∨ c = '"' then 1 else 0) + countEscapes s

/-- What /repo/json.c:66-71 writes, without the final NUL. -/
def escapeLoop : Str → Str
  | [] => []
  | c :: s => if c = '\\' ∨ c = '"' then '\\' :: c :: escapeLoop s else c :: escapeLoop s

/-- /repo/json.c:53-74 `strdup_escape`: `none` if more is written than was allocated (line 65). -/
def strdupEscape (s : Str) : Option Str :=
  let ret := escapeLoop s
  if ret.length + 1 ≤ s.length + countEscapes s + 1 then some ret else none

/-- `%lld` of a natural number, and the part before the point of `%f` (json.c:354, 357). -/
def natText (n : Nat) : Str :=
  if n < 10 then [Char.ofNat (48 + n)] else natText (n / 10) ++ [Char.ofNat (48 + n % 10)]

/-- `%lld` (json.c:354). -/
def intText (i : Int) : Str := if i < 0 then '-' :: natText i.natAbs else natText i.natAbs

/-- `k` digits, with leading zeros: the part after the point of `%f` (json.c:357). -/
def fracText : Nat → Nat → Str
  | 0, _ => []
  | k + 1, n => fracText k (n / 10) ++ [Char.ofNat (48 + n % 10)]

/-- `%f` (json.c:357). -/
def fltText : Flt → Str
  | .fin neg m => (if neg then ['-'] else []) ++ (natText (m / 1000000) ++ '.' :: fracText 6 (m % 1000000))
  | .inf neg => (if neg then ['-'] else []) ++ "inf".toList
  | .nan neg => (if neg then ['-'] else []) ++ "nan".toList

/-- /repo/json.c:300-304 `json_print_level`. -/
def indent : Nat → Str
  | 0 => []
  | n + 1 => ' ' :: ' ' :: indent n

mutual
/-- /repo/json.c:347-366 `json_print_value`, with /repo/json.c:309-322 `json_print_object` and
/repo/json.c:331-345 `json_print_array`; `lvl` is the level of the value.  Strings were escaped when they were added
(json.c:76-92, 194-214). -/
def printVal (lvl : Nat) : Val → Option Str
  | .str s => do
    let e ← strdupEscape s
    some ('"' :: (e ++ ['"']))
  | .int i => some (intText i)
  | .flt f => some (fltText f)
  | .obj ps => do
    let t ← printPairs (lvl + 1) true ps
    some ("{\n".toList ++ (t ++ ('\n' :: (indent lvl ++ ['}']))))
  | .arr vs => do
    let t ← printVals (lvl + 1) true vs
    some ("[\n".toList ++ (t ++ ('\n' :: (indent lvl ++ [']']))))

/-- The loop of /repo/json.c:314-318 with /repo/json.c:324-329 `json_print_pair`; `lvl` is the level of the pairs.
The name is printed as it was given (json.c:18-29, 327). -/
def printPairs (lvl : Nat) (first : Bool) : Pairs → Option Str
  | .nil => some []
  | .cons name v ps => do
    let t ← printVal lvl v
    let r ← printPairs lvl false ps
    some ((if first then [] else ",\n".toList) ++ (indent lvl ++ ('"' :: (name ++ ("\" : ".toList ++ (t ++ r))))))

/-- The loop of /repo/json.c:336-341; `lvl` is the level of the values. -/
def printVals (lvl : Nat) (first : Bool) : Vals → Option Str
  | .nil => some []
  | .cons v vs => do
    let t ← printVal lvl v
    let r ← printVals lvl false vs
    some ((if first then [] else ",\n".toList) ++ (indent lvl ++ (t ++ r)))
end

/-- /repo/json.c:309-322 `json_print_object` of the root object. -/
def printRoot (ps : Pairs) : Option Str := printVal 0 (.obj ps)

/-! ## The output buffer -/

/-- /repo/lib/output_buffer.h `struct buf_output`.  A cell is `none` while it has never been written. -/
structure Buf where
  buf : List (Option Nat)
  buflen : Nat
  maxBuflen : Nat
  deriving DecidableEq, Repr

/-- /repo/lib/output_buffer.c:9-14 `buf_output_init`. -/
def bufInit : Buf := ⟨[], 0, 0⟩

/-- Write `xs` at `off`; out of bounds is an error. -/
def writeAt (m : List (Option Nat)) (off : Nat) (xs : List (Option Nat)) : Option (List (Option Nat)) :=
  if off + xs.length ≤ m.length then some (m.take off ++ (xs ++ m.drop (off + xs.length))) else none

/-- `realloc` to `n` bytes. -/
def realloc (m : List (Option Nat)) (n : Nat) : List (Option Nat) := m.take n ++ List.replicate (n - m.length) none

/-- /repo/lib/output_buffer.c:22-42 `buf_output_add`; `none` is a write outside the buffer.  `size_t` does not
overflow. -/
def bufAdd (o : Buf) (data : List Nat) : Option Buf := do
  let len := data.length
  let o ← if o.maxBuflen - o.buflen < len then do
      let need := len - (o.maxBuflen - o.buflen)
      let oldMax := o.maxBuflen
      let need := max 1024 need
      let maxBuflen := o.maxBuflen + need
      let buf := realloc o.buf maxBuflen
      let oldMax := max oldMax (o.buflen + len)
      let need := if oldMax + need > maxBuflen then maxBuflen - oldMax else need
      let buf ← writeAt buf oldMax (List.replicate need (some 0))
      some { o with buf, maxBuflen }
    else some o
  let buf ← writeAt o.buf o.buflen (data.map some)
  some { o with buf, buflen := o.buflen + len }

end Fio.Json
