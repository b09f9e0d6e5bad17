/-!
# JSON as RFC 8259 defines it: a parser

Written without reference to the model.  Objects keep their members in order, a number is kept exactly as a mantissa
and a power of ten.
-/

namespace Fio.Json.Spec

/-- A JSON value; `num m d` is `m / 10 ^ d`. -/
inductive J where
  | null
  | bool (b : Bool)
  | num (m : Int) (d : Int)
  | str (s : List Char)
  | arr (vs : List J)
  | obj (ps : List (List Char × J))

/-- White space (section 2). -/
def isWs (c : Char) : Bool := c == ' ' || c == '\t' || c == '\n' || c == '\r'

/-- Skip white space. -/
def skip (s : List Char) : List Char := s.dropWhile isWs

/-- The two-character escapes (section 7). -/
def unescape : Char → Option Char
  | '"' => some '"'
  | '\\' => some '\\'
  | '/' => some '/'
  | 'b' => some '\x08'
  | 'f' => some '\x0c'
  | 'n' => some '\n'
  | 'r' => some '\r'
  | 't' => some '\t'
  | _ => none

/-- A hexadecimal digit. -/
def hex (c : Char) : Option Nat :=
  ['0', '1', '2', '3', '4', '5', '6', '7', '8', '9', 'a', 'b', 'c', 'd', 'e', 'f'].idxOf? c.toLower

/-- The characters of a string up to the closing quotation mark (section 7).  Control characters must be escaped.
`\u` escapes stand for one character each (surrogate pairs are not combined). -/
def pstr : List Char → Option (List Char × List Char)
  | [] => none
  | '"' :: r => some ([], r)
  | '\\' :: 'u' :: a :: b :: c :: d :: r => do
    let a ← hex a
    let b ← hex b
    let c ← hex c
    let d ← hex d
    let (s, r) ← pstr r
    some (Char.ofNat (((a * 16 + b) * 16 + c) * 16 + d) :: s, r)
  | '\\' :: c :: r => do
    let c ← unescape c
    let (s, r) ← pstr r
    some (c :: s, r)
  | c :: r => if c.toNat < 32 then none else do
    let (s, r) ← pstr r
    some (c :: s, r)

/-- A decimal digit. -/
def digit (c : Char) : Option Nat := ['0', '1', '2', '3', '4', '5', '6', '7', '8', '9'].idxOf? c

/-- As many digits as there are: number read so far, how many, and the rest. -/
def digits : List Char → Nat → Nat → Nat × Nat × List Char
  | [], v, k => (v, k, [])
  | c :: r, v, k => match digit c with
    | none => (v, k, c :: r)
    | some d => digits r (10 * v + d) (k + 1)

/-- The exponent of a number, if any (section 6): its value and the rest. -/
def pexp : List Char → Option (Int × List Char)
  | c :: r =>
    if c = 'e' ∨ c = 'E' then
      let (neg, r) := match r with
        | '+' :: r => (false, r)
        | '-' :: r => (true, r)
        | r => (false, r)
      let (v, k, r) := digits r 0 0
      if k = 0 then none else some (if neg then -(v : Int) else v, r)
    else some (0, c :: r)
  | [] => some (0, [])

/-- The optional minus sign. -/
def psign : List Char → Bool × List Char
  | '-' :: r => (true, r)
  | r => (false, r)

/-- The optional fraction after the digits of `v`: mantissa, number of digits, rest. -/
def pfrac (v : Nat) : List Char → Option (Nat × Nat × List Char)
  | '.' :: r =>
    let (m, d, r) := digits r v 0
    if d = 0 then none else some (m, d, r)
  | r => some (v, 0, r)

/-- A number (section 6): an optional minus, digits without leading zeros, an optional fraction, an optional
exponent. -/
def pnum (s : List Char) : Option (J × List Char) :=
  let (neg, s) := psign s
  let (v, k, r) := digits s 0 0
  if k = 0 ∨ (k ≠ 1 ∧ s.head? = some '0') then none else do
  let (m, d, r) ← pfrac v r
  let (e, r) ← pexp r
  some (.num (if neg then -(m : Int) else m) (d - e), r)

mutual
/-- A value (section 3), with white space before it; the result is the value and the rest. -/
def pval : Nat → List Char → Option (J × List Char)
  | 0, _ => none
  | n + 1, s =>
    match skip s with
    | '{' :: r =>
      match skip r with
      | '}' :: r => some (.obj [], r)
      | r => do
        let (ps, r) ← pmem n r
        some (.obj ps, r)
    | '[' :: r =>
      match skip r with
      | ']' :: r => some (.arr [], r)
      | r => do
        let (vs, r) ← pelem n r
        some (.arr vs, r)
    | '"' :: r => do
      let (s, r) ← pstr r
      some (.str s, r)
    | 't' :: 'r' :: 'u' :: 'e' :: r => some (.bool true, r)
    | 'f' :: 'a' :: 'l' :: 's' :: 'e' :: r => some (.bool false, r)
    | 'n' :: 'u' :: 'l' :: 'l' :: r => some (.null, r)
    | r => pnum r

/-- One or more members of an object, and the closing brace (section 4). -/
def pmem : Nat → List Char → Option (List (List Char × J) × List Char)
  | 0, _ => none
  | n + 1, s =>
    match skip s with
    | '"' :: r => do
      let (k, r) ← pstr r
      match skip r with
      | ':' :: r => do
        let (v, r) ← pval n r
        match skip r with
        | '}' :: r => some ([(k, v)], r)
        | ',' :: r => do
          let (ps, r) ← pmem n r
          some ((k, v) :: ps, r)
        | _ => none
      | _ => none
    | _ => none

/-- One or more elements of an array, and the closing bracket (section 5). -/
def pelem : Nat → List Char → Option (List J × List Char)
  | 0, _ => none
  | n + 1, s => do
    let (v, r) ← pval n s
    match skip r with
    | ']' :: r => some ([v], r)
    | ',' :: r => do
      let (vs, r) ← pelem n r
      some (v :: vs, r)
    | _ => none
end

/-- A JSON text (section 2): one value, surrounded by white space.  A bracket pair
costs two units of fuel and a comma one, so the length of the text is enough. -/
def parse (s : List Char) : Option J := do
  let (v, r) ← pval (s.length + 1) s
  if skip r = [] then some v else none

end Fio.Json.Spec
