/-!
# What a number in a job file means: /repo/HOWTO.rst:504-591, 1753-1785

Written from the documentation, without reference to the model.
-/

namespace Fio.Parse.Spec

/-- A decimal number: one digit or more. -/
def IsDec (ds : List Char) : Prop := ds ≠ [] ∧ ∀ c ∈ ds, c ∈ ['0', '1', '2', '3', '4', '5', '6', '7', '8', '9']

/-- Its value. -/
def decVal (ds : List Char) : Nat := ds.foldl (fun a c => 10 * a + (c.toNat - '0'.toNat)) 0

/-- Value of a hexadecimal digit (small or capital letter). -/
def hexDigit (c : Char) : Option Nat :=
  ['0', '1', '2', '3', '4', '5', '6', '7', '8', '9', 'a', 'b', 'c', 'd', 'e', 'f'].idxOf? c.toLower

/-- A hexadecimal number (without the `0x`). -/
def IsHex (hs : List Char) : Prop := hs ≠ [] ∧ ∀ c ∈ hs, (hexDigit c).isSome

/-- Its value. -/
def hexVal (hs : List Char) : Nat := hs.foldl (fun a c => 16 * a + (hexDigit c).getD 0) 0

/-- The unit prefixes: kilo, mega, giga, tera, peta (HOWTO.rst:536-548). -/
def prefixPow : Char → Option Nat
  | 'k' => some 1
  | 'm' => some 2
  | 'g' => some 3
  | 't' => some 4
  | 'p' => some 5
  | _ => none

/-- The documented suffixes for quantities of data (HOWTO.rst:532-577), not case sensitive: an optional unit prefix and
an optional `b`.  With `kb_base` 1000, `k` is 1000 and `ki` is 1024; with `kb_base` 1024 it is the other way round. -/
def dataUnit (kb : Nat) (sfx : List Char) : Option Nat :=
  match sfx.map Char.toLower with
  | [] => some 1
  | ['b'] => some 1
  | [c] => (prefixPow c).map fun n => kb ^ n
  | [c, 'b'] => (prefixPow c).map fun n => kb ^ n
  | [c, 'i'] => (prefixPow c).map fun n => (2024 - kb) ^ n
  | [c, 'i', 'b'] => (prefixPow c).map fun n => (2024 - kb) ^ n
  | _ => none

/-- The documented suffixes for times in microseconds (HOWTO.rst:579-586), not case sensitive; `dflt` is the unit
without a suffix. -/
def timeUnit (dflt : Nat) (sfx : List Char) : Option Nat :=
  match sfx.map Char.toLower with
  | [] => some dflt
  | ['d'] => some 86400000000
  | ['h'] => some 3600000000
  | ['m'] => some 60000000
  | ['s'] => some 1000000
  | ['s', 'e', 'c'] => some 1000000
  | ['m', 's'] => some 1000
  | ['m', 's', 'e', 'c'] => some 1000
  | ['u', 's'] => some 1
  | ['u', 's', 'e', 'c'] => some 1
  | _ => none

/-- A list of values, some left out, in a job file: `a,b,c`. -/
def join (sep : Char) : List (List Char) → List Char
  | [] => []
  | [f] => f
  | f :: fs => f ++ sep :: join sep fs

/-- HOWTO.rst:1755-1775: the value for the `i`-th data direction.  A value that is left out leaves the default alone,
and the last value, if it is there, also applies to the directions for which the list has no place. -/
def listValue {α : Type} (fields : List (Option α)) (i : Nat) (dflt : α) : α :=
  match fields[i]? with
  | some f => f.getD dflt
  | none => (fields.getLast?.join).getD dflt

end Fio.Parse.Spec
