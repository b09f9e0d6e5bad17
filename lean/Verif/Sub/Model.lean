import Verif.Ini.Model
/-!
# The text of an option (options.c, parse.c)

From the line of the job file to a name and a value: environment variables, keywords, arithmetic, splitting at `=`, and the tables of
options of fio and of the engine.  Strings have no NUL inside.  Not modelled: how a value is parsed (properties C43, C44), `bc` itself, the
option list kept for output.
-/

namespace Fio.Sub

open Fio.Ini (Str stripEnd)

/-! ## Environment variables -/

/-- The loop of /repo/options.c:6024-6048: `nchr` characters of room. -/
def subsLoop (env : Str → Option Str) : Nat → Str → Nat → Str
  | 0, _, _ => []
  | _ + 1, [], _ => []
  | n + 1, c :: t, nchr =>
    if nchr = 0 then []
    else
      match c, t with
      | '$', '{' :: t' =>
        if '}' ∈ t' then
          let name := t'.takeWhile (· ≠ '}')
          let rest := (t'.dropWhile (· ≠ '}')).drop 1
          match env name with
          | some v => if v.length ≤ nchr then v ++ subsLoop env n rest (nchr - v.length) else subsLoop env n rest nchr
          | none => subsLoop env n rest nchr
        else c :: subsLoop env n t (nchr - 1)
      | _, _ => c :: subsLoop env n t (nchr - 1)

/-- /repo/options.c:6007-6052 `fio_option_dup_subs` -/
def dupSubs (env : Str → Option Str) (opt : Str) : Option Str :=
  if opt.length + 1 > 8192 then none else some (subsLoop env (opt.length + 1) opt 8192)

/-! ## Keywords -/

/-- `strstr`: the place of the first occurrence. -/
def strstr (w : Str) : Str → Option Nat
  | [] => if w.isPrefixOf [] then some 0 else none
  | c :: t => if w.isPrefixOf (c :: t) then some 0 else (strstr w t).map (· + 1)

/-- The inner loop of `fio_keyword_replace`, /repo/options.c:6066-6095; the flag tells whether there was something to replace.  `none`: the
memory taken for the new text (as much as for the old) does not suffice, or the loop does not end. -/
def replLoop (w v : Str) : Nat → Str → Bool → Option (Str × Bool)
  | 0, _, _ => none
  | n + 1, opt, did =>
    match strstr w opt with
    | none => some (opt, did)
    | some i => if v.length > w.length then none else replLoop w v n (opt.take i ++ v ++ opt.drop (i + w.length)) true

/-- All keywords. -/
def replAll : List (Str × Str) → Str → Bool → Option (Str × Bool)
  | [], opt, did => some (opt, did)
  | (w, v) :: kws, opt, did => (replLoop w v (opt.length + 1) opt did).bind fun r => replAll kws r.1 r.2

/-- What `bc` does with an expression: its output, or nothing. -/
abbrev Bc := Str → Option Str

/-- /repo/options.c:5949-5998 `bc_calc`; the outer `none`: the option is dropped. -/
def bcCalc (bc : Bc) (s : Str) : Option Str :=
  if ('+' ∉ s ∧ '-' ∉ s ∧ '*' ∉ s ∧ '/' ∉ s) ∨ '\'' ∈ s then some s
  else if '=' ∉ s then some s
  else
    let head := s.takeWhile (· ≠ '=') ++ ['=']
    let tmp := (s.dropWhile (· ≠ '=')).drop 1
    if s.length ≥ 128 ∨ tmp.length > 100 then some s
    else
      match bc tmp with
      | none => none
      | some [] => none
      | some out => some (head ++ (out.take (128 - head.length)).dropLast)

/-- How the text of an option comes out. -/
inductive Text
  | crash
  | dropped
  | text (s : Str)
deriving DecidableEq, Repr

/-- /repo/options.c:6057-6105 `fio_keyword_replace` -/
def keywords (kws : List (Str × Str)) (bc : Bc) (opt : Str) : Text :=
  match replAll kws opt false with
  | none => .crash
  | some (s, false) => .text s
  | some (s, true) =>
    match bcCalc bc s with
    | none => .dropped
    | some s => .text s

/-- One option of `dup_and_sub_options`, /repo/options.c:6107-6118. -/
def subText (env : Str → Option Str) (kws : List (Str × Str)) (bc : Bc) (opt : Str) : Text :=
  match dupSubs env opt with
  | none => .dropped
  | some s => keywords kws bc s

/-! ## Name and value -/

/-- The NUL character. -/
def nul : Char := '\x00'

/-- The string at the beginning of a memory. -/
def cstr (m : List Char) : Str := m.takeWhile (· ≠ nul)

/-- Storing bytes at a place. -/
def store (m : List Char) (i : Nat) (s : List Char) : List Char := m.take i ++ s ++ m.drop (i + s.length)

/-- A NUL in place of the first `c` in the string of the first `n` characters. -/
def cutAt (c : Char) (n : Nat) (m : List Char) : List Char :=
  if c ∈ cstr (m.take n) then m.set ((cstr (m.take n)).takeWhile (· ≠ c)).length nul else m

/-- /repo/parse.c:1119-1139 `get_option` on the memory `m` of an option: the memory after, the name, and where the value begins. -/
def getOption (m : List Char) : List Char × Str × Option Nat :=
  let s := cstr m
  if '=' ∈ s then
    let i := (s.takeWhile (· ≠ '=')).length
    let name := stripEnd (s.take i)
    let m := m.set i nul
    let m := if i = 0 then m else (cutAt '#' i (cutAt ';' i m)).set name.length nul
    (m, name, some (i + 1))
  else (m, s, none)

/-- /repo/parse.c:1226-1233: an unknown option is put together again. -/
def rejoin (m : List Char) (post : Option Nat) : List Char :=
  match post with
  | none => m
  | some p =>
    let len := (cstr m).length
    let v := cstr (m.drop p)
    (if len + 1 ≠ p then store m (len + 1) v else m).set len '='

/-- An option given its value: the table, the name, the value. -/
structure Call where
  engine : Bool
  name : Str
  val : Option Str
deriving DecidableEq, Repr

/-- The tables of options: which names fio and the engine know (`eng` is none if the engine has no options), whether a value is accepted,
whether the engine is loaded. -/
structure Tables where
  core : Str → Bool
  eng : Option (Str → Bool)
  accept : Call → Bool
  load : Bool

/-- The first loop of `fio_options_parse`, /repo/options.c:6162-6180: calls, all went well, and what is left for the engine. -/
def phase1 (t : Tables) : List Text → List Call × Bool × List (List Char)
  | [] => ([], true, [])
  | .text s :: xs =>
    let (cs, ok, un) := phase1 t xs
    let (m, name, post) := getOption (s ++ [nul])
    let c : Call := ⟨false, name, post.map fun p => cstr (m.drop p)⟩
    if t.core name then (c :: cs, t.accept c && ok, un) else (cs, ok, rejoin m post :: un)
  | _ :: xs =>
    let (cs, _, un) := phase1 t xs
    (cs, false, un)

/-- The second, /repo/options.c:6188-6206. -/
def phase2 (t : Tables) (eng : Str → Bool) : List (List Char) → List Call × Bool
  | [] => ([], true)
  | m :: ms =>
    let (cs, ok) := phase2 t eng ms
    let (m, name, post) := getOption m
    let c : Call := ⟨true, name, post.map fun p => cstr (m.drop p)⟩
    if eng name then (c :: cs, t.accept c && ok) else (cs, false)

/-- /repo/options.c:6154-6211 `fio_options_parse` after sorting and substitution; `srt` sorts what is left for the engine. -/
def parseOpts (t : Tables) (srt : List (List Char) → List (List Char)) (xs : List Text) : List Call × Bool :=
  let (cs, ok, un) := phase1 t xs
  if un = [] then (cs, ok)
  else
    match t.eng with
    | none => (cs, false)
    | some eng =>
      let (cs', ok') := phase2 t eng (srt un)
      (cs ++ cs', ok && t.load && ok')

end Fio.Sub
