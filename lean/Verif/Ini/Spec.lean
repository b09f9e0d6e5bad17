import Verif.Ini.Model
/-!
# What a job file means
-/

namespace Fio.Ini.Spec

open Fio.Ini (Str Job)

/-- White space. -/
def white (c : Char) : Bool := decide (c.toNat ∈ [9, 10, 11, 12, 13, 32])

/-- White space and control characters. -/
def blankChar (c : Char) : Bool := decide (c.toNat ≤ 32 ∨ c.toNat = 127)

/-- Not the beginning of a comment. -/
def plain (c : Char) : Bool := c ≠ ';' && c ≠ '#'

/-- A line without its comment. -/
def cut (l : Str) : Str := l.takeWhile plain

/-- Nothing but a comment. -/
def empty (l : Str) : Prop := ∀ c ∈ cut l, blankChar c = true

instance (l : Str) : Decidable (empty l) := inferInstanceAs (Decidable (∀ c ∈ cut l, blankChar c = true))

/-- A line without its comment and the white space around it. -/
def clean (l : Str) : Str := (((cut l).dropWhile white).reverse.dropWhile blankChar).reverse

/-- The lines that count, cleaned. -/
def kept (ls : List Str) : List Str := (ls.filter (fun l => decide (¬ empty l))).map clean

/-- The lines of a text. -/
def lines : Str → List Str
  | [] => [[]]
  | c :: t =>
    match lines t with
    | [] => [[c]]
    | l :: ls => if c = '\n' then [] :: l :: ls else (c :: l) :: ls

/-- No line is too long. -/
def short (t : Str) : Prop := ∀ l ∈ lines t, l.length < 8191

/-- The file an `include name` in file `f` means: `name` if there is such a file, else `name` beside `f`. -/
inductive Names (fs : Str → Option Str) (f name : Str) : Str → Prop
  | here (h : (fs name).isSome) : Names fs f name name
  | beside (d b : Str) (h : fs name = none) (hf : f = d ++ '/' :: b) (hb : '/' ∉ b) : Names fs f name (d ++ '/' :: name)

/-- The lines of file `f` with included files put in, at most `d` deep. -/
inductive Expand (fs : Str → Option Str) : Nat → Str → List Str → List Str → Prop
  | nil (d : Nat) (f : Str) : Expand fs d f [] []
  | opt (d : Nat) (f l : Str) (ls out : List Str) (h : ¬ "include".toList <+: l) (h1 : l.head? ≠ some '[') (hr : Expand fs d f ls out) :
      Expand fs d f (l :: ls) (l :: out)
  | inc (d : Nat) (f : Str) (c : Char) (name q t : Str) (ls o1 o2 : List Str) (hq : Names fs f name q) (ht : fs q = some t) (hs : short t)
      (hne : kept (lines t) ≠ []) (h1 : Expand fs d q (kept (lines t)) o1) (h2 : Expand fs (d + 1) f ls o2) :
      Expand fs (d + 1) f (("include".toList ++ c :: name) :: ls) (o1 ++ o2)

/-- A section: name, lines, and the options that these come to. -/
structure Sect where
  name : Str
  body : List Str
  opts : List Str
deriving DecidableEq, Repr

/-- Its lines. -/
def Sect.lines (s : Sect) : List Str := ('[' :: s.name ++ [']']) :: s.body

/-- The section sets defaults. -/
def Sect.isGlobal (s : Sect) : Bool := s.name.take 6 = "global".toList

/-- The section is wanted. -/
def Sect.wanted (sections : List Str) (s : Sect) : Bool := sections = [] || s.isGlobal || decide (s.name ∈ sections)

/-- What is handed on for the sections wanted: jobs start from the defaults set before them, and the first job waits if `wall`. -/
def jobs (wall : Bool) (defs : List Str) : List Sect → List Job
  | [] => []
  | s :: ss =>
    if s.isGlobal then ⟨s.name, true, s.opts, false, defs⟩ :: jobs wall (defs ++ s.opts) ss
    else ⟨s.name, false, s.opts, wall, defs⟩ :: jobs false defs ss

/-- Those before the first that is refused. -/
def upTo (accept : Job → Bool) (js : List Job) : List Job := js.takeWhile accept

end Fio.Ini.Spec
