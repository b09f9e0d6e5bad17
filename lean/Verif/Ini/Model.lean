/-!
# Reading job files (init.c)

A job file is a text without NUL characters.  The lines become sections with options; what the options mean is not modelled here: whether a
section is accepted (`fio_options_parse` and `add_job`) is given by a function of the section.  Not modelled: running out of memory or of
threads (`get_new_job`), `dump_cmdline`, standard input used twice.
-/

namespace Fio.Ini

abbrev Str := List Char

/-- `isspace` in the C locale -/
def isSpace (c : Char) : Bool := c = ' ' || c = '\t' || c = '\n' || c = '\x0b' || c = '\x0c' || c = '\r'

/-- `iscntrl` in the C locale -/
def isCntrl (c : Char) : Bool := decide (c.toNat < 32) || c.toNat = 127

/-- /repo/init.c:2062-2076 `is_empty_or_comment` -/
def isEmptyOrComment : Str → Bool
  | [] => true
  | c :: l => if c = ';' then true else if c = '#' then true else if !isSpace c && !isCntrl c then false else isEmptyOrComment l

/-- /repo/parse.c:416-426 `strip_blank_front` -/
def stripFront (l : Str) : Str := l.dropWhile isSpace

/-- The loop at the end of `strip_blank_end`: from place `s` back over blanks and the final NUL. -/
def back (l : Str) : Nat → Nat
  | 0 => 0
  | s + 1 =>
    match l[s + 1]? with
    | none => back l s
    | some c => if isSpace c || isCntrl c then back l s else s + 1

/-- /repo/parse.c:428-449 `strip_blank_end` -/
def stripEnd (l : Str) : Str :=
  let l := l.takeWhile (· ≠ ';')
  let l := l.takeWhile (· ≠ '#')
  l.take (back l l.length + 1)

/-- `fgets` with room for `lim` characters and the NUL, until the end of the file; `acc` is the line so far, in reverse, and `k` the room
left. -/
def fgets (lim : Nat) : Str → Nat → Str → List Str
  | [], _, [] => []
  | a :: acc, _, [] => [(a :: acc).reverse]
  | acc, k, c :: t =>
    if c = '\n' then (c :: acc).reverse :: fgets lim [] lim t
    else if k ≤ 1 then (c :: acc).reverse :: fgets lim [] lim t
    else fgets lim (c :: acc) (k - 1) t

/-- `strsep(&file, "\n")` until there is nothing left. -/
def strsep : Str → Str → List Str
  | acc, [] => [acc.reverse]
  | acc, c :: t => if c = '\n' then acc.reverse :: strsep [] t else strsep (c :: acc) t

/-- A section as it is handed on: its name, whether it is global, its options in order, whether it waits for those before it, and the
options of the global sections it starts from. -/
structure Job where
  name : Str
  global : Bool
  opts : List Str
  wall : Bool
  defs : List Str
deriving DecidableEq, Repr

/-- What the parser finds around it. -/
structure Env where
  fs : Str → Option Str
  accept : Job → Bool
  sections : List Str

/-- The lines of a source, /repo/init.c:2147-2153 (`OPT_LEN_MAX` is 8192, /repo/parse.h:41). -/
def linesOf (isBuf : Bool) (t : Str) : List Str := if isBuf then strsep [] t else fgets 8191 [] 8191 t

/-- `strrchr(file, '/')`: everything up to the last slash. -/
def dirOf (f : Str) : Option Str := if '/' ∈ f then some (f.reverse.dropWhile (· ≠ '/')).reverse else none

/-- /repo/init.c:2258-2267: the name of an included file.  `ctx` is `file`; in a buffer that is the rest of the buffer, or NULL. -/
def resolve (e : Env) (ctx : Option Str) (name : Str) : Option Str :=
  if (e.fs name).isSome then some name
  else
    match ctx with
    | none => none
    | some f =>
      match dirOf f with
      | none => some name
      | some d => some (d ++ name)

/-- What a nested call leaves behind: `ok` with the new options, an error, or the options freed under the caller. -/
inductive NRes
  | crash
  | ret (ok : Bool) (opts : List Str) (alloc : Nat)
deriving DecidableEq, Repr

/-- How the loop over the lines of a section ends. -/
inductive Inner
  | crash
  /-- the next section -/
  | next (p : Str) (rest : List Str) (opts : List Str) (alloc : Nat)
  /-- no more lines -/
  | eof (opts : List Str) (alloc : Nat)
  /-- an included file failed -/
  | err (rest : List Str) (opts : List Str) (alloc : Nat)
  /-- a section in an included file -/
  | sect (alloc : Nat)
deriving DecidableEq, Repr

/-- The rest of a buffer as `file` holds it. -/
def restOf (isBuf : Bool) (file : Str) (rest : List Str) : Option Str :=
  if isBuf then (if rest = [] then none else some (['\n'].intercalate rest)) else some file

/-- /repo/init.c:2215-2303: the lines of a section; `inc` is what an included file does. -/
def inner (e : Env) (isBuf nested : Bool) (file : Str) (inc : Str → List Str → Nat → NRes) : List Str → List Str → Nat → Inner
  | [], opts, alloc => .eof opts alloc
  | p :: rest, opts, alloc =>
    if isEmptyOrComment p then inner e isBuf nested file inc rest opts alloc
    else
      let p := stripFront p
      if p.head? = some '[' then (if nested then .sect alloc else .next p rest opts alloc)
      else
        let p := stripEnd p
        if "include".toList.isPrefixOf p then
          if p.length < 8 then .crash
          else
            match resolve e (restOf isBuf file rest) (p.drop 8) with
            | none => .crash
            | some fn =>
              match inc fn opts alloc with
              | .crash => .crash
              | .ret true opts alloc => inner e isBuf nested file inc rest opts alloc
              | .ret false opts alloc => .err rest opts alloc
        else inner e isBuf nested file inc rest (opts ++ [p]) (if opts.length = alloc then alloc * 2 else alloc)

/-- The first line that is not empty, /repo/init.c:2142-2162. -/
def firstLine : List Str → Option (Str × List Str)
  | [] => none
  | p :: rest =>
    let q := stripEnd (stripFront p)
    if isEmptyOrComment q then firstLine rest else some (q, rest)

/-- A nested call of `__parse_jobs_ini`; `n` is the number of files that can still be opened (a buffer is not opened, there the nesting
itself is bounded).  In a file without options the loop ends at once, and the caller's options are freed (/repo/init.c:2152, 2349): what the
caller does next is undefined.  After a section in an included file the caller's options are not updated (/repo/init.c:2237-2241), so if
they were moved they are used after they were freed. -/
def incl (e : Env) (isBuf : Bool) : Nat → Str → List Str → Nat → NRes
  | 0, _, opts, alloc => if isBuf then .crash else .ret false opts alloc
  | n + 1, fn, opts, alloc =>
    match (if isBuf then some fn else e.fs fn) with
    | none => .ret false opts alloc
    | some t =>
      match firstLine (linesOf isBuf t) with
      | none => .crash
      | some (p, rest) =>
        match inner e isBuf true fn (incl e isBuf n) (p :: rest) opts alloc with
        | .crash => .crash
        | .next .. => .crash
        | .eof opts alloc => .ret true opts alloc
        | .err _ opts alloc => .ret false opts alloc
        | .sect a => if a = alloc then .ret false opts alloc else .crash

/-- /repo/init.c:2046-2060 `skip_this_section` -/
def skipSection (e : Env) (name : Str) : Bool :=
  if e.sections = [] then false
  else if "global".toList.isPrefixOf name then false
  else decide (name ∉ e.sections)

/-- /repo/init.c:2165, 2175: `sscanf(p, "[%255[^\n]]", name)`, and the last character removed. -/
def sectName (p : Str) : Option Str :=
  match p with
  | '[' :: r =>
    let m := (r.takeWhile (· ≠ '\n')).take 255
    if m = [] then none else some m.dropLast
  | _ => none

/-- How the parser ends. -/
inductive Res
  | crash
  | ret (ok : Bool) (jobs : List Job)
deriving DecidableEq, Repr

/-- A job more in front. -/
def Res.cons (j : Job) : Res → Res
  | .crash => .crash
  | .ret ok js => .ret ok (j :: js)

/-- /repo/init.c:2142-2334: the loop over the sections.  `n` bounds the number of turns, `nf` the files that can be opened.  An error of
an included file is overwritten by the answer for the section (/repo/init.c:2306). -/
def outer (e : Env) (isBuf : Bool) (file : Str) (nf : Nat) : Nat → List Str → Bool → Bool → List Str → Nat → Res
  | 0, _, _, _, _, _ => .crash
  | _ + 1, [], _, _, _, _ => .ret true []
  | n + 1, p :: rest, skip, wall, defs, alloc =>
    let p := stripEnd (stripFront p)
    if isEmptyOrComment p then outer e isBuf file nf n rest skip wall defs alloc
    else
      match sectName p with
      | none => if skip then outer e isBuf file nf n rest skip wall defs alloc else .ret false []
      | some name =>
        if skipSection e name then outer e isBuf file nf n rest true wall defs alloc
        else
          let global := "global".toList.isPrefixOf name
          let w := !global && wall
          let fin (opts : List Str) (k : List Str → Res) : Res :=
            let j : Job := ⟨name, global, opts, w, defs⟩
            if e.accept j then (k (if global then defs ++ opts else defs)).cons j else .ret false []
          match inner e isBuf false file (incl e isBuf nf) rest [] alloc with
          | .crash => .crash
          | .sect _ => .crash
          | .eof opts a => fin opts fun d => outer e isBuf file nf n [] false (wall && !w) d a
          | .next q rest opts a => fin opts fun d => outer e isBuf file nf n (q :: rest) false (wall && !w) d a
          | .err rest opts a => fin opts fun d => outer e isBuf file nf n rest false (wall && !w) d a

/-- /repo/init.c:2359-2363 `parse_jobs_ini` for a file named `file` or a buffer. -/
def parse (e : Env) (isBuf : Bool) (nf : Nat) (wall : Bool) (file : Str) : Res :=
  match (if isBuf then some file else e.fs file) with
  | none => .ret false []
  | some t => outer e isBuf file nf ((linesOf isBuf t).length + 1) (linesOf isBuf t) false wall [] 8

/-- /repo/init.c:3231-3250, `parse_options`: the files of the command line.  The chosen sections are forgotten after the first
(/repo/init.c:2339-2347). -/
def parseAll (e : Env) (nf : Nat) : Bool → List Str → Res
  | _, [] => .ret true []
  | wall, f :: fs =>
    match parse e false nf wall f with
    | .crash => .crash
    | .ret false js => .ret false js
    | .ret true js =>
      match parseAll { e with sections := [] } nf true fs with
      | .crash => .crash
      | .ret ok js' => .ret ok (js ++ js')

end Fio.Ini
