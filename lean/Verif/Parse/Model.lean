/-!
# Numbers in job files: `str_to_decimal` and the comma separated lists of `handle_option`

Model of /repo/parse.c:159-404 (`get_mult_time`, `__get_mult_bytes`, `get_mult_bytes`, `str_to_decimal`) and of the
part of /repo/parse.c:521-1080 (`__handle_option`, `handle_option`) that deals with numeric options.

A C string is the list of its characters without the terminating NUL.  Simplifications:
* strings starting with `(` go through the arithmetic expression parser when fio is built with CONFIG_ARITHMETIC
  (parse.c:363-373); the model is the other path, so it covers every string not starting with `(`.
* `long` is 64 bits wide, so `LONG_MAX` is the largest `long long` (parse.c:387).
* the character classes are those of the C locale.
-/

namespace Fio.Parse

/-- A C string. -/
abbrev Str := List Char

/-- `isdigit` (C locale), used in parse.c:171,307,310. -/
def isDigit (c : Char) : Bool := '0' ≤ c && c ≤ '9'

/-- `isalpha` (C locale), used in parse.c:176,313. -/
def isAlpha (c : Char) : Bool := ('a' ≤ c && c ≤ 'z') || ('A' ≤ c && c ≤ 'Z')

/-- `isspace` (C locale), what `strtoll` skips (parse.c:384). -/
def isSpace (c : Char) : Bool := c == ' ' || c == '\t' || c == '\n' || c == '\x0b' || c == '\x0c' || c == '\r'

/-- `tolower` (C locale), parse.c:185,232. -/
def lower (c : Char) : Char := if 'A' ≤ c ∧ c ≤ 'Z' then Char.ofNat (c.toNat + 32) else c

/-- Value of a digit in base `b`, none if it is not one (`strtoll`, parse.c:384). -/
def digitVal (b : Nat) (c : Char) : Option Nat :=
  let v := if isDigit c then some (c.toNat - 48)
    else if 'a' ≤ c ∧ c ≤ 'z' then some (c.toNat - 87)
    else if 'A' ≤ c ∧ c ≤ 'Z' then some (c.toNat - 55) else none
  v.bind fun d => if d < b then some d else none

/-- The longest prefix of digits: their number and their value (`strtoll`, parse.c:384). -/
def scanDigits (b : Nat) : Str → Nat → Nat → Nat × Nat
  | [], n, v => (n, v)
  | c :: s, n, v => match digitVal b c with
    | none => (n, v)
    | some d => scanDigits b s (n + 1) (v * b + d)

/-- The largest and smallest `long long`. -/
def llMax : Int := 9223372036854775807
/-- See `llMax`. -/
def llMin : Int := -9223372036854775808

/-- The optional sign of `strtoll` (parse.c:384). -/
def signOf : Str → Bool × Str
  | '-' :: t => (true, t)
  | '+' :: t => (false, t)
  | t => (false, t)

/-- The optional `0x` of `strtoll` in base 16 (parse.c:384); it only counts when a digit follows. -/
def strip0x (base : Nat) (s : Str) : Str :=
  if base ≠ 16 then s else
  match s with
  | '0' :: x :: d :: t => if (x = 'x' ∨ x = 'X') ∧ (digitVal 16 d).isSome then d :: t else s
  | _ => s

/-- The value of `strtoll` for the digits `s` (parse.c:384). -/
def clamp (base : Nat) (neg : Bool) (s : Str) : Option (Int × Bool) :=
  let r := scanDigits base s 0 0
  if r.1 = 0 then none else
  let i : Int := if neg then -(r.2 : Int) else r.2
  if llMax < i then some (llMax, true)
  else if i < llMin then some (llMin, true)
  else some (i, false)

/-- `strtoll(str, &endptr, base)` as the C standard describes it (parse.c:384), for base 10 and 16: `none` when there
is no number (value 0 and `endptr == str`); otherwise the value, clamped to the range of `long long`, and whether it
was clamped (`errno = ERANGE`). -/
def strtoll (s : Str) (base : Nat) : Option (Int × Bool) :=
  let r := signOf (s.dropWhile isSpace)
  clamp base r.1 (strip0x base r.2)

/-- Conversion to `unsigned long long` and back to `long long`. -/
def wrap (i : Int) : Int := (i + 9223372036854775808) % 18446744073709551616 - 9223372036854775808

/-- `strstr(str, "0x") || strstr(str, "0X")` (parse.c:379). -/
def hasHex : Str → Bool
  | '0' :: c :: s => c == 'x' || c == 'X' || hasHex (c :: s)
  | _ :: s => hasHex s
  | [] => false

/-- `!strncmp(p, c, strlen(p))` (parse.c:187-198,241-281). -/
def pre (p : String) (c : Str) : Bool := p.toList.isPrefixOf c

/-- /repo/parse.c:159-202 `get_mult_time`.  The loop of lines 170-174 stops at the latest at the NUL. -/
def getMultTime (s : Str) (isSeconds : Bool) : Nat :=
  let p := s.dropWhile fun c => isDigit c || c == '+' || c == '-'
  match p with
  | [] => if isSeconds then 1000000 else 1
  | a :: _ =>
    if !isAlpha a then (if isSeconds then 1000000 else 1) else
    let c := p.map lower
    if pre "us" c || pre "usec" c then 1
    else if pre "ms" c || pre "msec" c then 1000
    else if c == "s".toList then 1000000
    else if c == "m".toList then 60000000
    else if c == "h".toList then 3600000000
    else if c == "d".toList then 86400000000
    else 1

/-- /repo/parse.c:204-215 `is_separator`. -/
def isSeparator (c : Char) : Bool := c == ':' || c == '-' || c == ',' || c == '/'

/-- The multiplier of the `xib` suffixes, parse.c:241-270. -/
def ibMult (kb : Nat) : Nat := if kb = 1000 then 1024 else if kb = 1024 then 1000 else kb

/-- /repo/parse.c:217-292 `__get_mult_bytes` (argument not NULL): multiplier and `*percent`.  `unsigned long long`
arithmetic wraps around, which matters only for a `kb_base` other than 1000 and 1024. -/
def getMultBytes' (p : Str) (kb : Nat) : Nat × Bool :=
  let c := (p.map lower).takeWhile fun c => !isSeparator c
  let r (m pow : Nat) := (m ^ pow % 18446744073709551616, false)
  if pre "pib" c then r (ibMult kb) 5
  else if pre "tib" c then r (ibMult kb) 4
  else if pre "gib" c then r (ibMult kb) 3
  else if pre "mib" c then r (ibMult kb) 2
  else if pre "kib" c then r (ibMult kb) 1
  else if pre "p" c || pre "pb" c then r kb 5
  else if pre "t" c || pre "tb" c then r kb 4
  else if pre "g" c || pre "gb" c then r kb 3
  else if pre "m" c || pre "mb" c then r kb 2
  else if pre "k" c || pre "kb" c then r kb 1
  else if pre "%" c then (1, true)
  else (1, false)

/-- The loop of /repo/parse.c:306-312: skip digits, and signs until a digit was seen. -/
def skipNum : Str → Bool → Str
  | [], _ => []
  | c :: s, seen =>
    if !isDigit c && (!(c == '+' || c == '-') || seen) then c :: s
    else skipNum s (seen || isDigit c)

/-- /repo/parse.c:294-317 `get_mult_bytes`. -/
def getMultBytes (s : Str) (kb : Nat) : Nat × Bool :=
  if s.length < 2 then getMultBytes' s kb else
  match skipNum s false with
  | [] => (1, false)
  | a :: t => if !isAlpha a && a != '%' then (1, false) else getMultBytes' (a :: t) kb

/-- /repo/parse.c:348-404 `str_to_decimal`: the value, `none` for a nonzero return.  `err` is whether `errno` was
`ERANGE` before the call (line 387 does not reset it); the second component is the same afterwards. -/
def strToDecimal (s : Str) (kilo : Bool) (kb : Nat) (isSeconds err : Bool) : Option Int × Bool :=
  if s = [] then (none, err) else
  match strtoll s (if hasHex s then 16 else 10) with
  | none => (none, err)
  | some (v, er) =>
    let err := err || er
    if v = llMax ∧ err then (none, err) else
    if kilo then
      let (mult, perc) := getMultBytes s kb
      (some (if perc then wrap (-1 - v) else wrap (v * mult)), err)
    else (some (wrap (v * getMultTime s isSeconds)), err)

/-- /repo/parse.c:406-409 `check_str_bytes`; /repo/parse.c:451-461 `check_range_bytes` is the same. -/
def checkStrBytes (s : Str) (kb : Nat) (err : Bool) : Option Int × Bool := strToDecimal s true kb false err

/-- /repo/parse.c:411-414 `check_str_time`. -/
def checkStrTime (s : Str) (isSeconds err : Bool) : Option Int × Bool := strToDecimal s false 0 isSeconds err

/-- /repo/parse.h:132-135 `parse_is_percent`: `val >= -101ULL`, for a `long long` converted to unsigned. -/
def isPercent (v : Int) : Bool := 18446744073709551515 ≤ v % 18446744073709551616

/-- The kinds of numeric option with values in `off1`, `off2`, `off3` (parse.c:605-751).  `valTime` stands for
`FIO_OPT_STR_VAL_TIME` and for `FIO_OPT_STR_VAL` with `is_time`. -/
inductive Kind where
  | int | ull | val | valTime
  deriving DecidableEq, Repr

/-- The fields of `struct fio_option` that matter here: `type`, `minval`, `maxval`, `is_seconds`; no callback, no
`verify`, no list of allowed values, no `pow2`; `off1` is there, `off2` and `off3` if the flags say so. -/
structure Opt where
  kind : Kind
  minval : Int := 0
  maxval : Nat := 0
  isSeconds : Bool := false
  off2 : Bool := true
  off3 : Bool := true
  deriving Repr

/-- The three variables an option is stored to (`int` for `FIO_OPT_INT`, `long long` otherwise). -/
structure Vars where
  v1 : Int
  v2 : Int
  v3 : Int
  deriving DecidableEq, Repr

/-- Conversion to `int`. -/
def toInt (i : Int) : Int := (i + 2147483648) % 4294967296 - 2147483648

/-- Conversion to `unsigned long long`. -/
def toULL (i : Int) : Int := i % 18446744073709551616

/-- /repo/parse.c:521-534 `val_too_large`. -/
def tooLarge (o : Opt) (v : Int) : Bool :=
  if o.maxval = 0 then false
  else if o.kind = .int then
    if toInt v < 0 then decide (toInt o.maxval < toInt v) else decide ((o.maxval : Int) < v % 4294967296)
  else decide ((o.maxval : Int) < toULL v)

/-- /repo/parse.c:536-546 `val_too_small`; `minval` is an `int`, converted to unsigned in the second comparison. -/
def tooSmall (o : Opt) (v : Int) : Bool :=
  if o.minval = 0 then false
  else if o.kind = .int then decide (toInt v < o.minval)
  else decide (toULL v < toULL o.minval)

/-- The assignments of /repo/parse.c:699-749. -/
def store (o : Opt) (x : Int) (first more : Bool) (curr : Nat) (st : Vars) : Vars :=
  let x := if o.kind = .int then toInt x else x
  let st := if first then { st with v1 := x } else st
  if o.kind = .int ∨ o.kind = .ull then
    let st := if curr = 1 ∧ o.off2 then { st with v2 := x } else st
    let st := if curr = 2 ∧ o.off3 then { st with v3 := x } else st
    if more then st else
    let st := if curr < 1 ∧ o.off2 then { st with v2 := x } else st
    if curr < 2 ∧ o.off3 then { st with v3 := x } else st
  else if !more ∧ o.off2 then { st with v2 := x } else st

/-- /repo/parse.c:605-751: one value of a numeric option; the return value is whether it went well.  A trailing `z`
is an error for these types (lines 617-638).  `tmp` is a copy of at most 127 characters, cut at the first comma. -/
def handleOne (o : Opt) (kb : Nat) (p : Str) (first more : Bool) (curr : Nat) (st : Vars × Bool) :
    Bool × Vars × Bool :=
  if p.getLast? = some 'z' then (false, st) else
  let tmp := (p.take 127).takeWhile fun c => c != ','
  let (r, err) := if o.kind = .valTime then checkStrTime tmp o.isSeconds st.2 else checkStrBytes tmp kb st.2
  match r with
  | none => (false, st.1, err)
  | some v =>
    if tooLarge o v || tooSmall o v then (false, st.1, err)
    else (true, store o v first more curr st.1, err)

/-- `strchr(s, c)`: what is before and what is after the first `c`. -/
def strchr (s : Str) (c : Char) : Option (Str × Str) :=
  match s.dropWhile fun d => d != c with
  | [] => none
  | _ :: t => some (s.takeWhile fun d => d != c, t)

/-- /repo/parse.c:1035-1056: where the next value starts (`ptr2 + 1`), and the string after a final comma has been cut
off. -/
def split (p : Str) : Str × Option Str :=
  match strchr p ',' with
  | some (a, []) => (a, some [])
  | some (_, t) => (p, some t)
  | none =>
    match strchr p ':' with
    | some (_, t) => (p, some t)
    | none =>
      match p with
      | [] => (p, none)
      | c :: s => if c = '-' then (p, (strchr s '-').map Prod.snd) else (p, (strchr p '-').map Prod.snd)

/-- The loop of /repo/parse.c:1032-1075.  `fuel`: every round shortens the string, so its length + 1 suffices.
`ret` is "no value was good so far". -/
def handleLoop (o : Opt) (kb : Nat) : Nat → Str → Nat → Bool → Vars × Bool → Option (Bool × Vars × Bool)
  | 0, _, _, _, _ => none
  | fuel + 1, p, done, ok, st =>
    let (p, next) := split p
    let (r, st) := handleOne o kb p (done = 0) next.isSome done st
    match next with
    | none => some (ok || r, st)
    | some t => handleLoop o kb fuel t (done + 1) (ok || r) st

/-- /repo/parse.c:1013-1080 `handle_option` for a numeric option with an argument: whether it returns 0, and the
variables afterwards. -/
def handleOption (o : Opt) (kb : Nat) (s : Str) (st : Vars × Bool) : Option (Bool × Vars × Bool) :=
  handleLoop o kb (s.length + 1) s 0 false st

/-- The six variables of a range option (`off1`/`off2`, `off3`/`off4`, `off5`/`off6`), such as `bsrange`. -/
structure Ranges where
  r1 : Int × Int
  r2 : Int × Int
  r3 : Int × Int
  deriving DecidableEq, Repr

/-- /repo/parse.c:876-933: one value of an option of type `FIO_OPT_RANGE` with all six offsets. -/
def handleRange (kb : Nat) (p : Str) (first more : Bool) (curr : Nat) (st : Ranges × Bool) : Bool × Ranges × Bool :=
  let tmp := (p.take 127).takeWhile fun c => c != ','
  match (strchr tmp '-').orElse fun _ => strchr tmp ':' with
  | none => (false, st)
  | some (a, b) =>
    match checkStrBytes a kb st.2 with
    | (none, err) => (false, st.1, err)
    | (some x, err) =>
      match checkStrBytes b kb err with
      | (none, err) => (false, st.1, err)
      | (some y, err) =>
        let r := if y < x then (y, x) else (x, y)
        let s := st.1
        let s := if first then { s with r1 := r } else s
        let s := if curr = 1 then { s with r2 := r } else s
        let s := if curr = 2 then { s with r3 := r } else s
        let s := if !more ∧ curr < 1 then { s with r2 := r } else s
        let s := if !more ∧ curr < 2 then { s with r3 := r } else s
        (true, s, err)

/-- /repo/parse.c:1041-1043: where the next range starts (`ptr2 + 1`), and the string after a final comma has been cut
off. -/
def splitComma (p : Str) : Str × Option Str :=
  match strchr p ',' with
  | some (a, []) => (a, some [])
  | some (_, t) => (p, some t)
  | none => (p, none)

/-- The loop of /repo/parse.c:1032-1075 for `FIO_OPT_RANGE`: values are separated by commas only (line 1044). -/
def rangeLoop (kb : Nat) : Nat → Str → Nat → Bool → Ranges × Bool → Option (Bool × Ranges × Bool)
  | 0, _, _, _, _ => none
  | fuel + 1, p, done, ok, st =>
    let (p, next) := splitComma p
    let (r, st) := handleRange kb p (done = 0) next.isSome done st
    match next with
    | none => some (ok || r, st)
    | some t => rangeLoop kb fuel t (done + 1) (ok || r) st

/-- /repo/parse.c:1013-1080 `handle_option` for a range option with an argument. -/
def handleRangeOption (kb : Nat) (s : Str) (st : Ranges × Bool) : Option (Bool × Ranges × Bool) :=
  rangeLoop kb (s.length + 1) s 0 false st

end Fio.Parse
