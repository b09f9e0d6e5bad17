import Verif.IoGen.Model
/-
Random offsets by zones (`random_distribution=zoned:` and `zoned_abs:`) and by a fixed sequence:
reading of the option (options.c:78-134, 1195-1280), the table of zones (zone-dist.c:5-31) and the
choice of a block (io_u.c:104-148, 175-324).

An entry `a/s` of the option is the pair of what `str_to_decimal` makes of `a` and of the number
behind the slash, if there is one.  Random numbers are arguments.
-/
namespace Fio.ZDist

/-- `perc` of one entry (options.c:97-118): `s` is the number behind the slash, read by
`str_to_decimal` if the sizes are absolute, else by `atoi`. -/
def splitPerc (absolute : Bool) (s : Option Int) : Nat := match s with
  | some a =>
    if absolute then (a % 2 ^ 64).toNat
    else
      let perc := (a % 2 ^ 64).toNat
      if perc > 100 then 100 else if perc = 0 then 2 ^ 32 - 1 else perc
  | none => if absolute then 0 else 2 ^ 32 - 1

/-- split_parse_ddir (options.c:78-134) without the string handling: `val1` and `val2` of the
entries, at most `max` of them. -/
def splitParse (absolute : Bool) (max : Nat) (l : List (Int × Option Int)) : List (Nat × Nat) :=
  (l.take max).map fun e => ((e.1 % 2 ^ 64).toNat, splitPerc absolute e.2)

/-- struct zone_split (thread_options.h:65-70). -/
structure Zone where
  acc : Nat
  szp : Nat
  size : Nat
deriving DecidableEq, Repr

/-- The copy into `zone_split` (options.c:1210-1216); the percentages are `uint8_t`.  The field that
is not set is left as `malloc` gave it and not read by the kind of distribution in question; it is 0
here. -/
def mkZone (absolute : Bool) (e : Nat × Nat) : Zone :=
  if absolute then ⟨e.1 % 256, 0, e.2⟩ else ⟨e.1 % 256, e.2 % 256, 0⟩

/-- Sum of the percentages that are given (not 255) and number of the missing ones
(options.c:1221-1237), both `unsigned int`. -/
def tally (f : Zone → Nat) : List Zone → Nat × Nat
  | [] => (0, 0)
  | z :: l =>
    let (p, m) := tally f l
    if f z = 255 then (p, m + 1) else (p + f z, m)

/-- zone_split_ddir (options.c:1195-1280): `none` is the error return. -/
def zoneSplit (absolute : Bool) (l : List (Int × Option Int)) : Option (List Zone) :=
  let s := splitParse absolute 256 l
  if s = [] then some [] else
  let zs := s.map (mkZone absolute)
  let (perc, missing) := tally Zone.acc zs
  let (sperc, smissing) := if absolute then (0, 0) else tally Zone.szp zs
  if perc > 100 ∨ sperc > 100 then none else
  if perc < 100 then none else
  let perc := if missing = 1 ∧ zs.length = 1 then 100 else perc
  let zs := if missing ≠ 0 then
    zs.map fun z => if z.acc = 255 then { z with acc := (100 - perc) / missing % 256 } else z else zs
  let sperc := if smissing = 1 ∧ zs.length = 1 then 100 else sperc
  let zs := if smissing ≠ 0 then
    zs.map fun z => if z.szp = 255 then { z with szp := (100 - sperc) / smissing % 256 } else z else zs
  some zs

/-- struct zone_split_index (fio.h:189-194). -/
structure Idx where
  szp : Nat
  szpPrev : Nat
  size : Nat
  sizePrev : Nat
deriving DecidableEq, Repr

/-- The inner loop of __td_zone_gen_index (zone-dist.c:16-24) for `n` entries from `j` on: `none` if
an entry behind the 100 allocated ones is written. -/
def fillIdx (x : Idx) : Nat → Nat → List (Option Idx) → Option (List (Option Idx))
  | 0, _, t => some t
  | n + 1, j, t => if j < t.length then fillIdx x n (j + 1) (t.set j (some x)) else none

/-- The outer loop (zone-dist.c:13-30). -/
def genLoop : List Zone → Nat → Nat → Nat → List (Option Idx) → Option (List (Option Idx))
  | [], _, _, _, t => some t
  | z :: l, aprev, sprev, sprevSz, t =>
    let x : Idx := ⟨(sprev + z.szp) % 256, sprev % 256, (sprevSz + z.size) % 2 ^ 64, sprevSz⟩
    match fillIdx x z.acc aprev t with
    | none => none
    | some t => genLoop l (aprev + z.acc) (sprev + z.szp) ((sprevSz + z.size) % 2 ^ 64) t

/-- __td_zone_gen_index (zone-dist.c:5-31); entries not written are `none`. -/
def genIndex (zs : List Zone) : Option (List (Option Idx)) :=
  genLoop zs 0 0 0 (List.replicate 100 none)

/-- Where the random number comes from: a Tausworthe generator of 32 or 64 bits, or the LFSR, which
gives a block by itself or says that it is exhausted. -/
inductive Draw where
  | taus (r bits : Nat)
  | lfsr (off : Option Nat)
deriving DecidableEq, Repr

/-- __get_next_rand_offset (io_u.c:104-148) without random map: any distribution other than the
uniform one turns it off (init.c:1036-1038). -/
def nextRand (lastb : Nat) : Draw → Option Nat
  | .taus r bits => some (IoGen.scaled lastb r bits)
  | .lfsr off => off

/-- What the table gives for `v` (io_u.c:201,254): `none` if the entry is outside the table or was
never written. -/
def lookup (t : List (Option Idx)) (v : Nat) : Option Idx := match t[v - 1]? with
  | some x => x
  | none => none

/-- The result of choosing a block. -/
inductive Res where
  | block (b : Nat)
  /-- the function returns 1 -/
  | fail
  /-- undefined: entry outside of the table or never written -/
  | undef
deriving DecidableEq, Repr

/-- A block from `nextRand` moved by `add`. -/
def place (r : Option Nat) (add : Nat) : Res := match r with
  | some b => .block ((b + add) % 2 ^ 64)
  | none => .fail

/-- __get_next_rand_offset_zoned (io_u.c:231-289); `v` is the draw of `rand_between(1, 100)`.  The
test for -1U is never true, as the percentages are `uint8_t`. -/
def zoned (lastb : Nat) (zs : List Zone) (t : List (Option Idx)) (v : Nat) (r : Draw) : Res :=
  if lastb = 0 then .fail else
  if zs = [] then place (nextRand lastb r) 0 else
  match lookup t v with
  | none => .undef
  | some x =>
    let stotal := x.szpPrev
    let send := x.szp
    let offset := if stotal ≠ 0 then stotal * lastb % 2 ^ 64 / 100 else 0
    let len := lastb * ((send + 2 ^ 32 - stotal) % 2 ^ 32) % 2 ^ 64 / 100
    place (nextRand len r) offset

/-- __get_next_rand_offset_zoned_abs (io_u.c:175-229). -/
def zonedAbs (lastb ba : Nat) (zs : List Zone) (t : List (Option Idx)) (v : Nat) (r : Draw) : Res :=
  if lastb = 0 then .fail else
  if zs = [] then place (nextRand lastb r) 0 else
  match lookup t v with
  | none => .undef
  | some x =>
    let stotal := x.sizePrev / ba
    let send := x.size / ba
    if send = 2 ^ 32 - 1 then place (nextRand lastb r) 0
    else if send > lastb then .fail
    else place (nextRand ((send + 2 ^ 64 - stotal) % 2 ^ 64) r) stotal

/-- __get_next_rand_offset_sequence (io_u.c:291-324): `n` is `io_issues[ddir]`. -/
def sequence (seq : List Nat) (stride : Bool) (ioSize minBs n : Nat) : Res :=
  if seq.length = 0 then .fail else
  match seq[n % seq.length]? with
  | none => .undef
  | some s =>
    let b := if stride then (n / seq.length * seq.length + s) % 2 ^ 64 else s
    if ioSize ≠ 0 ∧ b ≥ ioSize / minBs then .fail else .block b

end Fio.ZDist
