import Verif.IoGen.Model

/-!
# bssplit: from the option to the choice of a block size

The values of the option are numbers already (the text is C07 and C43); the choice itself is
`IoGen.nextLen`, get_next_buflen, io_u.c:615-681.
-/

namespace Fio.Split

open IoGen

/-- The percentage of one entry, options.c:91-112 with `absolute` false: `none` is an entry without
`/`, `some a` the result of atoi, converted to unsigned long long. -/
def rawPerc : Option Int → Nat
  | none => 2 ^ 32 - 1
  | some a =>
    let p := (a % 2 ^ 64).toNat
    if p > 100 then 100 else if p = 0 then 2 ^ 32 - 1 else p

/-- split_parse_ddir, options.c:77-134, with BSSPLIT_MAX = 64 (thread_options.h:44): entries after the
64th are left out. -/
def splitParse (l : List (Nat × Option Int)) : List (Nat × Nat) :=
  (l.take 64).map fun x => (x.1, rawPerc x.2)

/-- `(int) perc`, options.c:74, for a 32-bit value. -/
def toInt (p : Nat) : Int := if p < 2 ^ 31 then p else (p : Int) - 2 ^ 32

/-- qsort with bs_cmp, options.c:69-75 and 205: the same entries, none after a greater one. The order
of entries with equal percentages is not determined. -/
def Sorted (l m : List (Nat × Nat)) : Prop :=
  m.Perm l ∧ m.Pairwise fun a b => toInt a.2 ≤ toInt b.2

/-- bssplit_ddir, options.c:136-207: the minimum and maximum block size and the entries in `o` are
those of the option for the direction `d`. With no entries nothing is set (options.c:147-148). -/
def Parsed (l : List (Nat × Option Int)) (o : Opts) (d : Dir) : Prop :=
  l ≠ [] ∧ ∃ m, bssplitDdir (splitParse l) = some (o.minBs d, o.maxBs d, m) ∧ Sorted m (o.bssplit d)

end Fio.Split
