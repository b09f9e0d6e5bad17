import Mathlib.Data.Rat.Defs
import Mathlib.Algebra.Order.Ring.Rat
import Mathlib.Algebra.Order.Floor.Defs
import Mathlib.Tactic.NormNum
import Mathlib.Tactic.Linarith
/-
Latency statistics: buckets, percentiles, running means (stat.c, stat.h, iolog.h).
Unsigned values are natural numbers below 2^64; every operation that can wrap is written with `% 2 ^ 64`.
-/
namespace Fio.Stat

/-- FIO_IO_U_PLAT_BITS, stat.h:30. -/
def platBits : Nat := 6
/-- FIO_IO_U_PLAT_VAL, stat.h:31. -/
def platVal : Nat := 2 ^ platBits
/-- FIO_IO_U_PLAT_GROUP_NR, stat.h:32. -/
def platGroupNr : Nat := 29
/-- FIO_IO_U_PLAT_NR, stat.h:33. -/
def platNr : Nat := platGroupNr * platVal
/-- FIO_IO_U_LIST_MAX_LEN, stat.h:34. -/
def listMaxLen : Nat := 20

/-- plat_val_to_idx, stat.c:74-108.  `Nat.log2 val` is 64 - clzll(val) - 1 for val ≠ 0. -/
def valToIdx (val : Nat) : Nat :=
  let msb := if val = 0 then 0 else val.log2
  if msb ≤ platBits then val
  else
    let errorBits := msb - platBits
    let base := (errorBits + 1) <<< platBits
    let offset := (platVal - 1) &&& (val >>> errorBits)
    if base + offset < platNr - 1 then base + offset else platNr - 1

/-- plat_idx_to_val, stat.c:114-135; `none` is the failed assertion.  The double expression
`base + (k + 0.5) * (1 << error_bits)` has a value of at most 35 bits with one binary place, so it is
exact; the conversion back to an integer truncates (for error_bits = 0 it would drop the half). -/
def idxToVal (idx : Nat) : Option Nat :=
  if idx < platNr then
    if idx < platVal <<< 1 then some idx
    else
      let errorBits := (idx >>> platBits) - 1
      let base := 1 <<< (errorBits + platBits)
      let k := idx % platVal
      some (base + (2 * k + 1) * (1 <<< errorBits) / 2)
  else none

/-! ## Percentiles -/

/-- Long double arithmetic: a monotone rounding that keeps 64-bit integers and zero, with relative
error at most 2^-64 (x87 extended precision, or better).  Underflow is not modelled. -/
structure LongDouble where
  rnd : ℚ → ℚ
  mono : ∀ x y, x ≤ y → rnd x ≤ rnd y
  nat : ∀ n : Nat, n < 2 ^ 64 → rnd n = n
  err_lo : ∀ x, 0 ≤ x → x * (1 - 1 / 2 ^ 64) ≤ rnd x
  err_hi : ∀ x, 0 ≤ x → rnd x ≤ x * (1 + 1 / 2 ^ 64)

/-- Exact arithmetic is an instance (so the structure is not empty). -/
def LongDouble.exact : LongDouble where
  rnd := id
  mono := fun _ _ h => h
  nat := fun _ _ => rfl
  err_lo := fun x h => by
    show x * (1 - 1 / 2 ^ 64) ≤ x
    nlinarith
  err_hi := fun x h => by
    show x ≤ x * (1 + 1 / 2 ^ 64)
    nlinarith

/-- `(long double) plist[j].u.f / 100.0 * nr`, stat.c:187. -/
def threshold (ld : LongDouble) (p : ℚ) (nr : Nat) : ℚ := ld.rnd (ld.rnd (p / 100) * nr)

/-- The inner while loop, stat.c:187-202: `ps` are the percentiles from `j` on, `acc` the values
stored so far.  The flag is `is_last`; `none` is a failed assertion. -/
def inner (ld : LongDouble) (nr i sum : Nat) : List ℚ → List Nat → Option (List ℚ × List Nat × Bool)
  | [], acc => some ([], acc, true)
  | p :: ps, acc =>
    if threshold ld p nr ≤ (sum : ℚ) then
      if p ≤ 100 then
        match idxToVal i with
        | none => none
        | some v =>
          if ps = [] then some ([], acc ++ [v], true)
          else inner ld nr i sum ps (acc ++ [v])
      else none
    else some (p :: ps, acc, false)

/-- The outer for loop, stat.c:185-203. -/
def outer (ld : LongDouble) (nr : Nat) : List Nat → Nat → Nat → List ℚ → List Nat → Option (List Nat)
  | [], _, _, _, acc => some acc
  | h :: hs, i, sum, ps, acc =>
    let sum := (sum + h) % 2 ^ 64
    match inner ld nr i sum ps acc with
    | none => none
    | some (ps, acc, last) => if last then some acc else outer ld nr hs (i + 1) sum ps acc

structure Percentiles where
  /-- the sorted percentile list -/
  plist : List ℚ
  /-- `ovals`: malloc'ed memory, `none` where nothing was stored -/
  ovals : List (Option Nat)
  minv : Nat
  maxv : Nat

/-- The prefix of the percentile list before the terminating 0, stat.c:163-165. -/
def plistUsed (plist : List ℚ) : List ℚ := (plist.take listMaxLen).takeWhile (fun p => decide (p ≠ 0))

/-- calc_clat_percentiles, stat.c:151-210, for a successful malloc; qsort with double_cmp is modelled
by a merge sort.  minv and maxv are the minimum and maximum of the values stored. -/
def calcPercentiles (ld : LongDouble) (plat : List Nat) (nr : Nat) (plist : List ℚ) : Option Percentiles :=
  let ps := (plistUsed plist).mergeSort (fun a b => decide (a ≤ b))
  if ps = [] then some ⟨[], [], 2 ^ 64 - 1, 0⟩
  else
    (outer ld nr plat 0 0 ps []).map fun vals =>
      ⟨ps, vals.map some ++ List.replicate (ps.length - vals.length) none,
        vals.foldl min (2 ^ 64 - 1), vals.foldl max 0⟩

/-- `io_u_plat[plat_val_to_idx(nsec)]++` of add_lat_percentile_sample and add_sync_clat_sample,
stat.c:3346-3370 (with the assertion). -/
def addPlat (plat : List Nat) (nsec : Nat) : Option (List Nat) :=
  let idx := valToIdx nsec
  if idx < platNr then
    match plat[idx]? with
    | some c => some (plat.set idx ((c + 1) % 2 ^ 64))
    | none => none
  else none

/-- The histogram after recording a list of samples, starting from reset_io_u_plat (stat.c:3147-3153). -/
def record : List Nat → Option (List Nat)
  | l => l.foldlM addPlat (List.replicate platNr 0)

/-! ## Running statistics -/

/-- struct io_stat, iolog.h:14-21; mean and S as exact rationals. -/
structure IoStat where
  max : Nat
  min : Nat
  samples : Nat
  mean : ℚ
  S : ℚ

/-- reset_io_stat, stat.c:3140-3145; init_thread_stat (stat.c:2440-2462) gives the same values. -/
def IoStat.reset : IoStat := ⟨0, 2 ^ 64 - 1, 0, 0, 0⟩

/-- add_stat_sample, stat.c:2935-2952. -/
def addSample (is : IoStat) (data : Nat) : IoStat :=
  let mx := if data > is.max then data else is.max
  let mn := if data < is.min then data else is.min
  let delta : ℚ := data - is.mean
  let mean := if delta ≠ 0 then is.mean + delta / (is.samples + 1) else is.mean
  let S := if delta ≠ 0 then is.S + delta * (data - mean) else is.S
  ⟨mx, mn, (is.samples + 1) % 2 ^ 64, mean, S⟩

/-- sum_stat with pure_sum = false, including __sum_stat, stat.c:2042-2091.  The counts are uint64_t,
so their product and sum wrap. -/
def sumStat (dst src : IoStat) : IoStat :=
  let first : Bool := decide (dst.samples = 0)
  if src.samples = 0 then dst
  else
    let mn := Nat.min dst.min src.min
    let mx := Nat.max dst.max src.max
    let tot : Nat := (dst.samples + src.samples) % 2 ^ 64
    let prod : Nat := (dst.samples * src.samples) % 2 ^ 64
    let mean : ℚ := if first then src.mean
      else (src.mean * src.samples + dst.mean * dst.samples) / tot
    let S : ℚ := if first then src.S
      else src.S + dst.S + (src.mean - dst.mean) ^ 2 * prod / tot
    ⟨mx, mn, tot, mean, S⟩

/-! ## The sync statistics and reset_io_stats -/

/-- The sync part of struct thread_stat: sync_stat and io_u_sync_plat. -/
structure SyncStat where
  stat : IoStat
  plat : List Nat

/-- add_sync_clat_sample, stat.c:3349-3356. -/
def addSync (s : SyncStat) (nsec : Nat) : Option SyncStat :=
  (addPlat s.plat nsec).map fun p => ⟨addSample s.stat nsec, p⟩

/-- What reset_io_stats (stat.c:3172-3222) does to the sync statistics: the histogram is cleared,
sync_stat is not. -/
def resetSync (s : SyncStat) : SyncStat := { s with plat := List.replicate platNr 0 }

end Fio.Stat
