import Mathlib.Data.BitVec
/-
Model of the steady-state sums: /repo/steadystate.c.

All sums are uint64_t and wrap.  The decision whether the criterion is below the limit is a
floating point comparison; it is an arbitrary input here (`attained`).
-/
namespace Fio.Steady

abbrev U64 := BitVec 64

/-- One measurement: iops, bw, lat. -/
structure Sample where
  iops : U64
  bw : U64
  lat : U64
  deriving DecidableEq

/-- Which of the three the job watches: FIO_SS_IOPS, FIO_SS_BW, else lat (steadystate.c:79-84). -/
inductive Metric where
  | iops | bw | lat

def Metric.sel : Metric → Sample → U64
  | .iops, s => s.iops
  | .bw, s => s.bw
  | .lat, s => s.lat

/-- The fields of struct steadystate_data (steadystate.h:17-45) used by the two checks.  The three
arrays iops_data, bw_data, lat_data are one array of samples. -/
structure SS where
  metric : Metric
  full : Bool
  head : Nat
  tail : Nat
  data : List Sample
  sumY : U64
  sumXY : U64
  oldestY : U64

/-- td_steadystate_init and steadystate_alloc, steadystate.c:354, 23-25: everything zero. -/
def init (m : Metric) (intervals : Nat) : SS where
  metric := m
  full := false
  head := 0
  tail := 0
  data := List.replicate intervals ⟨0, 0, 0⟩
  sumY := 0
  sumXY := 0
  oldestY := 0

/-- The watched value stored at index `i`; `none` would be an access outside the array. -/
def SS.at? (ss : SS) (i : Nat) : Option U64 := (ss.data[i]?).map ss.metric.sel

/-- The loop of steadystate.c:89-103; `i` counts up to `intervals`. -/
def firstSums (ss : SS) (intervals : Nat) : Nat → U64 → U64 → Option (U64 × U64)
  | 0, sy, sxy => some (sy, sxy)
  | k + 1, sy, sxy =>
    let i := intervals - (k + 1)
    match ss.at? i, ss.at? ((ss.head + i) % intervals) with
    | some y, some y' => firstSums ss intervals k (sy + y) (sxy + BitVec.ofNat 64 i * y')
    | _, _ => none

/-- steadystate_slope, steadystate.c:66-147.  Returns the new state and the result.  (`tail - head` is
only evaluated while head is 0, so the unsigned subtraction does not wrap.) -/
def slope (ss : SS) (intervals : Nat) (x : Sample) (attained : Bool) : Option (SS × Bool) :=
  if ss.tail < ss.data.length then
    let ss := { ss with data := ss.data.set ss.tail x }
    let new := ss.metric.sel x
    let move (ss : SS) : SS × Bool :=
      let tail := (ss.tail + 1) % intervals
      let head := if tail ≤ ss.head then (ss.head + 1) % intervals else ss.head
      ({ ss with tail := tail, head := head }, false)
    if ss.full ∨ ss.tail - ss.head = intervals - 1 then
      let upd : Option SS :=
        if ¬ ss.full then
          (firstSums ss intervals intervals 0 ss.sumXY).map fun (sy, sxy) =>
            { ss with sumY := sy, sumXY := sxy, full := true }
        else
          let sy := ss.sumY - ss.oldestY + new
          some { ss with sumY := sy, sumXY := ss.sumXY - sy + BitVec.ofNat 64 intervals * new }
      match upd with
      | none => none
      | some ss =>
        match ss.at? ss.head with
        | none => none
        | some o =>
          let ss := { ss with oldestY := o }
          if attained then some (ss, true) else some (move ss)
    else some (move ss)
  else none

/-- The loop of steadystate.c:166-173. -/
def firstSumY (ss : SS) (intervals : Nat) : Nat → U64 → Option U64
  | 0, sy => some sy
  | k + 1, sy =>
    match ss.at? (intervals - (k + 1)) with
    | some y => firstSumY ss intervals k (sy + y)
    | none => none

/-- steadystate_deviation, steadystate.c:149-225, without the floating point part. -/
def deviation (ss : SS) (intervals : Nat) (x : Sample) (attained : Bool) : Option (SS × Bool) :=
  if ss.tail < ss.data.length then
    let ss := { ss with data := ss.data.set ss.tail x }
    let move (ss : SS) : SS × Bool :=
      let tail := (ss.tail + 1) % intervals
      let head := if tail = ss.head then (ss.head + 1) % intervals else ss.head
      ({ ss with tail := tail, head := head }, false)
    if ss.full ∨ ss.tail - ss.head = intervals - 1 then
      let upd : Option SS :=
        if ¬ ss.full then
          (firstSumY ss intervals intervals 0).map fun sy => { ss with sumY := sy, full := true }
        else
          match ss.at? ss.tail with
          | none => none
          | some y => some { ss with sumY := ss.sumY - ss.oldestY + y }
      match upd with
      | none => none
      | some ss =>
        match ss.at? ss.head with
        | none => none
        | some o =>
          let ss := { ss with oldestY := o }
          if attained then some (ss, true) else some (move ss)
    else some (move ss)
  else none

/-- Successive checks of a job on the samples `f 0, f 1, ...`, none of which attains the goal. -/
def run (check : SS → Nat → Sample → Bool → Option (SS × Bool)) (m : Metric) (intervals : Nat)
    (f : Nat → Sample) : Nat → Option SS
  | 0 => some (init m intervals)
  | k + 1 =>
    match run check m intervals f k with
    | none => none
    | some ss => (check ss intervals (f k) false).map Prod.fst

/-- `int` arithmetic: `none` on overflow. -/
def int32 (i : Int) : Option Int := if -2 ^ 31 ≤ i ∧ i < 2 ^ 31 then some i else none

/-- `intervals * (intervals - 1) / 2`, steadystate.c:371, in `int`. -/
def sumX (n : Int) : Option Int := do
  let a ← int32 (n - 1)
  let b ← int32 (n * a)
  int32 (b.tdiv 2)

/-- `(intervals - 1) * (intervals) * (2*intervals - 1) / 6`, steadystate.c:372, in `int`. -/
def sumXSq (n : Int) : Option Int := do
  let a ← int32 (n - 1)
  let b ← int32 (a * n)
  let c ← int32 (2 * n)
  let d ← int32 (c - 1)
  let e ← int32 (b * d)
  int32 (e.tdiv 6)

end Fio.Steady
