import Verif.Rate.Model
/-
What a rate limit promises, from the list of events alone (newest first).
-/
namespace Fio.Rate

/-- Bytes charged in direction `d`. -/
def total (d : Dir) : List Ev → Int
  | [] => 0
  | .issue e len _ _ :: l => (if e = d then (len : Int) else 0) + total d l
  | .quiet e n :: l => (if e = d then n else 0) + total d l

/-- Bytes charged up to the last issue in direction `d`: what comes after it (think time,
verification) counts only from the next issue on. -/
def seen (d : Dir) : List Ev → Int
  | [] => 0
  | .issue e len t c :: l => if e = d then total d (.issue e len t c :: l) else seen d l
  | .quiet _ _ :: l => seen d l

/-- Number of issues in direction `d`. -/
def issues (d : Dir) : List Ev → Nat
  | [] => 0
  | .issue e _ _ _ :: l => (if e = d then 1 else 0) + issues d l
  | .quiet _ _ :: l => issues d l

/-- Sleeps are not cut short, unless the job is told to end. -/
def Patient : Op → Prop
  | .io _ e _ _ _ _ => e.cut = none ∨ e.term = true
  | _ => True

/-- A plain byte rate: no Poisson process, and not `rate_iops` with `bssplit`. -/
def Linear (o : Opts) (d : Dir) : Prop :=
  o.poisson = false ∧ ¬(o.rate d = 0 ∧ o.split d = true)

/-- Bytes per second that the options ask for. -/
def perSec (o : Opts) (d : Dir) : Nat := if o.rate d = 0 then o.rateIops d * o.minBs d else o.rate d

end Fio.Rate
