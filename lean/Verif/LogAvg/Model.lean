import Verif.Stat.Model
import Mathlib.Algebra.Order.Floor.Semiring
import Mathlib.Data.Rat.Floor
/-
Logs with log_avg_msec (stat.c:3234-3335).

The time is `elapsed`, milliseconds since the start of the job.  The mean of a window is an exact
rational as in Verif/Stat.  The buffers of the log are the subject of Verif/Log: here an entry is
always stored.  `avg_last` is also set by __add_log_sample when the log is empty (stat.c:3125-3126);
add_log_sample overwrites that at once (stat.c:3313), and no sample follows finalize_logs.
-/
namespace Fio.LogAvg
open Fio.Stat

/-- enum of iolog.h:29-33. -/
inductive LogMax where
  | avg
  | max
  | both
deriving DecidableEq, Repr

/-- What does not change: `avg` is avg_msec, `inl` is inline_log (iolog.h:328-333), `slack` is
LOG_MSEC_SLACK (stat.c:21-25). -/
structure Cfg where
  avg : Nat
  inl : Bool
  slack : Nat
  mode : LogMax

/-- An entry: time, direction, val0, val1. -/
structure Entry where
  time : Nat
  ddir : Nat
  val0 : Nat
  val1 : Nat
deriving DecidableEq, Repr

/-- The parts of struct io_log: avg_window and avg_last for each direction, and the entries, newest first. -/
structure St where
  win : Nat → IoStat
  last : Nat → Nat
  log : List Entry

/-- setup_log (iolog.c:849) clears the structure.  The windows are those of reset_io_stat but for `min_val`, which is
0 in the first one; no log uses it. -/
def init : St := ⟨fun _ => IoStat.reset, fun _ => 0, []⟩

/-- Conversion of `mean + 0.50` to an integer. -/
def roundMean (m : ℚ) : Nat := ⌊m + 1 / 2⌋₊

/-- __add_stat_to_log (stat.c:3234-3264). -/
def statToLog (c : Cfg) (s : St) (ddir elapsed : Nat) : St :=
  let w := s.win ddir
  let log := if w.samples ≠ 0 then
      (match c.mode with
        | .avg => ⟨elapsed, ddir, roundMean w.mean, 0⟩
        | .max => ⟨elapsed, ddir, w.max, 0⟩
        | .both => ⟨elapsed, ddir, roundMean w.mean, w.max⟩) :: s.log
    else s.log
  { s with log := log, win := fun d => if d = ddir then IoStat.reset else s.win d }

/-- A sample: direction, time, value. -/
structure Sample where
  ddir : Nat
  time : Nat
  val : Nat
deriving DecidableEq, Repr

/-- add_log_sample with avg_msec ≠ 0 (stat.c:3276-3316). -/
def addSample (c : Cfg) (s : St) (x : Sample) : St :=
  if x.ddir ≥ 3 then s else
  let s := { s with win := fun d => if d = x.ddir then Stat.addSample (s.win d) x.val else s.win d }
  let last := s.last x.ddir
  if x.time < last then s
  else if x.time - last < c.avg ∧ (c.inl = true ∨ c.avg - (x.time - last) > c.slack) then s
  else
    let s := statToLog c s x.ddir x.time
    { s with last := fun d => if d = x.ddir then x.time - x.time % c.avg else s.last d }

/-- finalize_logs for one log: _add_stat_to_log (stat.c:3266-3273). -/
def finalize (c : Cfg) (s : St) (t : Nat) : St :=
  statToLog c (statToLog c (statToLog c s 0 t) 1 t) 2 t

/-- A job: the samples, the end. -/
def run (c : Cfg) (xs : List Sample) (t : Nat) : St :=
  finalize c (xs.foldl (addSample c) init) t

end Fio.LogAvg
