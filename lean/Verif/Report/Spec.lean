import Verif.Report.Model
/-!
# Which jobs are to be reported together (C103)
-/

namespace Fio.Report

/-- Jobs are numbered by groups: `add_job` counts `groupid` up and never down. -/
def Ordered (groups : Nat) (tds : List Td) : Prop := tds.Pairwise (fun a b => a.gid ≤ b.gid) ∧ ∀ td ∈ tds, td.gid ≤ groups

/-- In a group all jobs have `group_reporting` or none, and jobs without it have `stats`. -/
def Tidy (tds : List Td) : Prop :=
  (∀ a ∈ tds, ∀ b ∈ tds, a.gid = b.gid → a.grp = b.grp) ∧ ∀ a ∈ tds, a.grp = false → a.stats = true

/-- The lists of jobs `es` are how the jobs are to be reported: every job with `stats` once and in order, nothing empty, only jobs with
`group_reporting` and of one group together, and those of one group together. -/
structure Grouped (tds : List Td) (es : List (List Td)) : Prop where
  once : es.flatten = tds.filter (·.stats)
  filled : ∀ e ∈ es, e ≠ []
  together : ∀ e ∈ es, 2 ≤ e.length → (∀ a ∈ e, a.grp = true) ∧ ∀ a ∈ e, ∀ b ∈ e, a.gid = b.gid
  apart : es.Pairwise (fun e f => ∀ a ∈ e, ∀ b ∈ f, a.grp = true → b.grp = true → a.gid ≠ b.gid)

/-- The numbers added up. -/
def total : List Nat → Nat
  | [] => 0
  | n :: ns => n + total ns

/-- The largest, 0 for none. -/
def largest : List Nat → Nat
  | [] => 0
  | n :: ns => max n (largest ns)

/-- The smallest, or the largest number of 64 bits. -/
def least : List Nat → Nat
  | [] => 2 ^ 64 - 1
  | x :: l => min x (least l)

end Fio.Report
