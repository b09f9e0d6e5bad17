import Verif.AllClients.Model
import Verif.Report.Spec
/-!
# What the summary of all servers is to show (C105)
-/

namespace Fio.AllClients

open Fio.Report (total largest least)

/-- The entries that came, in order. -/
def entries : List Ev → List Entry
  | [] => []
  | .ts _ e :: evs => e :: entries evs
  | _ :: evs => entries evs

/-- The numbers of entries the servers said they would send. -/
def promised : List Ev → Nat
  | [] => 0
  | .start _ n :: evs => n + promised evs
  | _ :: evs => promised evs

/-- The sum of these entries. -/
structure IsSum (es : List Entry) (s : Sum) : Prop where
  members : s.members = es.length
  bytes : ∀ d, d < 3 → s.bytes d = total (es.map (·.bytes d)) % 2 ^ 64
  runtime : ∀ d, d < 3 → s.runtime d = largest (es.map (·.runtime d))
  groups : ∀ d, d < 3 → s.rs.iobytes d = total (es.map (·.rs.iobytes d)) % 2 ^ 64 ∧ s.rs.agg d = total (es.map (·.rs.agg d)) % 2 ^ 64 ∧
    s.rs.maxRun d = largest (es.map (·.rs.maxRun d)) ∧ s.rs.minRun d = least (es.map (·.rs.minRun d)) ∧
    s.rs.maxBw d = largest (es.map (·.rs.maxBw d)) ∧ s.rs.minBw d = least (es.map (·.rs.minBw d))

/-- Entries that are alike: all with `unified_rw_reporting=mixed`, and so everything in the first direction, or none. -/
def Alike (m : Bool) (es : List Entry) : Prop :=
  ∀ e ∈ es, e.mixed = m ∧ (m = true → ∀ d, 0 < d → e.bytes d = 0 ∧ e.runtime d = 0)

/-- Nothing unexpected: all servers start before the first entry comes (`a`), then (`b`) entries come, and servers leave that have sent
one. -/
structure Calm (a b : List Ev) : Prop where
  starts : ∀ ev ∈ a, ∃ c n, ev = .start c n
  nostart : ∀ ev ∈ b, ∀ c n, ev ≠ .start c n
  gone : ∀ pre c post, b = pre ++ .gone c :: post → ∃ e, Ev.ts c e ∈ pre

end Fio.AllClients
