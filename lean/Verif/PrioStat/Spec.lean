import Verif.PrioStat.Model
/-!
# What statistics per priority are to be (C104)
-/

namespace Fio.PrioStat

/-- `h` are the statistics of the values `l`; the histogram only if it is made. -/
structure Is (ix : Nat → Nat) (hist : Bool) (h : Hist) (l : List Nat) : Prop where
  n : h.n = l.length
  mn : h.mn = l.foldl min (2 ^ 64 - 1)
  mx : h.mx = l.foldl max 0
  plat : ∀ k, h.plat k = if hist then (l.filter (fun v => ix v = k)).length else 0

/-- The latency that is reported: the total if the job has `lat_percentiles`. -/
def value (c : Cfg) (io : Io) : Nat := if c.latPct then io.lat else io.clat

/-- It is measured. -/
def measured (c : Cfg) : Bool := if c.latPct then !c.noLat else !c.noClat

/-- It has a histogram. -/
def hasHist (c : Cfg) : Bool := c.latPct || c.clatPct

/-- The priority of an I/O of a job with these arrays. -/
def prioOf (ioprio : Nat) (cprio : Nat → Option PL) (io : Io) : Nat :=
  match cprio io.d with
  | none => ioprio
  | some l => match l[io.idx]? with
    | some e => e.1
    | none => 0

/-- A job before its first I/O: nothing is counted, and its arrays have no priority twice. -/
structure Fresh (j : Job) : Prop where
  lat : ∀ d, j.lat d = Hist.init
  clat : ∀ d, j.clat d = Hist.init
  cprio : ∀ d l, j.cprio d = some l → (l.map (·.1)).Nodup ∧ ∀ e ∈ l, e.2 = Hist.init

/-- The I/O has an index that there is. -/
def Valid (j : Job) (io : Io) : Prop := ∀ l, j.cprio io.d = some l → io.idx < l.length

/-- A job with its I/Os. -/
structure Run where
  job : Job
  ios : List Io

/-- The values to be counted for direction `d` and priority `p`: total latencies (`lp`) or completion latencies, if the job measures them. -/
def vals (lp : Bool) (r : Run) (d p : Nat) : List Nat :=
  if lp = true ∧ r.job.cfg.noLat = true ∨ lp = false ∧ r.job.cfg.noClat = true then []
  else (r.ios.filter fun io => io.d = d ∧ prioOf r.job.ioprio r.job.cprio io = p).map fun io => if lp then io.lat else io.clat

/-- An array has an entry with the statistics of `L p` for every priority `p`, or none if `L p` is empty; and none twice. -/
structure Counts (ix : Nat → Nat) (hist : Bool) (dst : Option PL) (L : Nat → List Nat) : Prop where
  once : ∀ l, dst = some l → (l.map (·.1)).Nodup
  is : ∀ l, dst = some l → ∀ e ∈ l, Is ix hist e.2 (L e.1)
  missing : ∀ p, (∀ l, dst = some l → p ∉ l.map (·.1)) → L p = []

end Fio.PrioStat
