/-!
# Latency statistics per priority (stat.c)

Samples of a job, and the sums over jobs.  Of a `struct io_stat` the number of samples, smallest and largest are kept (mean and deviation:
C15), together with the histogram; counters do not wrap.  `ix` is `plat_val_to_idx` (C13).  Directions are 0, 1, 2.
`alloc n` says whether an array of `n` entries can be had from the shared memory.  The two assertions on empty arrays
(/repo/stat.c:2285-2286, 2313-2314) are not modelled: arrays of a job have an entry for its own priority (C82).
-/

namespace Fio.PrioStat

/-- /repo/stat.h:160-164 `struct clat_prio_stat` without its priority: `struct io_stat` and the histogram -/
structure Hist where
  n : Nat
  mn : Nat
  mx : Nat
  plat : Nat → Nat

/-- /repo/stat.c:2168-2169, 2193 and /repo/stat.c:2443-2455: nothing yet -/
def Hist.init : Hist := { n := 0, mn := 2 ^ 64 - 1, mx := 0, plat := fun _ => 0 }

/-- /repo/stat.c:2937-2952 `add_stat_sample`: the numbers -/
def Hist.stat (h : Hist) (v : Nat) : Hist := { h with n := h.n + 1, mn := min h.mn v, mx := max h.mx v }

/-- /repo/stat.c:3358-3367 `add_lat_percentile_sample`: the histogram -/
def Hist.pct (ix : Nat → Nat) (h : Hist) (v : Nat) : Hist := { h with plat := fun k => if k = ix v then h.plat k + 1 else h.plat k }

/-- An array of `struct clat_prio_stat`, /repo/stat.h:160-164: priority and statistics -/
abbrev PL := List (Nat × Hist)

/-- What a job measures: `lat_percentiles`, `clat_percentiles` (/repo/stat.h:200-201), `disable_lat`, `disable_clat`
(/repo/thread_options.h:284-285) -/
structure Cfg where
  latPct : Bool
  clatPct : Bool
  noLat : Bool
  noClat : Bool

/-- A job: its options, `td->ioprio`, and of `struct thread_stat` the latencies by direction, /repo/stat.h:204-305 -/
structure Job where
  cfg : Cfg
  ioprio : Nat
  lat : Nat → Hist
  clat : Nat → Hist
  /-- `ts->clat_prio[ddir]`, NULL or an array -/
  cprio : Nat → Option PL

/-- A completed I/O: direction, `clat_prio_index` (/repo/io_u.h:57), latencies (/repo/io_u.c:2080-2126). -/
structure Io where
  d : Nat
  idx : Nat
  lat : Nat
  clat : Nat

/-- An assignment to an array (helper). -/
def upd {α : Type} (f : Nat → α) (i : Nat) (v : α) : Nat → α := fun k => if k = i then v else f k

/-- /repo/stat.c:2954-2960 `add_stat_prio_sample`, /repo/stat.c:3369-3378 `add_lat_percentile_prio_sample`: an entry changed if there is an
array; `none` outside of it -/
def prioMod (c : Option PL) (i : Nat) (f : Hist → Hist) : Option (Option PL) :=
  match c with
  | none => some none
  | some l =>
    match l[i]? with
    | some e => some (some (l.set i (e.1, f e.2)))
    | none => none

/-- /repo/stat.c:3517-3558 `add_lat_sample` -/
def addLat (ix : Nat → Nat) (j : Job) (io : Io) : Option Job :=
  let j := { j with lat := upd j.lat io.d ((j.lat io.d).stat io.lat) }
  if j.cfg.latPct then do
    let j := { j with lat := upd j.lat io.d ((j.lat io.d).pct ix io.lat) }
    let c ← prioMod (j.cprio io.d) io.idx (fun h => h.pct ix io.lat)
    let c ← prioMod c io.idx (fun h => h.stat io.lat)
    some { j with cprio := upd j.cprio io.d c }
  else some j

/-- /repo/stat.c:3380-3437 `add_clat_sample` -/
def addClat (ix : Nat → Nat) (j : Job) (io : Io) : Option Job := do
  let j := { j with clat := upd j.clat io.d ((j.clat io.d).stat io.clat) }
  let j ← if j.cfg.latPct then some j else do
    let c ← prioMod (j.cprio io.d) io.idx (fun h => h.stat io.clat)
    some { j with cprio := upd j.cprio io.d c }
  if j.cfg.clatPct then
    let j := { j with clat := upd j.clat io.d ((j.clat io.d).pct ix io.clat) }
    if j.cfg.latPct then some j else do
      let c ← prioMod (j.cprio io.d) io.idx (fun h => h.pct ix io.clat)
      some { j with cprio := upd j.cprio io.d c }
  else some j

/-- /repo/io_u.c:2099-2126, of `account_io_completion` -/
def account (ix : Nat → Nat) (j : Job) (io : Io) : Option Job := do
  let j ← if j.cfg.noLat then some j else addLat ix j io
  if j.cfg.noClat then some j else addClat ix j io

/-- /repo/stat.c:2042-2089 `sum_stat` (not `pure_sum`) and /repo/stat.c:2266-2267 the histogram -/
def Hist.sum (a b : Hist) : Hist :=
  { n := if b.n = 0 then a.n else a.n + b.n, mn := if b.n = 0 then a.mn else min a.mn b.mn, mx := if b.n = 0 then a.mx else max a.mx b.mx,
    plat := fun k => a.plat k + b.plat k }

/-- /repo/stat.c:2199-2210 `find_clat_prio_index`: there is such an entry -/
def hasPrio (l : PL) (p : Nat) : Bool := l.any (·.1 == p)

/-- /repo/stat.c:2212-2230 `alloc_or_get_clat_prio_index` and the sum into the entry: the first of that priority, or a new one behind -/
def sumInto (l : PL) (p : Nat) (h : Hist) : PL :=
  match l with
  | [] => [(p, Hist.init.sum h)]
  | (q, g) :: l => if q = p then (q, g.sum h) :: l else (q, g) :: sumInto l p h

/-- /repo/stat.c:2250-2270 `clat_prio_stat_add_samples`; the second value is false for an error -/
def addSamples (alloc : Nat → Bool) (dst : Option PL) (p : Nat) (h : Hist) : Option PL × Bool :=
  if h.n = 0 then (dst, true)
  else
    let l := dst.getD []
    if hasPrio l p || alloc (l.length + 1) then (some (sumInto l p h), true) else (dst, false)

/-- /repo/stat.c:2320-2330, the loop of `sum_clat_prio_stats_src_multi_prio` -/
def sumMulti (alloc : Nat → Bool) (dst : Option PL) : PL → Option PL × Bool
  | [] => (dst, true)
  | (p, h) :: l =>
    match addSamples alloc dst p h with
    | (dst, true) => sumMulti alloc dst l
    | (dst, false) => (dst, false)

/-- /repo/stat.c:2272-2344 `sum_clat_prio_stats` with its two cases and /repo/stat.c:2232-2248 `clat_prio_stats_copy`, of direction `d` of
the job; the caller does not look at the result -/
def sumPrio (alloc : Nat → Bool) (dst : Option PL) (j : Job) (d : Nat) : Option PL :=
  match j.cprio d with
  | none => (addSamples alloc dst j.ioprio (if j.cfg.latPct then j.lat d else j.clat d)).1
  | some l =>
    match dst with
    | none => if alloc l.length then some l else none
    | some _ => (sumMulti alloc dst l).1

/-- The directions of a job that go into direction `k` of an entry, /repo/stat.c:2350-2373: each into its own, or all into the first with
`unified_rw_reporting=mixed` -/
def into (mixed : Bool) (k : Nat) : List Nat := if mixed then (if k = 0 then [0, 1, 2] else []) else [k]

/-- /repo/stat.c:2346-2373 `sum_thread_stats` for an entry of the report that is not without statistics per priority
(`disable_prio_stat`): direction `k` -/
def sumJob (alloc : Nat → Bool) (mixed : Bool) (k : Nat) (dst : Option PL) (j : Job) : Option PL :=
  (into mixed k).foldl (fun dst d => sumPrio alloc dst j d) dst

/-- /repo/stat.c:2465-2514 `init_per_prio_stats` for the jobs of one entry: whether statistics per priority are made -/
def perPrio (js : List Job) : Bool :=
  match js with
  | [] => false
  | j :: r => r.any (fun x => x.ioprio != j.ioprio) || (j :: r).any (fun x => (x.cprio 0).isSome || (x.cprio 1).isSome || (x.cprio 2).isSome)

end Fio.PrioStat
