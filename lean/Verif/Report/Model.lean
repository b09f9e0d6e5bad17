/-!
# Which jobs are reported together (stat.c)

The loops of `__show_run_stats` over the jobs, the entries of its report and the groups.  Of the statistics of a job only the bytes and the
runtime are kept, per direction 0, 1, 2 (read, write, trim); 64 bit.  `none` is an access outside an array.
-/

namespace Fio.Report

/-- What the report uses of a job: /repo/fio.h `struct thread_data`, the options `stats`, `group_reporting`, `unified_rw_reporting=mixed`
(/repo/options.c), and `td->ts`. -/
structure Td where
  stats : Bool
  grp : Bool
  gid : Nat
  mixed : Bool
  bytes : Nat → Nat
  runtime : Nat → Nat

/-- An entry of the report: /repo/stat.h:159 `struct thread_stat`; `gid` is `none` for -1, `members` are the jobs counted by
`ts->members`. -/
structure Ts where
  gid : Option Nat
  mixed : Bool
  bytes : Nat → Nat
  runtime : Nat → Nat
  members : List Td

/-- /repo/stat.c:2457-2463 `init_thread_stat` -/
def Ts.init : Ts := { gid := none, mixed := false, bytes := fun _ => 0, runtime := fun _ => 0, members := [] }

/-- One value of an array changed. -/
def upd (f : Nat → Nat) (i v : Nat) : Nat → Nat := fun k => if k = i then v else f k

/-- /repo/stat.c:2346-2373, a round of the loop of `sum_thread_stats` -/
def sumDdir (td : Td) (ts : Ts) (l : Nat) : Ts :=
  let k := if ts.mixed then 0 else l
  { ts with bytes := upd ts.bytes k ((ts.bytes k + td.bytes l) % 2 ^ 64),
            runtime := if ts.runtime k < td.runtime l then upd ts.runtime k (td.runtime l) else ts.runtime }

/-- /repo/stat.c:2588-2617, what an entry takes from its first job -/
def enter (ts : Ts) (td : Td) : Ts :=
  match ts.gid with
  | none => { ts with gid := some td.gid, mixed := td.mixed }
  | some _ => ts

/-- /repo/stat.c:2588-2653, a job added to its entry -/
def addTd (ts : Ts) (td : Td) : Ts :=
  let ts := [0, 1, 2].foldl (sumDdir td) (enter ts td)
  { ts with members := ts.members ++ [td] }

/-- /repo/stat.c:2537-2551, how many entries; the state is `nr_ts` and `last_ts` -/
def countStep (st : Nat × Option Nat) (td : Td) : Nat × Option Nat :=
  if td.grp = false then (st.1 + 1, st.2)
  else if st.2 = some td.gid then st
  else if td.stats = false then st
  else (st.1 + 1, some td.gid)

def nrTs (tds : List Td) : Nat := (tds.foldl countStep (0, none)).1

/-- The variables of the second loop: the entries, `j`, `idx` (whether it is 0), `last_ts`. -/
structure Fill where
  tss : List Ts
  j : Nat
  idx : Bool
  last : Option Nat

/-- /repo/stat.c:2563-2586, where a job goes -/
def fillStep (f : Fill) (td : Td) : Option Fill :=
  if td.stats = false then some f
  else
    let j := if f.idx = true ∧ (td.grp = false ∨ (td.grp = true ∧ f.last ≠ some td.gid)) then f.j + 1 else f.j
    match f.tss[j]? with
    | some ts => some { tss := f.tss.set j (addTd ts td), j := j, idx := true, last := some td.gid }
    | none => none

/-- /repo/stat.c:2553-2561 -/
def fill0 (tds : List Td) : Fill := { tss := List.replicate (nrTs tds) Ts.init, j := 0, idx := false, last := none }

def fill (tds : List Td) : Option Fill := tds.foldlM fillStep (fill0 tds)

/-- /repo/stat.h:9-19 `struct group_run_stats` -/
structure Rs where
  maxRun : Nat → Nat
  minRun : Nat → Nat
  maxBw : Nat → Nat
  minBw : Nat → Nat
  iobytes : Nat → Nat
  agg : Nat → Nat

/-- /repo/stat.c:2434-2441 `init_group_run_stat` -/
def Rs.init : Rs :=
  { maxRun := fun _ => 0, minRun := fun _ => 2 ^ 64 - 1, maxBw := fun _ => 0, minBw := fun _ => 2 ^ 64 - 1, iobytes := fun _ => 0,
    agg := fun _ => 0 }

/-- /repo/stat.c:2679-2699, a direction of an entry added to its group -/
def rsDdir (ts : Ts) (rs : Rs) (j : Nat) : Rs :=
  let r := ts.runtime j
  if r = 0 then rs
  else
    let bw := ts.bytes j * 1000 % 2 ^ 64 / r
    { rs with
      minRun := if r < rs.minRun j ∨ rs.minRun j = 0 then upd rs.minRun j r else rs.minRun
      maxRun := if r > rs.maxRun j then upd rs.maxRun j r else rs.maxRun
      minBw := if bw < rs.minBw j then upd rs.minBw j bw else rs.minBw
      maxBw := if bw > rs.maxBw j then upd rs.maxBw j bw else rs.maxBw
      iobytes := upd rs.iobytes j ((rs.iobytes j + ts.bytes j) % 2 ^ 64) }

/-- /repo/stat.c:2667-2700, an entry; `rss` are `runstats` -/
def rsStep (rss : List Rs) (ts : Ts) : Option (List Rs) :=
  match ts.gid with
  | none => some rss
  | some g =>
    match rss[g]? with
    | some rs => some (rss.set g ([0, 1, 2].foldl (rsDdir ts) rs))
    | none => none

/-- /repo/stat.c:2702-2712 -/
def rsAgg (rs : Rs) : Rs :=
  { rs with agg := fun d => if d < 3 ∧ rs.maxRun d ≠ 0 then rs.iobytes d * 1000 % 2 ^ 64 / rs.maxRun d else rs.agg d }

/-- /repo/stat.c:2754-2756, what an entry is shown with -/
def show1 (rss : List Rs) (ts : Ts) : Option (Ts × Rs) :=
  match ts.gid with
  | none => none
  | some g => (rss[g]?).map fun rs => (ts, rs)

/-- /repo/stat.c:2516-2771 `__show_run_stats`; `groups` is `groupid`, the number of the last group -/
def groupsOf (groups : Nat) (tds : List Td) : Option (List Ts × List Rs) := do
  let f ← fill tds
  let rss ← f.tss.foldlM rsStep (List.replicate (groups + 1) Rs.init)
  some (f.tss, rss.map rsAgg)

def report (groups : Nat) (tds : List Td) : Option (List (Ts × Rs)) := do
  let (tss, rss) ← groupsOf groups tds
  tss.mapM (show1 rss)

end Fio.Report
