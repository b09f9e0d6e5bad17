import Verif.Report.Model
/-!
# The summary of all servers, on the client (client.c)

A client connected to several servers adds up the entries of their reports and shows the sum as "All clients".  Of an entry the bytes and
runtimes by direction and its group are kept (`Report`).  `sum_stat_clients` and `sum_stat_nr` are taken as unbounded.
-/

namespace Fio.AllClients

open Fio.Report (Rs upd)

/-- An entry as it comes from a server: /repo/server.h:121-124 `struct cmd_ts_pdu` -/
structure Entry where
  bytes : Nat → Nat
  runtime : Nat → Nat
  mixed : Bool
  rs : Rs

/-- `client_ts` and `client_gs`, /repo/client.c:57-58 -/
structure Sum where
  bytes : Nat → Nat
  runtime : Nat → Nat
  mixed : Bool
  members : Nat
  rs : Rs

/-- /repo/client.c:2166-2167 -/
def Sum.init : Sum := { bytes := fun _ => 0, runtime := fun _ => 0, mixed := false, members := 0, rs := Rs.init }

/-- /repo/stat.c:2346-2373, a round of the loop of `sum_thread_stats` -/
def sumDdir (e : Entry) (s : Sum) (l : Nat) : Sum :=
  let k := if s.mixed then 0 else l
  { s with bytes := upd s.bytes k ((s.bytes k + e.bytes l) % 2 ^ 64),
           runtime := if s.runtime k < e.runtime l then upd s.runtime k (e.runtime l) else s.runtime }

/-- /repo/stat.c:2112-2124, a round of the loop of `sum_group_stats` -/
def sumGroupDdir (src dst : Rs) (i : Nat) : Rs :=
  { maxRun := if dst.maxRun i < src.maxRun i then upd dst.maxRun i (src.maxRun i) else dst.maxRun
    minRun := if dst.minRun i ≠ 0 ∧ dst.minRun i > src.minRun i then upd dst.minRun i (src.minRun i) else dst.minRun
    maxBw := if dst.maxBw i < src.maxBw i then upd dst.maxBw i (src.maxBw i) else dst.maxBw
    minBw := if dst.minBw i ≠ 0 ∧ dst.minBw i > src.minBw i then upd dst.minBw i (src.minBw i) else dst.minBw
    iobytes := upd dst.iobytes i ((dst.iobytes i + src.iobytes i) % 2 ^ 64)
    agg := upd dst.agg i ((dst.agg i + src.agg i) % 2 ^ 64) }

/-- /repo/stat.c:2108-2132 `sum_group_stats` -/
def sumGroup (dst src : Rs) : Rs := [0, 1, 2].foldl (sumGroupDdir src) dst

/-- /repo/client.c:1140-1157, an entry added -/
def addEntry (s : Sum) (e : Entry) : Sum :=
  let s := [0, 1, 2].foldl (sumDdir e) s
  { s with rs := sumGroup s.rs e.rs, members := s.members + 1, mixed := e.mixed }

/-- What the client knows: `did_stat` of each server, `sum_stat_clients`, `sum_stat_nr` (/repo/client.c:59-61), the sums, and the
summaries shown so far. -/
structure St where
  did : Nat → Bool
  expect : Int
  nr : Nat
  sum : Sum
  shown : List Sum

/-- /repo/client.c:59-61, /repo/client.c:2166-2167 -/
def St.init : St := { did := fun _ => false, expect := 0, nr := 0, sum := Sum.init, shown := [] }

/-- What comes from server `c`: `FIO_NET_CMD_START` with the number of its entries, an entry, or its end (the last reference dropped). -/
inductive Ev where
  | start (c n : Nat)
  | ts (c : Nat) (e : Entry)
  | gone (c : Nat)

/-- /repo/client.c:1587-1607 `handle_start`, /repo/client.c:1119-1167 `handle_ts`, /repo/client.c:271-272 of `fio_put_client` -/
def step (st : St) : Ev → St
  | .start _ n => { st with expect := st.expect + n }
  | .ts c e =>
    let st := { st with did := fun x => if x = c then true else st.did x }
    if st.expect ≤ 1 then st
    else
      let sum := addEntry st.sum e
      { st with sum := sum, nr := st.nr + 1, shown := if (st.nr + 1 : Int) = st.expect then st.shown ++ [sum] else st.shown }
  | .gone c => if st.did c then st else { st with expect := st.expect - 1 }

/-- /repo/client.c:2169-2238, the loop of `fio_handle_clients`: everything that comes, in order -/
def run (evs : List Ev) : St := evs.foldl step St.init

/-- A section of a job file, as the server counts it: `numjobs`, `group_reporting`, its group. -/
structure Section where
  numjobs : Nat
  grp : Bool
  gid : Nat

/-- /repo/init.c:532-533 of `get_new_job`, for the job of the section itself (its parent is `def_thread`) and for its clones
(/repo/init.c:1967-1972): `stat_number`, which /repo/server.c:891, 969, 1010 announces -/
def announced (ss : List Section) : Nat :=
  ss.foldl (fun n s => (List.replicate (s.numjobs - 1) ()).foldl (fun n _ => if s.grp = false then n + 1 else n) (n + 1)) 0

/-- The jobs of the sections, with statistics: /repo/init.c:1961-2000 -/
def jobs (ss : List Section) : List Report.Td :=
  ss.flatMap fun s =>
    List.replicate s.numjobs { stats := true, grp := s.grp, gid := s.gid, mixed := false, bytes := fun _ => 0, runtime := fun _ => 0 }

end Fio.AllClients
