import Verif.Cmdprio.Props

namespace Fio.Cmdprio

open Spec

/-! `cmdprio_bssplit=4k/20:64k/50/1/3:4k/30/2/5`, the default priority 16388 (best effort, level 4). -/

def exScan : List Scan := [.perc 4096 20, .level 65536 50 1 3, .hint 4096 30 2 5 7, .bs 512]

def exParsed : List Entry := [⟨4096, -1, 20⟩, ⟨65536, 8195, 50⟩, ⟨4096, 16445, 30⟩]

def exSorted : List Entry := [⟨4096, -1, 20⟩, ⟨4096, 16445, 30⟩, ⟨65536, 8195, 50⟩]

def exDesc : List Bsprio :=
  [⟨4096, 50, [⟨8192, 20, 1⟩, ⟨16445, 30, 2⟩]⟩, ⟨65536, 50, [⟨8195, 50, 3⟩]⟩]

def exTable : List Nat := [16388, 8192, 16445, 8195]

theorem ex_parse : parse exScan = some exParsed := by decide +kernel

theorem ex_perm : exSorted.Perm exParsed := by decide +kernel

theorem ex_gen : genBssplit 16388 0 0 0 true exSorted = .ok (exDesc, some exTable) := by
  simp [genBssplit, generate, exSorted, cut, fill, fillLoop, assign, find, initValues, ioprioValue, exDesc, exTable]

def exCmdprio : Cmdprio := ⟨.bssplit, [], [exDesc, []]⟩

theorem ex_setUp : SetUp exCmdprio 0 16388 0 0 0 exSorted (some exTable) :=
  ⟨rfl, exDesc, rfl, ex_gen⟩

/-- The hypotheses of `C82_share` and the others hold for this job. -/
example : Sorted exSorted ∧ (∀ e ∈ exParsed, Valid e) ∧ exParsed.length ≤ 64 := by
  unfold Sorted Valid
  decide +kernel

example : share (implicitOf 0 0 0) exParsed 4096 8192 = 20 ∧ share (implicitOf 0 0 0) exParsed 4096 16445 = 30 ∧
    total exParsed 4096 = 50 := by decide +kernel

example : (List.range 100).map (unitPrio exCmdprio 16388 0 4096) =
    List.replicate 20 (some (8192, 1)) ++ List.replicate 30 (some (16445, 2)) ++ List.replicate 50 (some (16388, 0)) := by
  decide +kernel

/-- More than 100 percent for a size is refused. -/
example : genBssplit 16388 0 0 0 true [⟨4096, -1, 60⟩, ⟨4096, 8195, 41⟩] matches .error := by
  simp [genBssplit, generate, cut, fill, fillLoop, assign, find, initValues, ioprioValue]

/-- The engines ask for the priority of a sync (`DDIR_SYNC` is 3), and io_uring for that of a trim (2), too; both tables
have two places only (/repo/engines/cmdprio.h:12-13, /repo/engines/libaio.c:290-291, /repo/engines/io_uring.c:1252-1253). -/
theorem C82_sync_counterexample :
    (∃ c rand, SetUp c 0 16388 0 0 0 exSorted (some exTable) ∧ c.desc.length = 2 ∧ unitPrio c 16388 3 0 rand = none ∧
      unitPrio c 16388 2 4096 rand = none) ∧
    (∃ c e t rand, genPerc 16388 0 0 0 10 true = .ok (e, t) ∧ c.mode = .perc ∧ c.perc = [e, e] ∧
      unitPrio c 16388 3 0 rand = none ∧ unitPrio c 16388 2 4096 rand = none) := by
  refine ⟨⟨exCmdprio, 0, ex_setUp, rfl, by decide +kernel, by decide +kernel⟩, ?_⟩
  exact ⟨⟨.perc, [⟨8192, 10, 1⟩, ⟨8192, 10, 1⟩], []⟩, ⟨8192, 10, 1⟩, some [16388, 8192], 0, by
    simp [genPerc, assign, find, initValues, ioprioValue], rfl, rfl, by decide +kernel, by decide +kernel⟩

end Fio.Cmdprio
