import Verif.Du.Props
/-!
# Cases for C94
-/

namespace Fio.Du

open Spec

def exK (n : Nat) : Kernel := ⟨n, 2 * n, 3 * n, 4 * n, 5 * n, 6 * n, 7 * n, 8 * n, 3, 9 * n, 10 * n⟩

/-- The hypotheses of `C94_counts_partial`, with a counter of times that wraps: 8 * 600000000 is more than 2^32. -/
theorem C94_case :
    (polls (new (some ((exK 500000000).line (2 ^ 32) [])) 0) ([(0, exK 600000000, [7], 250000), (1, exK 600000001, [], 500000)].map (look (2 ^ 32)))).acc .wticks =
      8 * 100000001 ∧ (8 * 600000000) % 2 ^ 32 < (8 * 500000000) % 2 ^ 32 := by decide +kernel
example : Chain (exK 500000000) [(0, exK 600000000, [7], 250000), (1, exK 600000001, [], 500000)] :=
  ⟨fun f => by cases f <;> decide, fun f => by cases f <;> decide, trivial⟩

/-- `C94_time_partial`: three quarters of a second. -/
example : Times 0 [(0, exK 1, [], 250000), (0, exK 2, [], 500000), (0, exK 3, [], 750000)] := ⟨by decide, by decide, by decide, trivial⟩

/-- `C94_users_partial`: a disk is opened twice and closed once. -/
example : ∀ e ∈ [(1, true), (2, true), (1, true), (1, false)], (({} : St).hook e.1) = none := fun _ _ => rfl
example : opens 1 [(1, true), (2, true), (1, true), (1, false)] = 1 := by decide

/-- `C94_parts_partial`: disk 9 of disks 1 and 2. -/
def exSub : Nat → List Nat := fun d => if d = 9 then [1, 2] else []
theorem C94_parts_case : (add exSub 5 {} 9).slaves 9 = [1, 2] ∧ (add exSub 5 {} 9).users 1 = 1 ∧ (add exSub 5 {} 9).known = [9, 1, 2] := by decide

/-- `C94_raid_partial`. -/
def exDisks : Nat → Disk := fun e => ⟨fun _ => e + 10, 5, fun _ => 0, 0⟩
theorem C94_raid_case : (prints exDisks [1, 2] 1).1 .rios = 23 := by decide

/-! ## What is not so -/

/-- The last look comes after the files are closed (/repo/backend.c:2924), when the disk has no user, and is skipped: a job that ends before
the first look of the helper thread (250 ms) is reported with nothing, however much it did. -/
theorem C94_short_counterexample (k k' : Kernel) (t t' : Nat) (f : F) :
    (polls (new (some (k.line (2 ^ 32) [])) t) [⟨0, some (k'.line (2 ^ 32) []), t'⟩]).acc f = 0 := rfl

/-- And in general all that comes after the last look with a user. -/
theorem C94_tail_counterexample (d : Disk) (k : Kernel) (t : Nat) : polls d [⟨0, some (k.line (2 ^ 32) []), t⟩] = d := rfl

/-- If the first reading fails, all that was counted since the system was started is reported. -/
theorem C94_first_counterexample : (polls (new none 0) [look (2 ^ 32) (0, exK 1000, [], 250000)]).acc .rios = 1000 := by decide +kernel

/-- Looks every 250.9 ms lose time: after 10 of them 2500 of 2509 ms. -/
theorem C94_time_counterexample :
    (polls (new (some ((exK 0).line (2 ^ 32) [])) 0) ((List.range 10).map fun i => look (2 ^ 32) (0, exK 0, [], 250900 * (i + 1)))).msec = 2500 := by
  decide +kernel

/-- A part of two disks is a part only of the first; so is one that a file was on before. -/
theorem C94_known_part_counterexample :
    (add (fun d => if d = 8 then [1] else exSub d) 5 (add (fun d => if d = 8 then [1] else exSub d) 5 {} 9) 8).slaves 8 = [] := by decide

/-- A file on disk 1 when disk 9 is known. -/
theorem C94_part_open_counterexample : (mods (add exSub 5 {} 9) [(1, true)]).isNone := by decide

/-- Printed as JSON and as text: twice as much in the text. -/
theorem C94_twice_counterexample : (prints exDisks [1, 2] 2).1 .rios = 46 ∧ (prints exDisks [1, 2] 2).2 = 4 := by decide

end Fio.Du
