import Verif.Dp.Props
/-!
# Cases of data placement, and where the code fails (C87)
-/

namespace Fio.Dp

open Spec

/-- `dataplacement_ids=4,1-2` -/
example : usable [(4, none), (1, some 2)] ∧ named [(4, none), (1, some 2)] = [4, 1, 2] := by
  refine ⟨⟨by decide, by decide, by decide⟩, by decide⟩

example : optIds [(4, none), (1, some 2)] = some [1, 2, 4] := by
  simp [optIds, parseIds, addRange, List.mergeSort, List.MergeSort.Internal.splitInTwo]

example : ¬ usable [(0, some 128)] ∧ optIds [(0, some 128)] = none := by
  have h : ¬ usable [(0, some 128)] := fun h => absurd h.2.2 (by decide +kernel)
  exact ⟨h, (C87_option _).2 h⟩

/-- A device with three ids. -/
def dev : Ans := ⟨3, [7, 8, 9]⟩

example : steady dev dev ∧ initInfo .fdp [] (some dev) (some dev) = .ok ⟨3, 0, [7, 8, 9]⟩ ∧
    initInfo .fdp [0, 2] (some dev) (some dev) = .ok ⟨2, 0, [7, 9]⟩ ∧ initInfo .fdp [0, 3] (some dev) (some dev) = .err := by
  refine ⟨⟨rfl, rfl⟩, by decide, by decide, by decide⟩

/-- A file with these ids and a scheme of two entries that overlap. -/
def file : File := ⟨some ⟨3, 0, [7, 8, 9]⟩, [⟨0, 100, 1⟩, ⟨50, 200, 2⟩]⟩

example : (fills .fdp .rr file [⟨.write, 0, 0⟩, ⟨.read, 0, 0⟩, ⟨.write, 0, 0⟩, ⟨.write, 0, 0⟩, ⟨.write, 0, 0⟩]).map (·.2) =
    some [⟨2, 7⟩, ⟨0, 0⟩, ⟨2, 8⟩, ⟨2, 9⟩, ⟨2, 7⟩] := by decide

example : (fills .streams .scheme file [⟨.write, 60, 0⟩, ⟨.write, 100, 0⟩, ⟨.write, 200, 0⟩]).map (·.2) =
    some [⟨1, 1⟩, ⟨1, 2⟩, ⟨1, 0⟩] := by decide

example : (fills .fdp .random file [⟨.write, 60, 2⟩, ⟨.write, 100, 0⟩]).map (·.2) = some [⟨2, 9⟩, ⟨2, 7⟩] := by decide

/-- **C87 (counterexample).**  A device without ids is accepted, and the first write reads past the end of the array, both turn about
and at random (/repo/dataplacement.c:229-233,257-258). -/
theorem C87_empty_counterexample :
    ∃ a : Ans, steady a a ∧ ∃ i, initInfo .fdp [] (some a) (some a) = .ok i ∧
      fill .fdp .rr ⟨some i, []⟩ .write 0 0 = none ∧ ∀ d, fill .fdp .random ⟨some i, []⟩ .write 0 d = none :=
  ⟨⟨0, []⟩, ⟨rfl, rfl⟩, ⟨0, 0, []⟩, rfl, rfl, fun _ => rfl⟩

/-- **C87 (counterexample).**  A device that names more ids in the second answer makes `init_ruh_info` read past the end. -/
theorem C87_unsteady_counterexample : ∃ a1 a2, initInfo .fdp [] (some a1) (some a2) = .oob :=
  ⟨⟨1, [7]⟩, ⟨2, [7, 8]⟩, rfl⟩

/-- **C87 (counterexample).**  When a log is replayed, opening one file starts the turns of all others anew: two writes in a row to the
same file get the same id, though there are three. -/
theorem C87_restart_counterexample :
    ∃ (f g : File) (get : Nat → Res) (f1 f2 g2 : File) (o1 o2 : Out), dpInit get 0 [f, g] = some [f, g] ∧
      fill .fdp .rr f .write 0 0 = some (f1, o1) ∧ dpInit get 0 [f1, g] = some [f2, g2] ∧
      (fill .fdp .rr f2 .write 0 0).map (·.2) = some o2 ∧ o1 = o2 ∧
      (fill .fdp .rr f1 .write 0 0).map (·.2) ≠ some o1 :=
  ⟨file, file, fun _ => .ok ⟨3, 0, [7, 8, 9]⟩, { file with info := some ⟨3, 1, [7, 8, 9]⟩ }, file, file, ⟨2, 7⟩, ⟨2, 7⟩,
    by decide, by decide, by decide, by decide, rfl, by decide⟩

/-- **C87.**  From the start to the units: with ids of the device, turn about serves all of them in its order. -/
theorem C87_rr_device (a1 a2 : Ans) (h : steady a1 a2) (hpos : 0 < a2.num) (us : List Unit_) (sch : List Entry) :
    ∃ i, initInfo .fdp [] (some a1) (some a2) = .ok i ∧ ∃ f' os, fills .fdp .rr ⟨some i, sch⟩ us = some (f', os) ∧
      os.length = us.length ∧ ∀ k (hk : k < us.length), us[k].dir = .write →
        ∃ p, rrAt (a2.pids.take 128) us k = some p ∧ os[k]? = some ⟨2, p⟩ := by
  have h1 := C87_device a1 a2 h
  have h2 := C87_started _ _ _ _ _ h1
  refine ⟨_, h1, ?_⟩
  exact C87_rr .fdp _ _ us rfl h2.1 h2.2 (by simp; omega)

/-- **C87.**  Only the first 32 entries of a scheme count. -/
theorem C87_scheme_file (lines : List Entry) : (initScheme lines).length ≤ 32 ∧ (initScheme lines) <+: lines := by
  unfold initScheme
  exact ⟨by simp; omega, List.take_prefix _ _⟩

end Fio.Dp
