import Verif.Sub.Props
/-!
# Cases for C90
-/

namespace Fio.Sub

open Fio.Ini (Str)
open Spec

/-- An environment. -/
def exEnv : Str → Option Str := fun n => if n = "SIZE".toList then some "64k".toList else none

/-- The keywords of /repo/options.c:5899-5914 on a machine with 8 CPUs. -/
def exKws : List (Str × Str) := [("$pagesize".toList, "4096".toList), ("$mb_memory".toList, "16384".toList), ("$ncpus".toList, "8".toList)]

/-- A calculator that knows two expressions. -/
def exBc : Bc := fun s => if s = "8*2".toList then some "16\n".toList else none

/-- Variables: set, not set, not ended. -/
example : dupSubs exEnv "size=${SIZE}${NO}/${x".toList = some "size=64k/${x".toList := by decide +kernel

/-- `C90_variables_partial` applies to a text with a variable. -/
example : Subst exEnv "${SIZE}b".toList "64kb".toList :=
  .var "SIZE".toList "b".toList "b".toList (by decide)
    (.lit 'b' [] [] (by
      rintro ⟨name, r, _, h⟩
      have e : "${".toList ++ name ++ "}".toList ++ r = '$' :: ('{' :: (name ++ '}' :: r)) := by simp
      rw [e] at h
      injection h with h _
      exact absurd h (by decide)) .nil)

/-- The keywords satisfy `Kws`. -/
theorem exKws_ok : Kws exKws := by
  refine ⟨?_, ?_⟩
  · intro kv hkv
    simp only [exKws, List.mem_cons, List.not_mem_nil, or_false] at hkv
    rcases hkv with rfl | rfl | rfl
    · exact ⟨"pagesize".toList, by decide, by decide⟩
    · exact ⟨"mb_memory".toList, by decide, by decide⟩
    · exact ⟨"ncpus".toList, by decide, by decide⟩
  · have : ∀ kv ∈ exKws, kv.2 ≠ [] ∧ '$' ∉ kv.2 ∧ kv.2.length ≤ kv.1.length ∧ ∀ kv' ∈ exKws, ∀ c ∈ kv.2, c ∉ kv'.1 := by decide +kernel
    exact this

example : expand exKws 0 "a=$ncpus,$pagesize,$ncpu$ncpus".toList = "a=8,4096,$ncpu8".toList := by decide +kernel
example : keywords exKws exBc "a=$ncpus,$pagesize,$ncpu$ncpus".toList = .text "a=8,4096,$ncpu8".toList := by decide +kernel
theorem C90_case : subText exEnv exKws exBc "iodepth=$ncpus*2".toList = .text "iodepth=16".toList := by decide +kernel

/-- The hypotheses of `C90_math`. -/
example : bcCalc exBc ("iodepth".toList ++ '=' :: "8*2".toList) = some ("iodepth".toList ++ '=' :: "16".toList) :=
  C90_math exBc "iodepth".toList "8*2".toList "16".toList (by decide) (by decide) (by decide) (by decide) (by decide) (by decide +kernel) (by decide)

example : bcCalc exBc "a='1+1'".toList = some "a='1+1'".toList := C90_no_math _ _ (by decide)

/-- The hypotheses of `C90_no_answer`. -/
example : bcCalc exBc ("iodepth".toList ++ '=' :: "8*".toList) = none :=
  C90_no_answer exBc "iodepth".toList "8*".toList (by decide) (by decide) (by decide) (by decide) (by decide) (by decide +kernel)

/-- Tables: fio knows `rw` and `bs`, the engine `hipri`; `bs=x` is not accepted. -/
def exT : Tables where
  core := fun n => n = "rw".toList || n = "bs".toList
  eng := some fun n => n = "hipri".toList
  accept := fun c => c.val ≠ some "x".toList
  load := true

theorem exOpts_ok : ∀ o ∈ [(⟨"hipri".toList, none⟩ : Opt), ⟨"rw".toList, some "read=;#".toList⟩], o.Ok := by
  intro o ho
  simp only [List.mem_cons, List.not_mem_nil, or_false] at ho
  rcases ho with rfl | rfl
  · exact ⟨by decide, by decide, by decide, by decide, fun c h => by
      have : c = 'i' := by simpa using h.symm
      subst this; decide⟩
  · exact ⟨by decide, by decide, by decide, by decide, fun c h => by
      have : c = 'w' := by simpa using h.symm
      subst this; decide⟩

theorem C90_parse_case : parseOpts exT id (["hipri".toList, "rw=read=;#".toList].map .text) =
    ([⟨false, "rw".toList, some "read=;#".toList⟩, ⟨true, "hipri".toList, none⟩], true) := by decide +kernel

theorem C90_parse_fails : (parseOpts exT id (["rw=read".toList, "bs=x".toList].map .text)).2 = false ∧
    (parseOpts exT id (["no=1".toList].map .text)).2 = false ∧
    (parseOpts { exT with load := false } id (["hipri=1".toList].map .text)).2 = false ∧
    (parseOpts { exT with eng := none } id (["hipri=1".toList].map .text)).2 = false := by decide +kernel

/-! ## What is not so -/

/-- A value for which there is no room is left out, without a word (/repo/options.c:6034-6038). -/
theorem C90_long_value_counterexample :
    dupSubs (fun _ => some (List.replicate 8191 'x')) "a=${X}b".toList = some "a=b".toList := by decide +kernel

/-- And a text that gets too long is cut off (/repo/options.c:6022). -/
theorem C90_cut_counterexample :
    (dupSubs (fun _ => some (List.replicate 8192 'x')) "${X}b".toList).map (fun s => decide ('b' ∈ s)) = some false := by decide +kernel

/-- A value longer than the keyword is written behind the memory taken (/repo/options.c:6067, 6077): the number of CPUs is -1 if it cannot be
told. -/
theorem C90_overflow_counterexample : keywords [("$ncpus".toList, "18446744073709551615".toList)] exBc "numjobs=$ncpus".toList = .crash := by
  decide +kernel

/-- An option with a `/` or `-` beside the keyword is given to the calculator, and lost if it has no answer. -/
theorem C90_path_counterexample : subText exEnv exKws exBc "directory=/tmp/run-$ncpus".toList = .dropped ∧
    (parseOpts exT id [.dropped]).2 = false := by decide +kernel

/-- An option for the engine with a blank before the `=` gets the end of its value twice (/repo/parse.c:1226-1233). -/
theorem C90_blank_counterexample : parseOpts exT id [.text "hipri =1".toList] = ([⟨true, "hipri".toList, some "11".toList⟩], true) := by
  decide +kernel

end Fio.Sub
