import Verif.Ini.Props
/-!
# Cases for C89
-/

namespace Fio.Ini

open Spec

/-- Some files. -/
def exFs (f : Str) : Option Str :=
  if f = "d/a.fio".toList then some "; jobs\n[global]\nbs=4k  # blocks\n\tinclude c.fio\n\n[one]\nrw=read\n [two] ; second\nrw=write\nsize=1m".toList
  else if f = "d/c.fio".toList then some "\n# common\ndirect=1 \n".toList
  else if f = "b.fio".toList then some "[three]\nrw=trim\n[four]\nrw=read\n".toList
  else if f = "miss.fio".toList then some "[a]\nrw=read\ninclude no.fio\n[b]\nrw=write\n".toList
  else if f = "sect.fio".toList then some "[a]\nrw=read\ninclude b.fio\n[b]\nrw=write\n".toList
  else if f = "none.fio".toList then some "[a]\nrw=read\ninclude empty.fio\n".toList
  else if f = "empty.fio".toList then some "# nothing\n".toList
  else if f = "g.fio".toList then some "[globaltest]\nrw=read\n[open\nfilename=/dev/disk#1\n".toList
  else none

def exE : Env := { fs := exFs, accept := fun _ => true, sections := [] }

def exSs : List Sect :=
  [⟨"global".toList, ["bs=4k".toList, "include c.fio".toList], ["bs=4k".toList, "direct=1".toList]⟩,
    ⟨"one".toList, ["rw=read".toList], ["rw=read".toList]⟩,
    ⟨"two".toList, ["rw=write".toList, "size=1m".toList], ["rw=write".toList, "size=1m".toList]⟩]

/-- The job file as it should be read. -/
theorem C89_case : parse exE false 10 true "d/a.fio".toList = .ret true
    [⟨"global".toList, true, ["bs=4k".toList, "direct=1".toList], false, []⟩,
      ⟨"one".toList, false, ["rw=read".toList], true, ["bs=4k".toList, "direct=1".toList]⟩,
      ⟨"two".toList, false, ["rw=write".toList, "size=1m".toList], false, ["bs=4k".toList, "direct=1".toList]⟩] := by decide +kernel

theorem exText : ∃ t, exFs "d/a.fio".toList = some t ∧ short t ∧ kept (lines t) = exSs.flatMap Sect.lines :=
  ⟨_, rfl, by unfold short; decide +kernel, by decide +kernel⟩

theorem exExpand : Expand exFs 1 "d/a.fio".toList ["bs=4k".toList, "include c.fio".toList] ["bs=4k".toList, "direct=1".toList] := by
  refine .opt _ _ _ _ _ (by decide) (by decide) ?_
  refine .inc 0 _ ' ' "c.fio".toList "d/c.fio".toList "\n# common\ndirect=1 \n".toList [] ["direct=1".toList] [] ?_ rfl
    (by unfold short; decide +kernel) (by decide +kernel) ?_ (.nil _ _)
  · exact Names.beside "d".toList "a.fio".toList (by decide +kernel) rfl (by decide)
  · have : kept (lines "\n# common\ndirect=1 \n".toList) = ["direct=1".toList] := by decide +kernel
    rw [this]
    exact .opt _ _ _ _ _ (by decide) (by decide) (.nil _ _)

/-- The hypotheses of `C89_file_partial` and `C89_files_partial` can be met. -/
theorem exOk : FileOk exE 1 "d/a.fio".toList exSs := by
  refine ⟨exText, ?_⟩
  intro s hs
  simp only [exSs, List.mem_cons, List.not_mem_nil, or_false] at hs
  rcases hs with rfl | rfl | rfl
  · exact ⟨by decide, by decide, by decide, fun _ => exExpand⟩
  · exact ⟨by decide, by decide, by decide, fun _ => .opt _ _ _ _ _ (by decide) (by decide) (.nil _ _)⟩
  · exact ⟨by decide, by decide, by decide,
      fun _ => .opt _ _ _ _ _ (by decide) (by decide) (.opt _ _ _ _ _ (by decide) (by decide) (.nil _ _))⟩

example : (∀ w, ∀ j ∈ jobs w [] exSs, exE.accept j = true) := fun _ _ _ => rfl

/-- Those of `C89_buffer_partial`. -/
example : ∀ s ∈ [(⟨"a".toList, ["x=1".toList], ["x=1".toList]⟩ : Sect)], Good (fun _ => none) 0 [] [] s := by
  intro s hs
  simp only [List.mem_cons, List.not_mem_nil, or_false] at hs
  subst hs
  exact ⟨by decide, by decide, by decide, fun _ => .opt _ _ _ _ _ (by decide) (by decide) (.nil _ _)⟩

/-- One section chosen; the global one counts all the same. -/
theorem C89_chosen : parse { exE with sections := ["two".toList] } false 10 false "d/a.fio".toList = .ret true
    [⟨"global".toList, true, ["bs=4k".toList, "direct=1".toList], false, []⟩,
      ⟨"two".toList, false, ["rw=write".toList, "size=1m".toList], false, ["bs=4k".toList, "direct=1".toList]⟩] := by decide +kernel

/-- A section that is refused ends it. -/
theorem C89_refused : parse { exE with accept := fun j => j.name ≠ "one".toList } false 10 false "d/a.fio".toList = .ret false
    [⟨"global".toList, true, ["bs=4k".toList, "direct=1".toList], false, []⟩] := by decide +kernel

/-! ## What goes wrong -/

/-- **C89.**  False as stated: the error of an included file that does not exist is overwritten by the answer for the section
(/repo/init.c:2283, 2306); if the include is the last line of the section, fio runs the jobs without what was to be included. -/
theorem C89_missing_include_counterexample : parse exE false 10 false "miss.fio".toList = .ret true
    [⟨"a".toList, false, ["rw=read".toList], false, []⟩, ⟨"b".toList, false, ["rw=write".toList], false, []⟩] := by decide +kernel

/-- **C89.**  In the same way a section in an included file is reported as an error, and ignored. -/
theorem C89_section_in_include_counterexample : parse exE false 10 false "sect.fio".toList = .ret true
    [⟨"a".toList, false, ["rw=read".toList], false, []⟩, ⟨"b".toList, false, ["rw=write".toList], false, []⟩] := by decide +kernel

/-- **C89.**  An included file with only comments frees the options of the section that includes it (/repo/init.c:2152, 2349). -/
theorem C89_empty_include_counterexample : parse exE false 10 false "none.fio".toList = .crash := by decide +kernel

/-- **C89.**  In a job sent to a server an include takes the name of the file for its text (/repo/init.c:2269). -/
theorem C89_include_buffer_counterexample : parse exE true 10 false "[a]\ninclude b.fio\nrw=read".toList = .ret true
    [⟨"a".toList, false, ["b.fio".toList, "rw=read".toList], false, []⟩] := by decide +kernel

/-- **C89.**  And if it is the last line and there is no such file, `strrchr` gets a null pointer (/repo/init.c:2259). -/
theorem C89_include_buffer_last_counterexample : parse exE true 10 false "[a]\nrw=read\ninclude no.fio".toList = .crash := by decide +kernel

/-- **C89.**  Sections chosen on the command line are forgotten after the first file. -/
theorem C89_chosen_second_counterexample : parseAll { exE with sections := ["two".toList] } 10 false ["d/a.fio".toList, "b.fio".toList] = .ret true
    [⟨"global".toList, true, ["bs=4k".toList, "direct=1".toList], false, []⟩,
      ⟨"two".toList, false, ["rw=write".toList, "size=1m".toList], false, ["bs=4k".toList, "direct=1".toList]⟩,
      ⟨"three".toList, false, ["rw=trim".toList], true, []⟩, ⟨"four".toList, false, ["rw=read".toList], false, []⟩] := by decide +kernel

/-- **C89.**  A section whose name begins with `global` is no job; a name without the closing bracket loses its last character; a value
cannot contain `#`. -/
theorem C89_names_counterexample : parse exE false 10 false "g.fio".toList = .ret true
    [⟨"globaltest".toList, true, ["rw=read".toList], false, []⟩,
      ⟨"ope".toList, false, ["filename=/dev/disk".toList], false, ["rw=read".toList]⟩] := by decide +kernel

/-- **C89.**  A line too long for the buffer becomes two. -/
theorem C89_long_line_counterexample : (linesOf false (List.replicate 8191 'a' ++ "b\n".toList)).length = 2 := by decide +kernel

/-- A case for `C89_files_stop`: a file that is not there, before one that is. -/
example : parse exE false 10 false "no.fio".toList = .ret false [] := by decide +kernel
theorem C89_stop : parseAll exE 10 false ["no.fio".toList, "b.fio".toList] = .ret false [] := by decide +kernel

/-- A case for `C89_files_all`. -/
example : ∃ js, parseAll exE 1 false ["d/a.fio".toList, "d/a.fio".toList] = .ret true js :=
  ⟨_, C89_files_partial exE 1 rfl [("d/a.fio".toList, exSs), ("d/a.fio".toList, exSs)] false
    (fun x hx => by
      simp only [List.mem_cons, List.not_mem_nil, or_false, or_self] at hx
      subst hx
      exact exOk) (fun _ _ _ _ _ => rfl)⟩

end Fio.Ini
