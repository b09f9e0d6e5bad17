import Verif.Mmap.Props

namespace Fio.Mmap

open Spec

/-- A file of which the job uses 8192 bytes from 4096 on. -/
def exC : Cfg := ⟨4096, 8192, 2 ^ 30, false⟩

/-- The same where at most 4096 bytes can be mapped at once. -/
def exP : Cfg := ⟨4096, 8192, 4096, true⟩

/-- After a failed unit the engine takes for mapped what is not: the next unit in the same place crashes. Here `mmap` fails for
the whole file and for the part. -/
theorem C85_failed_counterexample :
    (run exC (openFile id) [(.read 4096 512 512, ⟨true, false, true, false, true⟩), (.read 4096 512 512, allOk)]).2 = [.failed, .crash] ∧
    (∀ op ∈ [Op.read 4096 512 512, .read 4096 512 512], Inside exC op) := by
  refine ⟨by decide +kernel, ?_⟩
  intro op h
  simp only [List.mem_cons, List.not_mem_nil, or_false, or_self] at h
  subst h
  exact ⟨by decide, by decide, by decide⟩

/-- The same after `madvise` has failed, with a pointer to what is unmapped already, and after a unit that is too long for a part. -/
theorem C85_dangling_counterexample :
    (run exC (openFile id) [(.read 4096 512 512, ⟨true, true, false, true, false⟩), (.read 4096 512 512, allOk)]).2 = [.failed, .crash] ∧
    (run exP (openFile id) [(.read 4096 4096 512, allOk), (.read 4096 8192 8192, allOk), (.read 4096 512 512, allOk)]).2 =
      [.done (part id 4096 512), .failed, .crash] := by decide +kernel

/-- Where only parts are mapped, a sync writes back only the part mapped last: what was written before is not on the disk. -/
theorem C85_sync_counterexample :
    (run exP (openFile id) [(.write 4096 512 [1, 2, 3], allOk), (.write 8192 512 [4], allOk), (.sync 8192 512, allOk)]).1.dirty = [(4096, 3)] ∧
    (run exP (openFile id) [(.write 4096 512 [1, 2, 3], allOk), (.write 8192 512 [4], allOk), (.sync 8192 512, allOk)]).2 =
      [.done [], .done [], .done []] := by decide +kernel

/-- Every time a file is closed its mapping stays. -/
theorem C85_leak_counterexample :
    (run exC (openFile id) [(.read 4096 512 512, allOk), (.reopen, allOk), (.read 4096 512 512, allOk), (.reopen, allOk)]).1.live =
      [⟨1, 4096, 8192⟩, ⟨0, 4096, 8192⟩] := by decide +kernel

/-- Reads see what was written; also after the file has been opened again. -/
example : (run exC (openFile (fun _ => 7)) [(.write 5000 512 [1, 2], allOk), (.reopen, allOk), (.read 4999 512 4, allOk), (.sync 0 0, allOk)]).2 =
    [.done [], .done [], .done [7, 1, 2, 7], .done []] := by decide +kernel

/-- With the mapping of parts, whether the system allows it or not. -/
example : (run exP (openFile id) [(.read 4096 512 2, allOk), (.read 4700 512 2, allOk), (.read 8192 512 1, allOk)]).2 =
    [.done [4096, 4097], .done [4700, 4701], .done [8192]] := by decide +kernel
example : (run exC (openFile id) [(.read 4096 512 2, ⟨true, false, true, true, true⟩), (.read 4700 512 2, allOk)]).2 =
    [.done [4096, 4097], .done [4700, 4701]] := by decide +kernel

example : Inside exC (.write 5000 512 [1, 2]) ∧ Stays (.write 5000 512 [1, 2]) ∧ prepared (.write 5000 512 [1, 2]) ≤ exP.mapSize :=
  ⟨⟨by decide, by decide, by decide⟩, trivial, by decide⟩

end Fio.Mmap
