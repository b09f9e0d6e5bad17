import Verif.Sqe.Props

namespace Fio.Sqe

open Spec

/-- No options. -/
def exO : Opts := ⟨false, false, false, false, false, false, false, false, 0, 0, 2⟩

/-- A file. -/
def exF : File := ⟨7, 2, 4096, 8192⟩

/-- A unit in place 3. -/
def exU (d : Ddir) : IoU := ⟨3, d, 0x10000, 512, 1024, 0xabc, 0xdef⟩

/-- What an entry for `d` means after those of `ds` in the same place. -/
def after (o : Opts) (f : File) (ds : List Ddir) (d : Ddir) : Req :=
  means (preps o 0x5000 (ds.map (fun d => (f, exU d)) ++ [(f, exU d)]))
    ((preps o 0x5000 (ds.map (fun d => (f, exU d)) ++ [(f, exU d)])).sqes 3)

/-- A sync after an `fdatasync` in the same place is a data sync only: the flag is never cleared. -/
theorem C84_datasync_counterexample :
    after exO exF [.datasync] .sync = .fsync true ∧ asked exO exF (exU .sync) = .fsync false := by decide

/-- A sync after a write with `nowait`, uncached, or atomic in the same place is rejected, and so is one after a write with
registered buffers unless it is the first place. -/
theorem C84_flags_counterexample :
    after { exO with nowait := true } exF [.write] .sync = .rejected ∧
    after { exO with uncached := true } exF [.write] .datasync = .rejected ∧
    after { exO with oatomic := true } exF [.write] .sync = .rejected ∧
    after { exO with fixedbufs := true } exF [.write] .sync = .rejected ∧
    after exO exF [.syncRange] .sync = .rejected := by decide

/-- A sync of a range after a write or a trim in the same place is rejected: the address is never cleared. -/
theorem C84_range_counterexample :
    after exO exF [] .syncRange = .syncRange 4096 4096 2 ∧ after exO exF [.write] .syncRange = .rejected ∧
    after exO exF [.trim] .syncRange = .rejected ∧ after exO exF [.write, .sync] .syncRange = .syncRange 4096 4096 2 := by decide

/-- A range of 4 GiB is passed as length 0 (up to the end of the file), one of 4 GiB and a block as one block. -/
theorem C84_length_counterexample :
    after exO { exF with firstWrite := 0, lastWrite := 2 ^ 32 } [] .syncRange = .syncRange 0 0 2 ∧
    after exO { exF with firstWrite := 0, lastWrite := 2 ^ 32 + 4096 } [] .syncRange = .syncRange 0 4096 2 := by decide +kernel

/-- A trim the kernel refuses is reported without an error, with nothing done. -/
theorem C84_trim_counterexample : event .trim 4096 (-5) = ⟨0, 4096, true⟩ := by decide

example : after exO exF [.datasync, .trim] .read = .rw false [(0x10000, 512)] 1024 false false false 0 none none := by decide
example : after { exO with fixedbufs := true, nowait := true, md := true } exF [.trim] .write =
    .rw true [(0x10000, 512)] 1024 false true false 0 (some 3) (some 0xdef) := by decide
example : after exO exF [.write, .datasync] .trim = .discard 1024 512 := by decide
example : Clean exO 3 [(exF, exU .write), (exF, exU .sync), (exF, exU .trim)] :=
  ⟨rfl, rfl, rfl, rfl, by decide, by decide⟩
example : [0, 1, 2, 3, 4, 5].map (fun n => ((preps { exO with forceAsync := 3 } 0
    (List.replicate n (exF, exU .read) ++ [(exF, exU .read)])).sqes 3).flags) = [0, 0, 16, 0, 0, 16] := by decide
example : event .read 4096 (-5) = ⟨5, 0, false⟩ := by decide
example : event .read 4096 1000 = ⟨0, 3096, false⟩ := by decide
example : event .trim 4096 0 = ⟨0, 0, false⟩ := by decide
example : cmdEvent (-5) none false = (5, false) ∧ cmdEvent 0x281 none false = (0x281, true) := by decide

end Fio.Sqe
