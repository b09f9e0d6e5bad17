import Verif.Sg.Props
/-!
# Cases for C91
-/

namespace Fio.Sg

open Spec

/-- A read of two blocks at 5 with FUA. -/
theorem C91_case : prep { readfua := true } 512 .read (5 * 512) 1024 =
    some ⟨[0x28, 8, 0, 0, 0, 5, 0, 0, 2, 0, 0, 0, 0, 0, 0, 0], .fromDev, 1024⟩ := by decide +kernel

/-- The hypotheses of `C91_command_partial` with a long command: more blocks than sixteen bits. -/
example : Fits {} .write (2 ^ 33) 100000 := Or.inr ⟨by decide, Or.inl ⟨by decide, by simp⟩⟩
example : Fits { mode := .writeSameNdob } .write 7 100000 := Or.inr ⟨by decide, Or.inr ⟨rfl, rfl⟩⟩
example : Fits { mode := .writeStream, stream := 3 } .write 7 100 := Or.inl (by decide)
example : ∃ c, prep { mode := .verify11 } (2 ^ 12) .write (7 * 2 ^ 12) (3 * 2 ^ 12) = some c ∧ decode c.cdb = some (.verify 7 3 3) ∧
    (c.dir, c.len) = (.toDev, 2 ^ 12) := C91_command_partial { mode := .verify11 } 12 .write 7 3 (by decide) (Or.inl (by decide)) (by decide)

/-- `C91_unaligned_partial`. -/
example : prep {} (2 ^ 9) .read 0 513 = none := C91_unaligned_partial {} 9 .read 0 513 (by decide)

/-- Three trims. -/
def exUs : List Unit := [⟨2, 0, 512, 1024⟩, ⟨0, 0, 1024 * 512, 512⟩, ⟨1, 0, 0, 2048⟩]

/-- `C91_trims_partial` applies to them. -/
example : ∃ s' s'' x, prepAll 4 (2 ^ 9) (init 4) exUs = some s' ∧ commit s' false = (s'', some x, []) ∧
    ranges x.data = some [(1, 2), (1024, 1), (0, 4)] := by
  obtain ⟨s', s'', x, h1, h2, _, _, _, h3, _⟩ := C91_trims_partial 4 9 (init 4) ⟨2, 0, 512, 1024⟩ [⟨0, 0, 1024 * 512, 512⟩, ⟨1, 0, 0, 2048⟩]
    rfl (init_holds 4 _ 2) (by decide) (by decide) (by decide) (by decide) (by decide)
  exact ⟨s', s'', x, h1, h2, by rw [h3]; decide +kernel⟩

/-- Queues in flight: unit 2 stands for the three trims. -/
def exQs : Nat → Queue := fun i => if i = 2 then ⟨3, exUs, []⟩ else ⟨0, [], []⟩

/-- The hypotheses of `C91_events_partial`: a read, the trims (with an error), a read. -/
example : InFlight (fun u => u == 2) exQs [(5, false), (2, true)] :=
  ⟨by decide, by decide, by decide, by decide⟩
example : Enough (weight (fun u => u == 2) exQs) 3 [(5, false), (2, true)] := by
  refine ⟨by decide, ?_⟩
  intro a h b e
  match a, e with
  | [], _ => decide
  | [x], e => injection e with e1 e; rw [← e1]; decide
  | x :: y :: a, e => injection e with _ e; injection e with _ e; cases a <;> cases e

theorem C91_events_case : (getevents (fun u => u == 2) 2 3 exQs [[.hdr 5 false, .hdr 2 true, .hdr 6 false]]).map
    (fun r => (r.1, (r.2.1 2).cnt, r.2.2.2)) = some (4, 0, [[.hdr 6 false]]) ∧
    ((getevents (fun u => u == 2) 2 3 exQs [[.hdr 5 false, .hdr 2 true, .hdr 6 false]]).map
    fun r => ((List.range 5).map r.2.2.1.ev, r.2.2.1.bad)) = some ([some 5, some 2, some 0, some 1, none], [2, 0, 1]) := by decide +kernel

/-- `C91_sync_partial`. -/
example : syncWait (fun _ => false) 3 [.hdr 1 false, .hdr 2 false, .hdr 3 true] = some ⟨[1, 2], true, []⟩ :=
  C91_sync_partial (fun _ => false) 3 [1, 2] true [] (by decide)

/-- A device of more than 2 TiB. -/
example : readCapacity (.bytes (be 4 (min (2 ^ 33) 0xFFFFFFFF) ++ be 4 512)) (.bytes (be 8 (2 ^ 33) ++ be 4 512 ++ [])) = some (512, 2 ^ 33) :=
  C91_capacity_partial (2 ^ 33) 512 [] _ (by decide) (by decide) (Or.inr rfl)

example : fileSize (fun _ => (.check, .bytes (be 8 7 ++ be 4 4096 ++ [1, 2]))) 0 = some (8 * 4096) :=
  C91_size_partial _ 7 4096 [1, 2] (by decide) (by decide) (Or.inl rfl) rfl

/-! ## What is not so -/

/-- The number of blocks is cut to sixteen bits (/repo/engines/sg.c:525): a read of 32 MiB reads nothing. -/
theorem C91_long_read_counterexample : (prep {} 512 .read 0 (65536 * 512)).bind (fun c => decode c.cdb) = some (.read 0 0 false) := by
  decide +kernel

/-- A WRITE SAME of 32 MiB is one up to the end of the device (no data to transfer limits it), of 32 MiB and a block one of one block. -/
theorem C91_write_same_counterexample :
    (prep { mode := .writeSame } 512 .write (9 * 512) (65536 * 512)).map (fun c => (decode c.cdb, c.len)) = some (some (.writeSame 9 0 false), 512) ∧
    (prep { mode := .writeSame } 512 .write (9 * 512) (65537 * 512)).map (fun c => (decode c.cdb, c.len)) = some (some (.writeSame 9 1 false), 512) := by
  decide +kernel

/-- A verify of 32 MiB verifies nothing. -/
theorem C91_verify_counterexample :
    (prep { mode := .verify00 } 512 .write (9 * 512) (65536 * 512)).map (fun c => (decode c.cdb, c.len)) = some (some (.verify 9 0 0), 0) := by
  decide +kernel

/-- A place that is not at a block is rounded down without an error. -/
theorem C91_offset_counterexample : (prep {} 4096 .write 2048 4096).bind (fun c => decode c.cdb) = some (.write 0 1 false) := by decide +kernel

/-- Blocks of 520 bytes: a whole block is refused, 1024 bytes are accepted with a command for one block (/repo/engines/sg.c:542). -/
theorem C91_520_counterexample : prep {} 520 .read 0 520 = none ∧
    (prep {} 520 .read 0 1024).map (fun c => (decode c.cdb, c.len)) = some (some (.read 0 1 false), 1024) := by decide +kernel

/-- Trims of two files are sent to the first: the range of file 1 is trimmed on file 0. -/
theorem C91_two_files_counterexample : ((prepAll 4 512 (init 4) [⟨0, 0, 0, 512⟩, ⟨1, 1, 5120, 512⟩]).bind fun s => (commit s false).2.1).map
    (fun x => (x.file, ranges x.data)) = some (0, some [(0, 1), (10, 1)]) := by decide +kernel

/-- With 4096 trims the length is zero in sixteen bits: no range is sent, all units count as trimmed. -/
theorem C91_many_trims_counterexample (us : List Unit) (p : List Nat) (h : p.length = 16 * 4097) :
    ((unmapSetup ⟨4096, us, p⟩).2.1.take (unmapSetup ⟨4096, us, p⟩).2.2).length = 8 ∧
    ranges ((unmapSetup ⟨4096, us, p⟩).2.1.take (unmapSetup ⟨4096, us, p⟩).2.2) = some [] := by
  have b1 : 0 + (be 2 6).length ≤ p.length := by simp; omega
  have l1 := put_len p (be 2 6) 0 b1
  have b2 : 2 + (be 2 0).length ≤ (put p 0 (be 2 6)).length := by rw [l1]; simp; omega
  have l2 := put_len _ (be 2 0) 2 b2
  have hL : ((put (put p 0 (be 2 6)) 2 (be 2 0)).take 8).length = 8 := by rw [List.length_take, l2, l1]; omega
  have e : unmapSetup ⟨4096, us, p⟩ = (put (put zero16 0 [0x42]) 7 (be 2 8), put (put p 0 (be 2 6)) 2 (be 2 0), 8) := by
    unfold unmapSetup
    dsimp only
  rw [e]
  simp only
  refine ⟨hL, ?_⟩
  have s0 : slice ((put (put p 0 (be 2 6)) 2 (be 2 0)).take 8) 0 2 = be 2 6 := by
    rw [slice_take _ _ _ _ (by omega), slice_put_other _ _ _ _ _ b2 (by left; omega)]
    have := slice_put_same _ _ _ b1
    rwa [be_len] at this
  have s2 : slice ((put (put p 0 (be 2 6)) 2 (be 2 0)).take 8) 2 2 = be 2 0 := by
    rw [slice_take _ _ _ _ (by omega)]
    have := slice_put_same _ _ _ b2
    rwa [be_len] at this
  unfold ranges
  rw [s0, s2, hL, if_pos (by decide), show val (be 2 0) / 16 = 0 by decide]
  rfl

/-- After a failed commit the ranges stay in the queue (/repo/engines/sg.c:776-795): the next trim with that unit trims the old ranges again. -/
theorem C91_failed_commit_counterexample :
    (((prepAll 4 512 (init 4) [⟨0, 0, 0, 512⟩, ⟨1, 0, 5120, 512⟩]).bind fun s => prepAll 4 512 (commit s true).1 [⟨0, 0, 20480, 512⟩]).bind
      fun s => (commit s false).2.1).map (fun x => ranges x.data) = some (some [(0, 1), (10, 1), (40, 1)]) := by decide +kernel

/-- An error of the read after a completion: the completion is lost, the number returned means nothing. -/
theorem C91_read_error_counterexample : (getevents (fun _ => false) 5 2 exQs [[.hdr 5 false, .err 11, .hdr 6 false]]).map
    (fun r => (r.1, r.2.2.2)) = some (-10, [[.hdr 6 false]]) := by decide +kernel

/-- Two files, one unit in flight on the second: never. -/
theorem C91_second_file_counterexample (n : Nat) : getevents (fun _ => false) n 1 exQs [[], [.hdr 5 false]] = none :=
  C91_files_block_counterexample (fun _ => false) n 1 exQs [] [[.hdr 5 false]] [] (by decide)

/-- While waiting for a synchronous command: of an unmap of three units only the first is completed. -/
theorem C91_sync_trims_counterexample : (syncWait (fun _ => false) 7 [.hdr 2 false, .hdr 7 false]).map (·.completed) = some [2] ∧
    unitsOf (fun u => u == 2) exQs 2 = [2, 0, 1] := by decide +kernel

/-- And an error of another unit ends the wait: the own one is reported complete while the device still works on it. -/
theorem C91_sync_error_counterexample : syncWait (fun _ => false) 7 [.hdr 5 true, .hdr 7 false] = some ⟨[5], false, [.hdr 7 false]⟩ := by
  decide +kernel

/-- The second file gets the size of the first. -/
theorem C91_second_size_counterexample : fileSize (fun i => (.bytes (be 4 (if i = 0 then 99 else 9) ++ be 4 512), .check)) 1 = some (100 * 512) := by
  decide +kernel

end Fio.Sg
