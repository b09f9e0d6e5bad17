import Verif.Dedupe.More

namespace Fio.Dedupe

open Rand Spec

/-- A generator. -/
def g0 : FRand := initRandSeed 1234#64 false
/-- Another generator. -/
def g1 : FRand := initRandSeed 77#64 false

/-- 40 percent compressible in pieces of 16 bytes, half of the buffers repeated. -/
def c0 : Cfg := ⟨4, 40, 16, 50, false, [], false⟩
/-- A working set. -/
def c1 : Cfg := ⟨4, 0, 16, 50, true, [], false⟩

example := C78_repeat (c := c0) ⟨by decide, by decide, by decide⟩ (.inl (by decide)) (by decide) rfl
  (minBs := 32) (by decide) ⟨g0, g0, g0, []⟩ rfl [(32, 4000000000, 0), (32, 5, 0), (32, 3000000000, 0)] (by decide)

/-- The second buffer is repeated, and is the same as the third. -/
example : sources 50 none 16 0 0 [(32, 4000000000, 0), (32, 5, 0), (32, 3000000000, 0)] = [(0, 0), (0, 2), (0, 2)] := by
  decide +kernel

example := C78_working_set_partial (c := c1) ⟨by decide, by decide, by decide⟩ (by decide) (by decide) rfl
  (bufs := [g0, g1]) (t := 1) (b := g1) rfl true (size := 3200) (wsPerc := 5) (minBs := 32) (by decide) (by decide)
  (by decide)

example := C78_hundred (c := { c0 with dedupe := 100 }) ⟨by decide, by decide, by decide⟩ rfl (minBs := 32) (by decide)
  [(32, 0, 0), (48, 0, 0)] ⟨g0, g0, g0, []⟩ (by decide)

example : buffer 4 40 [] (seedAt g0) 16 32 0 ≠ buffer 4 40 [] (seedAt g0) 16 32 2 :=
  C78_distinct (by decide) (nextSeed_lt _) (nextSeed_lt _) (by decide +kernel) (by decide)

/-- C78 is false: with buffer_compress_percentage=100 and dedupe_percentage the data is random, because
zero_buffers is not looked at when there is dedupe_percentage (init.c:1024-1026, io_u.c:2487-2521). -/
theorem C78_compress_counterexample :
    ∃ s b, fillIo (fixup ⟨4, 100, 512, 50, false, [], false⟩) 32 32 ⟨g0, g0, g0, []⟩ 0 0 = some (s, b) ∧
      (b.filter (· = 0)).length = 0 := by
  refine ⟨_, _, rfl, ?_⟩
  decide +kernel

/-- Without dedupe_percentage it is all zeros. -/
theorem C78_compress_all {c : Cfg} (h : c.compress = 100) (hd : c.dedupe = 0) (hp : c.pattern = []) (m n : Nat)
    (s : St) (r i : Nat) : fillIo (fixup c) m n s r i = some (s, List.replicate n 0) := by
  unfold fillIo fixup
  rw [if_pos h]
  simp [hd, hp]

/-- C78 is false: if the chunk size (12) does not divide the block size (16), a page is made from two seeds,
but the working set counts one (dedupe.c:33-34). The page drawn is then the content of no buffer that is
not repeated. -/
theorem C78_chunk_counterexample :
    ∃ ws s b, initWs { c1 with chunk := 12 } [g0] 0 false 640 5 16 = some ws ∧
      fillIo { c1 with chunk := 12 } 16 16 ⟨g0, g0, g0, ws⟩ 0 1 = some (s, b) ∧
      ∀ k < 40, b ≠ buffer 4 0 [] (seedAt g0) 12 16 (2 * k) := by
  refine ⟨_, _, _, rfl, rfl, ?_⟩
  decide +kernel

/-- C78 is false: a working set of less than a block writes outside of its array. With size=20% the size is
0 at that time (dedupe.c:39-48). -/
theorem C78_small_counterexample (wsPerc minBs : Nat) : initWs c1 [g0] 0 false 0 wsPerc minBs = none := by
  unfold initWs numUnique
  simp

end Fio.Dedupe
