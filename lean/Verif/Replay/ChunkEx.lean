import Verif.Replay.ChunkProps

/-! C75: examples. -/
namespace Fio.Replay
open Spec (Out strip GoodOpts)

/-! ### A slow job -/

/-- A log of 20 reads. -/
def reads20 : List Ev :=
  .file 1 0 .open :: (List.range 20).map fun i => .io (i + 2) 0 .read (i * 4096) 4096

theorem setting20 : Setting {} [str "f"] [] reads20 := by
  refine ⟨rfl, rfl, rfl, Or.inl rfl, ?_, by decide, by simp, ?_⟩
  · unfold Spec.Name; decide
  · intro e he
    simp only [reads20, List.mem_cons, List.mem_map, List.mem_range] at he
    rcases he with rfl | ⟨i, hi, rfl⟩
    · simp [Spec.Entry]
    · simp [Spec.Entry]; omega

/-- The reader keeps up if five pieces take a millisecond: all 22 pieces. -/
example : (chunked {} 7 fresh0 (writeLog [str "f"] [] reads20) (List.replicate 30 1000000)).map
    (fun p => (p.1.length, p.2.r.pieces)) = some (22, []) := by decide +kernel

/-- If they take a second, the job ends after the first ten pieces: the log is
not replayed to its end. -/
theorem C75_slow_counterexample :
    (chunked {} 7 fresh0 (writeLog [str "f"] [] reads20) (List.replicate 30 1000000000)).map
      (fun p => (p.1.length, p.2.r.pieces.length, decide (p.2.rest = []))) =
      some (10, 0, false) ∧
    (Spec.pieces {} (fun f => (f : Nat)) 0 (addEvs [str "f"] [] ++ reads20)).length = 22 := by
  decide +kernel

/-- `(highmark - current) * 1000000000` overflows from 5 pieces on: five pieces
in 200 ms are 25 per second, of which 5 are there, so 20 would be fetched; fio
fetches none. -/
theorem C75_overflow_counterexample :
    (itemsToFetch ⟨fresh0, [], 5, 5, 10⟩ 200000000).1 = 0 ∧
    5 * 1000000000 / 200000000 - 5 = 20 := by
  decide +kernel

end Fio.Replay
