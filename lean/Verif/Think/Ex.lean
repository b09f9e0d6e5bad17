import Verif.Think.Props
/-!
# Cases for C92
-/

namespace Fio.Think

/-- `C92_when_partial` with both conditions. -/
example : stalls { thinktime := 100, blocks := 8, blocksSet := true, iotime := 1000 } ⟨5, 0, 0, 0, 0, 0⟩ 999 = false ∧
    stalls { thinktime := 100, blocks := 8, blocksSet := true, iotime := 1000 } ⟨5, 0, 0, 0, 0, 0⟩ 1000 = true ∧
    stalls { thinktime := 100, blocks := 8, blocksSet := true, iotime := 1000 } ⟨8, 0, 0, 0, 0, 0⟩ 999 = true ∧
    stalls { thinktime := 100, blocks := 1, iotime := 1000 } ⟨8, 0, 0, 0, 0, 0⟩ 999 = false := by decide
example : (0 : Int) ≤ (⟨5, 0, 0, 0, 0, 0⟩ : St).last + (8 : Nat) ∧ (⟨5, 0, 0, 0, 0, 0⟩ : St).last + (8 : Nat) < 2 ^ 64 := by decide

/-- A pause of 1000 with a spin of 300 that took 310, 500 before the end. -/
theorem C92_pause_case : pause { thinktime := 1000, spin := 300, timeout := 10000 } { t1 := 9190, spun := 310, t2 := 9500, slept := 520 } =
    ⟨some 300, some 500, 830⟩ := by decide
/-- The hypotheses of `C92_pause_partial` and `C92_long_enough_partial` hold for it. -/
example : ∀ n, (pause { thinktime := 1000, spin := 300, timeout := 10000 } { t1 := 9190, spun := 310, t2 := 9500, slept := 520 }).sleep = some n →
    n ≤ 520 := by
  rw [C92_pause_case]
  intro n h
  cases h
  decide

/-- `C92_every_partial`: a pause after every third. -/
theorem C92_every_case : run { thinktime := 5, blocks := 3 } (init 0) (List.replicate 7 {}) = [false, false, true, false, false, true, false] := by
  decide

/-- `C92_reset_partial`: two of three counted when the ramp ends. -/
example : stalls { thinktime := 5, blocks := 3 } { reset ⟨5, 3, 0, 0, 0, 0⟩ 77 with cnt := 1 } 80 = true ∧
    stalls { thinktime := 5, blocks := 3 } { reset ⟨5, 3, 0, 0, 0, 0⟩ 77 with cnt := 0 } 80 = false := by decide

/-- `C92_rate_partial`: 1 MB/s, a second of thinking, blocks of 4096. -/
example : account { thinktime := 1000000, rateIgn := true, rate := 1000000, bs := 4096 } ⟨9, 9, 0, 0, 40960, 7⟩ 1000000 =
    ⟨9, 9, 0, 0, 40960 + 1000000 - 4096, 1000007⟩ := by decide

/-- `C92_kept`. -/
example : (handle { thinktime := 5, blocks := 3 } ⟨3, 0, 0, 0, 0, 0⟩ { acts := [.done, .done] }).1.last = 3 := by decide

/-! ## What is not so -/

/-- The I/Os that complete while waiting are not counted as before the pause (/repo/backend.c:941, 1004): with 16 in flight and a pause after every
4 I/Os completed there is one again after the next. -/
theorem C92_twice_counterexample :
    let o : Opts := { thinktime := 5, blocks := 4 }
    let s := (handle o ⟨4, 0, 0, 0, 0, 0⟩ { acts := List.replicate 15 .done }).1
    s.cnt = 19 ∧ (handle o { s with cnt := 20 } {}).2.isSome := by decide

/-- If the ramp period ends then, there is never a pause again. -/
theorem C92_ramp_counterexample (n now : Nat) (h : n < 2 ^ 63) :
    let o : Opts := { thinktime := 5, blocks := 4 }
    let s := (handle o ⟨4, 0, 0, 0, 0, 0⟩ { acts := List.replicate 15 .done }).1
    stalls o { reset s 100 with cnt := n } now = false :=
  C92_never_counterexample _ _ _ (by dsimp only; decide) (by dsimp only; decide) h rfl

/-- And if it ends while waiting, the next pause comes after as many I/Os as there were before. -/
theorem C92_ramp_waiting_counterexample :
    let o : Opts := { thinktime := 5, blocks := 4 }
    let s := (handle o ⟨1000, 996, 0, 0, 0, 0⟩ { acts := [.done, .ramp 100, .done] }).1
    s.cnt = 1 ∧ stalls o { s with cnt := 1003 } 200 = false ∧ stalls o { s with cnt := 1004 } 200 = true := by decide

/-- Past the end of the run it thinks as long as ever. -/
theorem C92_past_end_counterexample : (pause { thinktime := 1000000, timeout := 10000 } { t1 := 10001, t2 := 10001 }).sleep = some 1000000 := by
  decide

/-- A thinktime of 2^31 microseconds (36 minutes) is negative in an `int`: it sleeps for ever. -/
theorem C92_long_counterexample : (pause { thinktime := 2147483648 } {}).sleep = some (2 ^ 64 - 2147483648) := by decide

/-- With a rate of 20 GB/s and 16 minutes the product does not fit. -/
theorem C92_rate_counterexample :
    (account { thinktime := 1000000000, rateIgn := true, rate := 20000000000, bs := 4096 } ⟨0, 0, 0, 0, 4096, 0⟩ 1000000000).bytes < 20000000000 * 1000 / 10 := by
  decide

end Fio.Think
