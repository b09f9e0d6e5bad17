import Verif.Seq.Props
/-!
# Cases for C93
-/

namespace Fio.Seq

open Spec

def exH : Nat → Nat × Nat := fun k => (k + 100, k + 7)

/-- An update, a reader that starts in the middle of the second and tries again: it gets the second. -/
theorem C93_case :
    let es := (List.replicate 4 [Ev.write, .see 0]).flatten ++ [.read true, .read true, .read true, .write, .see 0, .write, .see 0, .read true,
      .read true, .read true, .write, .see 0, .write, .see 0, .read true, .read false, .read true, .read true]
    (run exH false {} es).rd = .done 8 101 8000 ∧ time exH 2 = (101, 8000) ∧ (run exH false {} es).seen < 8 + 2 ^ 33 := by decide

/-- `C93_ends` at the beginning. -/
example : (run exH true {} ([true, true, false, true, true].map .read)).rd = .done 0 0 0 := C93_ends exH true {} rfl rfl _ rfl

/-- `C93_start`. -/
example : (read { mem := ⟨4, 1, 2⟩, seen := 8, rd := .begin } true).rd = .load 8 4 := by decide

/-! ## What is not so -/

/-- Nothing orders the store of the odd number before those of the time (/repo/lib/seqlock.h:44-47, no barrier): where stores may overtake each
other a reader gets half of one and half of another time. -/
theorem C93_weak_counterexample :
    (run exH true {} [.read true, .read true, .write, .write, .see 1, .read true, .read true, .read true]).rd = .done 0 100 0 ∧
    ∀ n, time exH n ≠ (100, 0) := by
  refine ⟨by decide, ?_⟩
  intro n
  cases n with
  | zero => decide
  | succ n =>
    simp only [time, exH]
    intro h
    injection h with h1 h2
    omega

/-- Before the first update (the clock thread starts after the options are read, and returns at once if its CPU cannot be set,
/repo/gettime-thread.c:46-53) the time is zero. -/
theorem C93_zero_counterexample : (run exH false {} ([true, true, true, true, true].map .read)).rd = .done 0 0 0 ∧ ∀ k, exH k ≠ (0, 0) := by
  refine ⟨by decide, ?_⟩
  intro k h
  injection h with h1 h2
  omega

end Fio.Seq
