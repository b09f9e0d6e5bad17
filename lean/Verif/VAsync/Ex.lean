import Verif.VAsync.Props
/-!
# Cases of the threads of `verify_async`, and where the code fails (C86)
-/

namespace Fio.VAsync

open Spec

/-- Unit 1 is bad. -/
def c1 (go : Bool) : Cfg := ⟨fun u => u == 1, go⟩

/-- Unit 0 is bad. -/
def c0 : Cfg := ⟨fun u => u == 0, false⟩

/-- Two threads, three units, to the end. -/
def es1 : List Ev :=
  [.thread 0, .thread 0, .thread 1, .thread 1, .hand 1, .thread 1, .hand 0, .thread 0, .thread 1, .hand 1, .thread 0, .thread 0, .thread 0,
   .thread 0, .thread 1, .thread 1, .exit, .thread 0, .thread 0, .thread 0, .thread 1, .thread 1, .thread 1, .thread 1, .finish]

example : (run (c1 true) (init 2) es1).main = .done ∧ (run (c1 true) (init 2) es1).freed = [0, 1, 2] ∧
    (run (c1 true) (init 2) es1).count = 1 ∧ (run (c1 true) (init 2) es1).err = false := by decide +kernel

example : (run (c1 false) (init 2) es1).err = true := by decide +kernel

/-- The hypotheses of `C86_exit_empty`: `es1` up to the exit. -/
example : (run (c1 true) (init 2) (es1.take 16)).list = [] ∧ es1 = es1.take 16 ++ .exit :: es1.drop 17 := by decide +kernel

/-- The hypotheses of `C86_wakeup`: thread 1 sleeps, thread 0 was woken. -/
example : (run (c1 true) (init 2) (es1.take 4 ++ [.hand 0])).ts = [.check, .wait] ∧
    (run (c1 true) (init 2) (es1.take 4 ++ [.hand 0])).list = [0] := by decide +kernel

/-- The hypotheses of `C86_error_single_partial`, the error being set. -/
example : (∀ k, (run (c1 false) (init 2) (es1.take k)).list.length ≤ 1) ∧ (run (c1 false) (init 2) es1).err = true := by
  refine ⟨?_, by decide +kernel⟩
  intro k
  by_cases h : k < 26
  · have : ∀ k < 26, (run (c1 false) (init 2) (es1.take k)).list.length ≤ 1 := by decide +kernel
    exact this k h
  · rw [List.take_of_length_le (by simp [es1]; omega)]
    decide +kernel

/-- The hypotheses of `C86_error_last_partial`. -/
example : (run (c1 false) (init 1) [.hand 0, .hand 0, .thread 0, .thread 0, .thread 0]).ts[0]? = some (.busy [1] false) := by decide +kernel

/-- After `exit` threads are left that can go on (`C86_exit_progress`, `C86_exit_bounded`). -/
example : (run (c1 true) (init 2) (es1.take 17)).main = .exiting ∧ work (run (c1 true) (init 2) (es1.take 17)) = 5 ∧
    moves (c1 true) (run (c1 true) (init 2) (es1.take 17)) (es1.drop 17) = 5 := by decide +kernel

/-- **C86 (counterexample).**  A fatal error is forgotten: the thread took two units, the first is bad, the second is good; `ret` of the
first is overwritten (/repo/verify.c:1558), and the job ends without an error. -/
theorem C86_error_lost_counterexample :
    ∃ (c : Cfg) (n : Nat) (es : List Ev), c.go = false ∧ (run c (init n) es).main = .done ∧
      (∃ u ∈ (run c (init n) es).freed, c.bad u = true) ∧ (run c (init n) es).list = [] ∧ (run c (init n) es).err = false :=
  ⟨c0, 1, [.hand 0, .hand 0, .thread 0, .thread 0, .thread 0, .thread 0, .exit, .thread 0, .thread 0, .finish], rfl, by decide +kernel,
    ⟨0, by decide +kernel, rfl⟩, by decide +kernel, by decide +kernel⟩

/-- **C86 (counterexample).**  A unit is never verified: the only thread is busy when it is handed over and `verify_async_exit` is called;
the thread sees the flag before it looks at the list again (/repo/verify.c:1533). -/
theorem C86_unverified_counterexample :
    ∃ (c : Cfg) (n : Nat) (es : List Ev), (run c (init n) es).main = .done ∧ (run c (init n) es).err = false ∧
      (run c (init n) es).count = 0 ∧ ∃ u ∈ (run c (init n) es).list, c.bad u = true ∧ u ∉ (run c (init n) es).freed :=
  ⟨c1 false, 1, [.hand 0, .thread 0, .thread 0, .hand 0, .exit, .thread 0, .thread 0, .thread 0, .finish], by decide +kernel,
    by decide +kernel, by decide +kernel, 1, by decide +kernel, rfl, by decide +kernel⟩

/-- **C86 (counterexample).**  Units never come back after all threads ended because of an error: nobody looks at the list. -/
theorem C86_stuck_counterexample :
    ∃ (c : Cfg) (n : Nat) (es : List Ev), 0 < n ∧ (run c (init n) es).main = .running ∧ (run c (init n) es).list ≠ [] ∧
      ∀ t ∈ (run c (init n) es).ts, t = .ended :=
  ⟨c0, 1, [.hand 0, .thread 0, .thread 0, .thread 0, .thread 0, .hand 0], by decide, by decide +kernel, by decide +kernel, by decide +kernel⟩

/-- **C86 (counterexample).**  The counter when threads are started: the increment is not under the lock, so with a thread that ends at
once it stays at 1 though no thread is left, and `verify_async_exit` waits for ever. -/
theorem C86_start_race_counterexample :
    ([SEv.load, .ends, .store].foldl startStep ⟨0, none⟩).nr = 1 ∧ ([SEv.load, .store, .ends].foldl startStep ⟨0, none⟩).nr = 0 := by
  decide +kernel

/-- A thread started with an increment that is one step, or one ended. -/
def atomicStep (s : Start) (b : Bool) : Start :=
  match b with
  | true => startStep (startStep s .load) .store
  | false => startStep s .ends

theorem wrap_sub (x m : Nat) (hm : 0 < m) (h : x < m) : ((x + m - 1) % m : Nat) < m ∧ (((x + m - 1) % m : Nat) : Int) = ((x : Int) + -1) % m := by
  refine ⟨Nat.mod_lt _ hm, ?_⟩
  have e : (((x + m - 1) : Nat) : Int) = (x : Int) + -1 + m := by omega
  rw [Int.natCast_emod, e, Int.add_emod_right]

theorem wrap_add (x m : Nat) (hm : 0 < m) : ((x + 1) % m : Nat) < m ∧ (((x + 1) % m : Nat) : Int) = ((x : Int) + 1) % m := by
  refine ⟨Nat.mod_lt _ hm, ?_⟩
  rw [Int.natCast_emod]
  rfl

theorem atomicStep_nr (s : Start) (b : Bool) (h : s.nr < 2 ^ 32) :
    (atomicStep s b).nr < 2 ^ 32 ∧ ((atomicStep s b).nr : Int) = ((s.nr : Int) + (if b then 1 else -1)) % (2 ^ 32 : Nat) := by
  cases b with
  | true => exact wrap_add s.nr (2 ^ 32) (by decide)
  | false => exact wrap_sub s.nr (2 ^ 32) (by decide) h

/-- **C86.**  If the increment were one step, the counter is the number of threads started less those that ended, in whatever order. -/
theorem C86_start_atomic (es : List Bool) (h : es.count false ≤ es.count true) (hl : es.length < 2 ^ 32) :
    (es.foldl atomicStep ⟨0, none⟩).nr = es.count true - es.count false := by
  have key : ∀ (es : List Bool) (s : Start), s.nr < 2 ^ 32 →
      (es.foldl atomicStep s).nr < 2 ^ 32 ∧
      ((es.foldl atomicStep s).nr : Int) = ((s.nr + es.count true : Int) - es.count false) % (2 ^ 32 : Nat) := by
    intro es
    induction es with
    | nil => intro s hs; simp; omega
    | cons b es ih =>
      intro s hs
      rw [List.foldl_cons]
      obtain ⟨h1, h2⟩ := atomicStep_nr s b hs
      obtain ⟨h3, h4⟩ := ih _ h1
      refine ⟨h3, ?_⟩
      rw [h4, h2]
      cases b <;> simp <;> omega
  obtain ⟨_, h2⟩ := key es ⟨0, none⟩ (by decide)
  have hc : es.count true ≤ es.length := List.count_le_length
  generalize es.foldl _ _ = z at h2 ⊢
  simp only at h2
  omega

example : ([true, true, false, true, false].foldl atomicStep ⟨0, none⟩).nr = 1 := by decide +kernel

end Fio.VAsync
