import Verif.NullEng.Model
/-!
# C109: the null engine returns every unit once
-/

namespace Fio.NullEng

/-- What fio sees to: a unit is handed over only if fewer than `iodepth` are away (there are no more units). -/
def Fits (iodepth : Nat) (st : St) : List Op → Prop
  | [] => True
  | o :: os => (∀ u, o = .queue u → st.accepted.length < st.returned.length + iodepth) ∧ ∀ st', step st o = some st' → Fits iodepth st' os

structure Inv (iodepth : Nat) (st : St) : Prop where
  len : st.ious.length = iodepth
  one : st.queued = 0 ∨ st.events = 0
  bound : st.queued + st.events ≤ iodepth
  all : st.accepted = st.returned ++ st.ious.take (st.queued + st.events)

theorem read_take (l : List Nat) (i n : Nat) (h : i + n ≤ l.length) : read l i n = some ((l.drop i).take n) := by
  induction n generalizing i with
  | zero => simp [read]
  | succ n ih =>
    have hi : i < l.length := by omega
    simp only [read]
    rw [List.getElem?_eq_getElem hi, ih (i + 1) (by omega), List.drop_eq_getElem_cons hi, List.take_succ_cons]

theorem take_set (l : List Nat) (n u : Nat) (h : n < l.length) : (l.set n u).take (n + 1) = l.take n ++ [u] := by
  induction l generalizing n with
  | nil => simp at h
  | cons a l ih =>
    cases n with
    | zero => simp
    | succ n => simp only [List.set_cons_succ, List.take_succ_cons, List.cons_append]; rw [ih n (by simpa using h)]

theorem step_inv (iodepth : Nat) (st : St) (o : Op) (h : Inv iodepth st)
    (hf : ∀ u, o = .queue u → st.accepted.length < st.returned.length + iodepth) : ∃ st', step st o = some st' ∧ Inv iodepth st' := by
  obtain ⟨h1, h2, h3, h4⟩ := h
  cases o with
  | queue u =>
    have hf := hf u rfl
    simp only [step, queue]
    by_cases he : st.events = 0
    · have hl := congrArg List.length h4
      simp only [List.length_append, List.length_take] at hl
      have hq : st.queued < st.ious.length := by omega
      rw [if_neg (by simp [he]), if_pos hq]
      refine ⟨_, rfl, ⟨by simp [h1], Or.inr he, by simp only; omega, ?_⟩⟩
      simp only [he, Nat.add_zero] at h4 ⊢
      rw [take_set _ _ _ hq, h4, List.append_assoc]
    · rw [if_pos he]
      exact ⟨_, rfl, ⟨h1, h2, h3, h4⟩⟩
  | commit =>
    simp only [step, commit]
    by_cases he : st.events = 0
    · rw [if_pos he]
      refine ⟨_, rfl, ⟨h1, Or.inl rfl, by simp only; omega, ?_⟩⟩
      simp only [he, Nat.add_zero, Nat.zero_add] at h4 ⊢
      exact h4
    · rw [if_neg he]
      exact ⟨_, rfl, ⟨h1, h2, h3, h4⟩⟩
  | reap mn mx =>
    simp only [step, getevents]
    by_cases hm : mn = 0
    · rw [if_neg (by simp [hm])]
      simp only [read, List.append_nil]
      exact ⟨_, rfl, ⟨h1, h2, h3, h4⟩⟩
    · rw [if_pos hm]
      simp only
      rw [read_take _ 0 st.events (by omega)]
      refine ⟨_, rfl, ⟨h1, Or.inr rfl, by simp only; omega, ?_⟩⟩
      simp only [List.drop_zero, Nat.add_zero]
      rcases h2 with h2 | h2
      · rw [h4, h2]; simp
      · rw [h4, h2]; simp

theorem run_inv (iodepth : Nat) (os : List Op) (st : St) (h : Inv iodepth st) (hf : Fits iodepth st os) :
    ∃ st', run st os = some st' ∧ Inv iodepth st' := by
  induction os generalizing st with
  | nil => exact ⟨st, rfl, h⟩
  | cons o os ih =>
    obtain ⟨st', e, h'⟩ := step_inv iodepth st o h hf.1
    simp only [run, e]
    exact ih st' h' (hf.2 st' e)

theorem init_inv (iodepth : Nat) : Inv iodepth (init iodepth) := ⟨by simp [init], Or.inl rfl, by simp [init], by simp [init]⟩

/-- Nothing is read or written outside the array; what was returned are the units in the order in which they were taken, each once; and no more
than `iodepth` are away. -/
theorem C109_order (iodepth : Nat) (os : List Op) (hf : Fits iodepth (init iodepth) os) :
    ∃ st rest, run (init iodepth) os = some st ∧ st.accepted = st.returned ++ rest ∧ rest.length ≤ iodepth := by
  obtain ⟨st, e, h⟩ := run_inv iodepth os _ (init_inv iodepth) hf
  refine ⟨st, _, e, h.all, ?_⟩
  rw [List.length_take]
  have := h.bound
  omega

/-- None is kept: `td_io_getevents` with at least one awaited (commit and then getevents, /repo/ioengines.c) returns all units
that are away. -/
theorem C109_all (iodepth : Nat) (os : List Op) (hf : Fits iodepth (init iodepth) os) (mn mx : Nat) (hm : 0 < mn) :
    ∃ st st', run (init iodepth) os = some st ∧ run st [.commit, .reap mn mx] = some st' ∧ st'.returned = st.accepted ∧
      st'.accepted = st.accepted := by
  obtain ⟨st, e, h⟩ := run_inv iodepth os _ (init_inv iodepth) hf
  obtain ⟨h1, h2, h3, h4⟩ := h
  refine ⟨st, ?_⟩
  have hmn : mn ≠ 0 := by omega
  by_cases he : st.events = 0
  · simp only [run, step, commit, if_pos he, getevents, ne_eq, hmn, not_false_iff, if_true]
    rw [read_take _ 0 st.queued (by omega)]
    refine ⟨_, e, rfl, ?_, rfl⟩
    simp only [List.drop_zero]
    rw [h4, he, Nat.add_zero]
  · have hq : st.queued = 0 := by omega
    simp only [run, step, commit, if_neg he, getevents, ne_eq, hmn, not_false_iff, if_true]
    rw [read_take _ 0 st.events (by omega)]
    refine ⟨_, e, rfl, ?_, rfl⟩
    simp only [List.drop_zero]
    rw [h4, hq, Nat.zero_add]

/-- A unit is refused only while committed units wait to be read. -/
theorem C109_busy (st st' : St) (u : Nat) (h : queue st u = some (st', false)) : st.events ≠ 0 ∧ st' = st := by
  unfold queue at h
  by_cases he : st.events = 0
  · rw [if_neg (by simp [he])] at h
    split at h <;> cases h
  · rw [if_pos he] at h
    cases h
    exact ⟨he, rfl⟩

/-- Three units of which the last is refused and comes again. -/
def exOps : List Op := [.queue 7, .queue 8, .commit, .queue 9, .reap 1 2, .queue 9, .commit, .reap 0 2]

theorem C109_example : Fits 3 (init 3) exOps ∧ run (init 3) exOps = some ⟨[9, 8, 0], 0, 1, [7, 8, 9], [7, 8]⟩ := by
  refine ⟨?_, by decide +kernel⟩
  simp only [exOps, Fits, step, queue, commit, getevents, init]
  have hr : read [7, 8, 0] 0 2 = some [7, 8] := by decide
  simp [hr]

/-- `max` is not kept: four units are returned though at most one is asked for; and with `min` 0 nothing is returned though all are ready. -/
theorem C109_max_counterexample :
    (getevents ⟨[1, 2, 3, 4], 0, 4, [1, 2, 3, 4], []⟩ 1 1).2 = 4 ∧ (getevents ⟨[1, 2, 3, 4], 0, 4, [1, 2, 3, 4], []⟩ 0 4).2 = 0 := by
  decide

/-- That fio has no more than `iodepth` units is needed. -/
theorem C109_depth_counterexample : run (init 2) [.queue 1, .queue 2, .queue 3] = none := by decide

end Fio.NullEng
