import Verif.Timers.Spec
/-!
# C108: the functions of the timers are called once in every interval
-/

namespace Fio.Timers

/-- Holds of a timer after every round: `t0` is the start, `now` the round. -/
def Inv (acc : Nat) (t0 now : Int) (t : Timer) : Prop :=
  0 < t.interval → acc ≤ t.interval → t.interval + acc < 2 ^ 32 →
    t0 + 1000000 * ((t.interval : Int) * (t.calls + 1)) ≤ t.expires ∧ t.expires < now + 1000000 * ((t.interval : Int) + acc + 1) ∧
    1000000 * ((t.interval : Int) * t.calls) < now - t0 + 1000000 * ((acc : Int) + 1)

/-- Holds too if no round is late. -/
def Sharp (acc : Nat) (t0 now : Int) (msec : Nat) (t : Timer) : Prop :=
  0 < t.interval → acc ≤ t.interval → t.interval + acc < 2 ^ 32 →
    t.expires = t0 + 1000000 * ((t.interval : Int) * (t.calls + 1)) ∧ now + 1000000 * (msec : Int) ≤ t.expires

theorem eval_inv (acc : Nat) (t0 now now' : Int) (t : Timer) (m : Nat) (hn : now ≤ now') (h : Inv acc t0 now t) :
    Inv acc t0 now' (evalTimer acc now' t m).1 := by
  intro h1 h2 h3
  unfold evalTimer at h1 h2 h3 ⊢
  by_cases hi : t.interval = 0
  · simp only [if_pos hi] at h1
    omega
  simp only [if_neg hi] at h1 h2 h3 ⊢
  by_cases hd : relTime now' t.expires ≤ acc
  · simp only [if_pos hd] at h1 h2 h3 ⊢
    by_cases hj : relTime now' (addMsec t.expires t.interval) < ((t.interval + 2 ^ 32 - acc) % 2 ^ 32 : Nat) ∨
        relTime now' (addMsec t.expires t.interval) > ((t.interval + acc) % 2 ^ 32 : Nat)
    · simp only [if_pos hj] at h1 h2 h3 ⊢
      obtain ⟨a, b, c⟩ := h h1 h2 h3
      unfold relTime addMsec at *
      have e1 : (t.interval : Int) * ((t.calls + 1 : Nat) + 1) = t.interval * (t.calls + 1) + t.interval := by
        rw [Int.mul_add, Int.mul_one]; simp
      have e2 : (t.interval : Int) * ((t.calls + 1 : Nat)) = t.interval * (t.calls + 1) := by simp
      rw [e1, e2]
      generalize (t.interval : Int) * (t.calls + 1) = X at *
      refine ⟨?_, ?_, ?_⟩ <;> omega
    · simp only [if_neg hj] at h1 h2 h3 ⊢
      obtain ⟨a, b, c⟩ := h h1 h2 h3
      unfold relTime addMsec at *
      have e1 : (t.interval : Int) * ((t.calls + 1 : Nat) + 1) = t.interval * (t.calls + 1) + t.interval := by
        rw [Int.mul_add, Int.mul_one]; simp
      have e2 : (t.interval : Int) * ((t.calls + 1 : Nat)) = t.interval * (t.calls + 1) := by simp
      rw [e1, e2]
      generalize (t.interval : Int) * (t.calls + 1) = X at *
      refine ⟨?_, ?_, ?_⟩ <;> omega
  · simp only [if_neg hd] at h1 h2 h3 ⊢
    obtain ⟨a, b, c⟩ := h h1 h2 h3
    refine ⟨a, ?_, ?_⟩ <;> omega

theorem eval_sharp (acc : Nat) (t0 now now' late : Int) (t : Timer) (m m' : Nat) (hn : now ≤ now') (hinv : Inv acc t0 now t) (h : Sharp acc t0 now m' t)
    (hl : now' ≤ now + 1000000 * (m' : Int) + late) (hla : late ≤ 1000000 * (acc : Int)) :
    Sharp acc t0 now' (evalTimer acc now' t m).2.2 (evalTimer acc now' t m).1 ∧ (evalTimer acc now' t m).2.2 ≤ m := by
  unfold evalTimer
  by_cases hi : t.interval = 0
  · simp only [if_pos hi]
    exact ⟨fun h1 => absurd h1 (by omega), Nat.le_refl _⟩
  simp only [if_neg hi]
  by_cases hd : relTime now' t.expires ≤ acc
  · simp only [if_pos hd]
    by_cases hj : relTime now' (addMsec t.expires t.interval) < ((t.interval + 2 ^ 32 - acc) % 2 ^ 32 : Nat) ∨
        relTime now' (addMsec t.expires t.interval) > ((t.interval + acc) % 2 ^ 32 : Nat)
    · simp only [if_pos hj]
      refine ⟨?_, Nat.min_le_right _ _⟩
      intro h1 h2 h3
      simp only at h1 h2 h3
      obtain ⟨a, b⟩ := h h1 h2 h3
      exfalso
      unfold relTime addMsec at *
      omega
    · simp only [if_neg hj]
      refine ⟨?_, Nat.min_le_right _ _⟩
      intro h1 h2 h3
      simp only at h1 h2 h3 ⊢
      obtain ⟨a, b⟩ := h h1 h2 h3
      have e1 : (t.interval : Int) * ((t.calls + 1 : Nat) + 1) = t.interval * (t.calls + 1) + t.interval := by
        rw [Int.mul_add, Int.mul_one]; simp
      rw [e1]
      unfold relTime addMsec at *
      generalize (t.interval : Int) * (t.calls + 1) = X at *
      refine ⟨by omega, ?_⟩
      have := Nat.min_le_left ((t.expires + 1000000 * (t.interval : Int) - now') / 1000000 % 2 ^ 32).toNat m
      omega
  · simp only [if_neg hd]
    refine ⟨?_, Nat.min_le_right _ _⟩
    intro h1 h2 h3
    obtain ⟨a, b⟩ := h h1 h2 h3
    obtain ⟨c1, c2, c3⟩ := hinv h1 h2 h3
    refine ⟨a, ?_⟩
    have := Nat.min_le_left (relTime now' t.expires % 2 ^ 32).toNat m
    unfold relTime at *
    omega

theorem evalAll_inv (acc : Nat) (t0 now now' : Int) (ts : List Timer) (fs : List Bool) (m : Nat) (r : Bool) (hn : now ≤ now')
    (h : ∀ t ∈ ts, Inv acc t0 now t) : ∀ t ∈ (evalAll acc now' ts fs m r).1, Inv acc t0 now' t := by
  induction ts generalizing fs m r with
  | nil => intro t ht; cases ht
  | cons a ts ih =>
    intro t ht
    simp only [evalAll, List.mem_cons] at ht
    rcases ht with rfl | ht
    · exact eval_inv acc t0 now now' a m hn (h a (by simp))
    · exact ih _ _ _ (fun t ht => h t (List.mem_cons_of_mem _ ht)) t ht

theorem sharp_mono (acc : Nat) (t0 now : Int) (m m' : Nat) (t : Timer) (hm : m' ≤ m) (h : Sharp acc t0 now m t) : Sharp acc t0 now m' t := by
  intro h1 h2 h3
  obtain ⟨a, b⟩ := h h1 h2 h3
  exact ⟨a, by omega⟩

theorem evalAll_sharp (acc : Nat) (t0 now now' late : Int) (ts : List Timer) (fs : List Bool) (m m' : Nat) (r : Bool) (hn : now ≤ now')
    (hi : ∀ t ∈ ts, Inv acc t0 now t) (h : ∀ t ∈ ts, Sharp acc t0 now m' t) (hl : now' ≤ now + 1000000 * (m' : Int) + late)
    (hla : late ≤ 1000000 * (acc : Int)) :
    (∀ t ∈ (evalAll acc now' ts fs m r).1, Sharp acc t0 now' (evalAll acc now' ts fs m r).2.1 t) ∧ (evalAll acc now' ts fs m r).2.1 ≤ m := by
  induction ts generalizing fs m r with
  | nil => exact ⟨fun t ht => (by cases ht), Nat.le_refl _⟩
  | cons a ts ih =>
    have h1 := eval_sharp acc t0 now now' late a m m' hn (hi a (by simp)) (h a (by simp)) hl hla
    have h2 := ih fs.tail (evalTimer acc now' a m).2.2 ((evalTimer acc now' a m).2.1 && fs.headD false)
      (fun t ht => hi t (List.mem_cons_of_mem _ ht)) (fun t ht => h t (List.mem_cons_of_mem _ ht))
    simp only [evalAll]
    refine ⟨?_, Nat.le_trans h2.2 h1.2⟩
    intro t ht
    rcases List.mem_cons.1 ht with rfl | ht
    · exact sharp_mono _ _ _ _ _ _ h2.2 h1.1
    · exact h2.1 t ht

theorem evalAll_ret (acc : Nat) (now : Int) (ts : List Timer) (fs : List Bool) (m : Nat) (hf : ∀ b ∈ fs, b = false) :
    (evalAll acc now ts fs m false).2.2 = false := by
  induction ts generalizing fs m with
  | nil => rfl
  | cons a ts ih =>
    simp only [evalAll]
    have : fs.headD false = false := by
      cases fs with
      | nil => rfl
      | cons b fs => exact hf b (by simp)
    rw [this, Bool.and_false]
    exact ih _ _ (fun b hb => hf b (List.mem_of_mem_tail hb))

theorem start_inv (acc : Nat) (t0 : Int) (is : List Nat) : ∀ t ∈ (start t0 is).timers, Inv acc t0 t0 t := by
  intro t ht
  simp only [start, resetTimers, List.map_map, List.mem_map] at ht
  obtain ⟨i, _, rfl⟩ := ht
  intro h1 h2 h3
  simp [addMsec] at *
  omega

theorem resetMsec_le (ts : List Timer) (m : Nat) (hm : 0 < m) :
    let f := ts.foldl (fun m t => if t.interval = 0 then m else if m = 0 then t.interval else min m t.interval) m
    f ≤ m ∧ 0 < f ∧ ∀ t ∈ ts, 0 < t.interval → f ≤ t.interval := by
  induction ts generalizing m with
  | nil => exact ⟨Nat.le_refl _, hm, fun t ht => (by cases ht)⟩
  | cons a ts ih =>
    simp only [List.foldl_cons]
    by_cases ha : a.interval = 0
    · rw [if_pos ha]
      obtain ⟨x, y, z⟩ := ih m hm
      refine ⟨x, y, fun t ht h => ?_⟩
      rcases List.mem_cons.1 ht with rfl | ht
      · omega
      · exact z t ht h
    · rw [if_neg ha, if_neg (by omega)]
      obtain ⟨x, y, z⟩ := ih (min m a.interval) (by omega)
      refine ⟨by omega, y, fun t ht h => ?_⟩
      rcases List.mem_cons.1 ht with rfl | ht
      · omega
      · exact z t ht h

theorem start_sharp (acc : Nat) (t0 : Int) (is : List Nat) : ∀ t ∈ (start t0 is).timers, Sharp acc t0 t0 (start t0 is).msec t := by
  intro t ht h1 h2 h3
  have hm := (resetMsec_le (start t0 is).timers (2 ^ 31 - 1) (by decide)).2.2 t ht h1
  have e : (start t0 is).msec = resetMsec (start t0 is).timers := rfl
  have hx : t.expires = addMsec t0 t.interval ∧ t.calls = 0 := by
    simp only [start, resetTimers, List.map_map, List.mem_map] at ht
    obtain ⟨i, _, rfl⟩ := ht
    exact ⟨rfl, rfl⟩
  rw [e]
  unfold resetMsec
  simp only [hx.1, hx.2, addMsec]
  refine ⟨by simp, by omega⟩

theorem run_inv (acc : Nat) (t0 : Int) (ws : List Wake) (st : St) (h0 : t0 ≤ st.now) (hr : st.ret = false) (hp : Plain st.now ws)
    (h : ∀ t ∈ st.timers, Inv acc t0 st.now t) : t0 ≤ (run acc st ws).now ∧ (run acc st ws).ret = false ∧
      ∀ t ∈ (run acc st ws).timers, Inv acc t0 (run acc st ws).now t := by
  induction ws generalizing st with
  | nil => exact ⟨h0, hr, h⟩
  | cons w ws ih =>
    obtain ⟨p1, p2, p3, p4⟩ := hp
    have e : run acc st (w :: ws) = run acc (round acc st w) ws := rfl
    rw [e]
    apply ih
    · simp [round, hr]; omega
    · simp [round, hr, p2, evalAll_ret acc w.now st.timers w.fails _ p3]
    · simpa [round, hr] using p4
    · have := evalAll_inv acc t0 st.now w.now st.timers w.fails (2 ^ 31 - 1) false p1 h
      simpa [round, hr, p2] using this

theorem run_sharp (acc : Nat) (t0 late : Int) (ws : List Wake) (st : St) (h0 : t0 ≤ st.now) (hr : st.ret = false) (hp : Plain st.now ws)
    (hla : late ≤ 1000000 * (acc : Int)) (ho : OnTime acc late st ws) (hi : ∀ t ∈ st.timers, Inv acc t0 st.now t)
    (h : ∀ t ∈ st.timers, Sharp acc t0 st.now st.msec t) :
    ∀ t ∈ (run acc st ws).timers, Sharp acc t0 (run acc st ws).now (run acc st ws).msec t := by
  induction ws generalizing st with
  | nil => exact h
  | cons w ws ih =>
    obtain ⟨p1, p2, p3, p4⟩ := hp
    have e : run acc st (w :: ws) = run acc (round acc st w) ws := rfl
    rw [e]
    apply ih
    · simp [round, hr]; omega
    · simp [round, hr, p2, evalAll_ret acc w.now st.timers w.fails _ p3]
    · simpa [round, hr] using p4
    · exact ho.2
    · have := evalAll_inv acc t0 st.now w.now st.timers w.fails (2 ^ 31 - 1) false p1 hi
      simpa [round, hr, p2] using this
    · have := (evalAll_sharp acc t0 st.now w.now late st.timers w.fails (2 ^ 31 - 1) st.msec false p1 hi h ho.1 hla).1
      intro t ht
      simp only [round, hr, p2, Bool.false_eq_true, if_false] at ht ⊢
      exact sharp_mono _ _ _ _ _ _ (Nat.min_le_right _ _) (this t ht)

/-- Never too often: whenever the thread wakes, `n` calls took at least `n` intervals, up to the accuracy `acc` (in ms) of sleeping. -/
theorem C108_rate (acc : Nat) (t0 : Int) (is : List Nat) (ws : List Wake) (hp : Plain t0 ws) (t : Timer) (ht : t ∈ (run acc (start t0 is) ws).timers)
    (h1 : 0 < t.interval) (h2 : acc ≤ t.interval) (h3 : t.interval + acc < 2 ^ 32) :
    1000000 * ((t.interval : Int) * t.calls) < (run acc (start t0 is) ws).now - t0 + 1000000 * ((acc : Int) + 1) :=
  ((run_inv acc t0 ws (start t0 is) (Int.le_refl _) rfl hp (start_inv acc t0 is)).2.2 t ht h1 h2 h3).2.2

/-- Exactly as often as the intervals say, however many rounds there are, if the thread never sleeps longer than it asked for by more than the
accuracy: at most one interval has begun beyond the calls. -/
theorem C108_exact (acc : Nat) (t0 : Int) (is : List Nat) (ws : List Wake) (hp : Plain t0 ws) (ho : OnTime acc (1000000 * acc) (start t0 is) ws)
    (t : Timer) (ht : t ∈ (run acc (start t0 is) ws).timers) (h1 : 0 < t.interval) (h2 : acc ≤ t.interval) (h3 : t.interval + acc < 2 ^ 32) :
    1000000 * ((t.interval : Int) * t.calls) < (run acc (start t0 is) ws).now - t0 + 1000000 * ((acc : Int) + 1) ∧
      (run acc (start t0 is) ws).now - t0 ≤ 1000000 * ((t.interval : Int) * (t.calls + 1)) := by
  refine ⟨C108_rate acc t0 is ws hp t ht h1 h2 h3, ?_⟩
  obtain ⟨a, b⟩ := run_sharp acc t0 (1000000 * acc) ws (start t0 is) (Int.le_refl _) rfl hp (Int.le_refl _) ho (start_inv acc t0 is)
    (start_sharp acc t0 is) t ht h1 h2 h3
  omega

/-- The thread never sleeps past a timer. -/
theorem C108_sleep (acc : Nat) (t0 : Int) (is : List Nat) (ws : List Wake) (hp : Plain t0 ws) (ho : OnTime acc (1000000 * acc) (start t0 is) ws)
    (t : Timer) (ht : t ∈ (run acc (start t0 is) ws).timers) (h1 : 0 < t.interval) (h2 : acc ≤ t.interval) (h3 : t.interval + acc < 2 ^ 32) :
    (run acc (start t0 is) ws).now + 1000000 * ((run acc (start t0 is) ws).msec : Int) ≤ t0 + 1000000 * ((t.interval : Int) * (t.calls + 1)) := by
  obtain ⟨a, b⟩ := run_sharp acc t0 (1000000 * acc) ws (start t0 is) (Int.le_refl _) rfl hp (Int.le_refl _) ho (start_inv acc t0 is)
    (start_sharp acc t0 is) t ht h1 h2 h3
  omega

theorem evalTimer_interval (acc : Nat) (now : Int) (t : Timer) (m : Nat) : (evalTimer acc now t m).1.interval = t.interval := by
  unfold evalTimer
  by_cases hi : t.interval = 0
  · simp only [if_pos hi]
  · simp only [if_neg hi]
    by_cases hd : relTime now t.expires ≤ acc
    · simp only [if_pos hd]
      split <;> rfl
    · simp only [if_neg hd]

theorem evalAll_intervals (acc : Nat) (now : Int) (ts : List Timer) (fs : List Bool) (m : Nat) (r : Bool) :
    (evalAll acc now ts fs m r).1.map (·.interval) = ts.map (·.interval) := by
  induction ts generalizing fs m r with
  | nil => rfl
  | cons a ts ih =>
    simp only [evalAll, List.map_cons]
    rw [ih, evalTimer_interval]

/-- The timers stay those of the table, in order, whatever happens. -/
theorem C108_kept (acc : Nat) (t0 : Int) (is : List Nat) (ws : List Wake) : (run acc (start t0 is) ws).timers.map (·.interval) = is := by
  have : ∀ (ws : List Wake) (st : St), (run acc st ws).timers.map (·.interval) = st.timers.map (·.interval) := by
    intro ws
    induction ws with
    | nil => intro st; rfl
    | cons w ws ih =>
      intro st
      have e : run acc st (w :: ws) = run acc (round acc st w) ws := rfl
      rw [e, ih]
      unfold round
      by_cases hr : st.ret
      · simp only [if_pos hr]
      · simp only [if_neg hr]
        rw [evalAll_intervals]
        cases w.reset <;> simp [resetTimers]
  rw [this]
  simp only [start, resetTimers, List.map_map]
  exact List.map_id is

/-- No timer is forgotten after a jump of the clock or a long delay: after a round at `now`, a round later by the interval, the accuracy and 1 ms
calls the function. -/
theorem C108_again (acc : Nat) (t0 : Int) (is : List Nat) (ws : List Wake) (hp : Plain t0 ws) (t : Timer) (ht : t ∈ (run acc (start t0 is) ws).timers)
    (h1 : 0 < t.interval) (h2 : acc ≤ t.interval) (h3 : t.interval + acc < 2 ^ 32) (now : Int) (m : Nat)
    (hn : (run acc (start t0 is) ws).now + 1000000 * ((t.interval : Int) + acc + 1) ≤ now) :
    (evalTimer acc now t m).2.1 = true ∧ (evalTimer acc now t m).1.calls = t.calls + 1 := by
  obtain ⟨a, b, c⟩ := (run_inv acc t0 ws (start t0 is) (Int.le_refl _) rfl hp (start_inv acc t0 is)).2.2 t ht h1 h2 h3
  unfold evalTimer
  have hd : relTime now t.expires ≤ acc := by unfold relTime; omega
  rw [if_neg (by omega), if_pos hd]
  simp only
  split <;> exact ⟨rfl, rfl⟩

/-- Three rounds of a timer with 250 ms and one with 1000 ms, the second 0.4 ms late, the third woken early. -/
def exWs : List Wake := [⟨250400000, false, 500, []⟩, ⟨500000000, false, 0, [false]⟩, ⟨600000000, false, 100, []⟩]

theorem C108_example : Plain 0 exWs ∧ OnTime 1 (1000000 * (1 : Nat)) (start 0 [250, 0, 1000]) exWs ∧
    (run 1 (start 0 [250, 0, 1000]) exWs).timers = [⟨750000000, 250, 2⟩, ⟨0, 0, 0⟩, ⟨1000000000, 1000, 0⟩] ∧
    (run 1 (start 0 [250, 0, 1000]) exWs).msec = 100 := by
  refine ⟨?_, ?_, by decide +kernel, by decide +kernel⟩
  · simp [Plain, exWs]
  · simp only [OnTime, exWs]
    decide +kernel

/-- Calls that were missed are not made up for: 10 s asleep, then one call of a timer with 1 s. -/
theorem C108_late_counterexample : Plain 0 [⟨10000000000, false, 0, []⟩] ∧
    (run 1 (start 0 [1000]) [⟨10000000000, false, 0, []⟩]).timers = [⟨11000000000, 1000, 1⟩] := by
  refine ⟨by simp [Plain], by decide +kernel⟩

/-- An error of a function ends the loop only if it is that of the last timer: `ret` is overwritten by the next timer
(/repo/helper_thread.c:346-347). The only function that returns one, `update_io_ticks`, is that of the first. -/
theorem C108_error_counterexample : (round 1 (start 0 [250, 1000]) ⟨250000000, false, 0, [true, false]⟩).ret = false ∧
    (round 1 (start 0 [1000, 250]) ⟨250000000, false, 0, [false, true]⟩).ret = true := by
  decide +kernel

end Fio.Timers
