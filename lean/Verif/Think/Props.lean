import Verif.Think.Model
/-!
# C92: thinking between I/Os
-/

namespace Fio.Think

theorem u64_nat (n : Nat) (h : n < 2 ^ 64) : u64 (n : Int) = n := by
  unfold u64
  omega

theorem i32_nat (n : Nat) (h : n < 2 ^ 31) : i32 n = n := by
  unfold i32
  omega

/-- **C92** (when, partial): it stops exactly if I/O went on for thinktime_iotime, or (if there is no thinktime_iotime, or thinktime_blocks
is given too) thinktime_blocks I/Os were counted since the last stop.  Missing: what `C92_never_counterexample` has. -/
theorem C92_when_partial (o : Opts) (s : St) (now : Nat) (h0 : 0 ≤ s.last + o.blocks) (h1 : s.last + o.blocks < 2 ^ 64) :
    stalls o s now = true ↔ (o.iotime ≠ 0 ∧ s.lastTime + o.iotime ≤ now) ∨
      ((o.iotime = 0 ∨ o.blocksSet = true) ∧ (s.last + o.blocks ≤ s.cnt)) := by
  have hu : (u64 (s.last + o.blocks) ≤ s.cnt) ↔ s.last + o.blocks ≤ s.cnt := by unfold u64; omega
  unfold stalls
  by_cases hi : o.iotime = 0
  · simp [hi, hu]
  · by_cases ht : o.iotime ≤ now - s.lastTime
    · have : s.lastTime + o.iotime ≤ now := by omega
      simp [hi, ht, this]
    · have : ¬ s.lastTime + o.iotime ≤ now := by omega
      cases hb : o.blocksSet <;> simp [hi, ht, this, hu]

/-- Once the sum is negative it never stops by the number of I/Os. -/
theorem C92_never_counterexample (o : Opts) (s : St) (now : Nat) (h0 : s.last + o.blocks < 0) (h1 : -2 ^ 63 ≤ s.last + o.blocks)
    (hc : s.cnt < 2 ^ 63) (hi : o.iotime = 0) : stalls o s now = false := by
  have : ¬ u64 (s.last + o.blocks) ≤ s.cnt := by unfold u64; omega
  simp [stalls, hi, this]

theorem limit_eq (o : Opts) (n t : Nat) (hn : n < 2 ^ 31) (ht : o.timeout ≠ 0 → t ≤ o.timeout) (hT : o.timeout < 2 ^ 64) :
    limit o (n : Int) t = ((if o.timeout = 0 then n else min n (o.timeout - t) : Nat) : Int) := by
  unfold limit
  by_cases h : o.timeout = 0
  · simp [h]
  · have hr : u64 ((o.timeout : Int) - t) = o.timeout - t := by unfold u64; have := ht h; omega
    rw [if_pos h, if_neg h]
    simp only
    rw [hr, u64_nat n (by omega)]
    split
    · rw [i32_nat _ (by omega)]
      omega
    · omega

/-- **C92** (how long, partial): it spins as long as thinktime_spin says and then sleeps for what is missing to thinktime, but neither for
longer than the run has left.  Missing: times of 2^31 microseconds and more, and a run that is past its end. -/
theorem C92_pause_partial (o : Opts) (e : Env) (hs : o.spin < 2 ^ 31) (ht : o.thinktime < 2 ^ 31) (hT : o.timeout < 2 ^ 64)
    (h1 : o.timeout ≠ 0 → e.t1 ≤ o.timeout) (h2 : o.timeout ≠ 0 → e.t2 ≤ o.timeout) :
    ∃ sp sl, sp = (if o.timeout = 0 then o.spin else min o.spin (o.timeout - e.t1)) ∧
      sl = (if o.timeout = 0 then o.thinktime - (if sp = 0 then 0 else e.spun)
        else min (o.thinktime - (if sp = 0 then 0 else e.spun)) (o.timeout - e.t2)) ∧
      pause o e = ⟨if sp = 0 then none else some sp, if sl = 0 then none else some sl,
        (if sp = 0 then 0 else e.spun) + (if sl = 0 then 0 else e.slept)⟩ := by
  refine ⟨_, _, rfl, rfl, ?_⟩
  unfold pause
  rw [i32_nat _ hs, limit_eq o o.spin e.t1 hs h1 hT]
  generalize hsp : (if o.timeout = 0 then o.spin else min o.spin (o.timeout - e.t1)) = sp
  have hsp' : sp < 2 ^ 31 := by
    rw [← hsp]
    split
    · exact hs
    · omega
  simp only
  generalize htot : (if sp = 0 then 0 else e.spun) = tot
  have htot' : (if (sp : Int) ≠ 0 then e.spun else 0) = tot := by
    rw [← htot]
    by_cases h : sp = 0 <;> simp [h]
  rw [htot']
  have hleft : (if tot < o.thinktime then i32 (o.thinktime - tot) else 0) = ((o.thinktime - tot : Nat) : Int) := by
    split
    · rw [i32_nat _ (by omega)]
    · omega
  rw [hleft, limit_eq o (o.thinktime - tot) e.t2 (by omega) h2 hT]
  generalize hsl : (if o.timeout = 0 then o.thinktime - tot else min (o.thinktime - tot) (o.timeout - e.t2)) = sl
  have hsl' : sl < 2 ^ 31 := by
    rw [← hsl]
    split <;> omega
  have c1 : ((if (sp : Int) ≠ 0 then some (u64 (sp : Int) % 2 ^ 32) else none) : Option Nat) = if sp = 0 then none else some sp := by
    by_cases h : sp = 0
    · simp [h]
    · rw [if_pos (by omega), if_neg h, u64_nat _ (by omega), Nat.mod_eq_of_lt (by omega)]
  have c2 : ((if (sl : Int) ≠ 0 then some (u64 (sl : Int)) else none) : Option Nat) = if sl = 0 then none else some sl := by
    by_cases h : sl = 0
    · simp [h]
    · rw [if_pos (by omega), if_neg h, u64_nat _ (by omega)]
  have c3 : (if (sl : Int) ≠ 0 then tot + e.slept else tot) = tot + (if sl = 0 then 0 else e.slept) := by
    by_cases h : sl = 0 <;> simp [h]
  rw [c1, c2, c3]

/-- **C92** (not shorter): if sleeping takes at least as long as asked for, a pause takes at least thinktime, or
as much as the run had left. -/
theorem C92_long_enough_partial (o : Opts) (e : Env) (hs : o.spin < 2 ^ 31) (ht : o.thinktime < 2 ^ 31) (hT : o.timeout < 2 ^ 64)
    (h1 : o.timeout ≠ 0 → e.t1 ≤ o.timeout) (h2 : o.timeout ≠ 0 → e.t2 ≤ o.timeout)
    (hsl : ∀ n, (pause o e).sleep = some n → n ≤ e.slept) :
    o.thinktime ≤ (pause o e).total ∨ (o.timeout ≠ 0 ∧ o.timeout ≤ e.t2 + (pause o e).total) := by
  obtain ⟨sp, sl, p1, p2, p3⟩ := C92_pause_partial o e hs ht hT h1 h2
  rw [p3] at hsl ⊢
  simp only at hsl ⊢
  by_cases hz : sl = 0
  · rw [if_pos hz]
    rw [hz] at p2
    split at p2 <;> omega
  · rw [if_neg hz] at hsl ⊢
    have := hsl sl rfl
    split at p2 <;> omega

theorem account_cnt (o : Opts) (s : St) (t : Nat) : (account o s t).cnt = s.cnt ∧ (account o s t).last = s.last := by
  unfold account
  split <;> exact ⟨rfl, rfl⟩

theorem run_gen (o : Opts) (hi : o.iotime = 0) (hb : 0 < o.blocks) : ∀ (es : List Env) (s : St), s.last = (s.cnt - s.cnt % o.blocks : Nat) →
    s.cnt + es.length + o.blocks < 2 ^ 64 → (∀ e ∈ es, e.acts = []) →
    run o s es = (List.range es.length).map fun i => decide (o.blocks ∣ s.cnt + i + 1) := by
  intro es
  induction es with
  | nil => intros; rfl
  | cons e es ih =>
    intro s hl hw ha
    simp only [List.length_cons] at hw
    have hm := Nat.mod_lt s.cnt hb
    have hm' := Nat.mod_le s.cnt o.blocks
    have hsucc : o.blocks ∣ s.cnt + 1 ↔ s.cnt % o.blocks + 1 = o.blocks := by
      have hd := Nat.div_add_mod s.cnt o.blocks
      rw [← hd, Nat.add_assoc, Nat.dvd_add_right (Nat.dvd_mul_right _ _), Nat.mul_add_mod, Nat.mod_mod]
      constructor
      · intro h
        have := Nat.le_of_dvd (by omega) h
        omega
      · intro h
        rw [h]
        exact Nat.dvd_refl _
    have hst : stalls o { s with cnt := s.cnt + 1 } e.now = decide (o.blocks ∣ s.cnt + 1) := by
      rw [Bool.eq_iff_iff, C92_when_partial _ _ _ (by simp only [hl]; omega) (by simp only [hl]; omega)]
      simp only [hi, hl, decide_eq_true_eq, ne_eq, not_true_eq_false, false_and, false_or, true_or, true_and]
      rw [hsucc]
      omega
    have hrec : ∀ s' : St, s'.cnt = s.cnt + 1 → s'.last = (s'.cnt - s'.cnt % o.blocks : Nat) →
        run o s' es = (List.range es.length).map ((fun i => decide (o.blocks ∣ s.cnt + i + 1)) ∘ Nat.succ) := by
      intro s' h1 h2
      rw [ih s' h2 (by omega) (fun v hv => ha v (List.mem_cons_of_mem _ hv))]
      apply List.map_congr_left
      intro i _
      simp only [Function.comp_apply, Nat.succ_eq_add_one]
      congr 2
      omega
    rw [List.length_cons, List.range_succ_eq_map, List.map_cons, List.map_map]
    unfold run
    simp only
    by_cases hd : o.blocks ∣ s.cnt + 1
    · rw [decide_eq_true hd] at hst
      unfold handle
      rw [if_pos hst]
      simp only [ha e List.mem_cons_self, List.foldl_nil]
      congr 1
      · simp [hd]
      · apply hrec
        · exact (account_cnt _ _ _).1
        · simp only [account_cnt]
          rw [Nat.mod_eq_zero_of_dvd hd]
          rfl
    · rw [decide_eq_false hd] at hst
      unfold handle
      rw [if_neg (by rw [hst]; simp)]
      simp only
      congr 1
      · simp [hd]
      · apply hrec
        · rfl
        · simp only [hl]
          have : (s.cnt + 1) % o.blocks = s.cnt % o.blocks + 1 := by
            rw [Nat.add_mod]
            by_cases h1 : o.blocks = 1
            · exact absurd (by rw [h1]; exact Nat.one_dvd _) hd
            · rw [Nat.mod_eq_of_lt (show 1 < o.blocks by omega)]
              apply Nat.mod_eq_of_lt
              have := fun h => hd (hsucc.2 h)
              omega
          rw [this]
          omega

/-- **C92** (issued I/Os): with thinktime_blocks_type=issue and no thinktime_iotime the pauses come exactly after every thinktime_blocks-th
I/O, if nothing is reset meanwhile. -/
theorem C92_every_partial (o : Opts) (hi : o.iotime = 0) (hb : 0 < o.blocks) (epoch : Nat) (es : List Env) (ha : ∀ e ∈ es, e.acts = [])
    (hw : es.length + o.blocks < 2 ^ 64) : run o (init epoch) es = (List.range es.length).map fun i => decide (o.blocks ∣ i + 1) := by
  have := run_gen o hi hb es (init epoch) (by simp [init]) (by simpa [init] using hw) ha
  simpa [init] using this

/-- **C92** (reset, partial): a reset (end of the ramp period) changes nothing about how many I/Os are missing to the next pause.  Missing:
more I/Os counted since the last pause than thinktime_blocks (`C92_never_counterexample`). -/
theorem C92_reset_partial (o : Opts) (s : St) (now n now' : Nat) (hi : o.iotime = 0) (h0 : 0 ≤ s.last) (h1 : s.cnt ≤ s.last + o.blocks)
    (h2 : s.last + o.blocks < 2 ^ 64) :
    stalls o { reset s now with cnt := n } now' = stalls o { s with cnt := s.cnt + n } now' := by
  rw [Bool.eq_iff_iff, C92_when_partial _ _ _ (by simp only [reset]; omega) (by simp only [reset]; omega),
    C92_when_partial _ _ _ (by simp only; omega) (by simp only; omega)]
  simp only [hi, reset, ne_eq, not_true_eq_false, false_and, false_or, true_or, true_and]
  omega

/-- **C92** (after a pause): what is kept: the number of I/Os at the time of the call, and the time at the end. -/
theorem C92_kept (o : Opts) (s : St) (e : Env) (h : stalls o s e.now = true) (ha : ∀ a ∈ e.acts, a = .done) :
    (handle o s e).2 = some (pause o e) ∧ (handle o s e).1.last = s.cnt ∧ (handle o s e).1.cnt = s.cnt + e.acts.length ∧
      (handle o s e).1.lastTime = (if o.iotime = 0 then s.lastTime else e.stop) ∧ (handle o s e).1.epoch = s.epoch := by
  have hf : ∀ (l : List Act) (s : St), (∀ a ∈ l, a = .done) → l.foldl act s = { s with cnt := s.cnt + l.length } := by
    intro l
    induction l with
    | nil => intros; rfl
    | cons a l ih =>
      intro s hl
      rw [List.foldl_cons, hl a List.mem_cons_self, ih _ (fun b hb => hl b (List.mem_cons_of_mem _ hb))]
      simp only [act, List.length_cons]
      congr 1
      omega
  unfold handle
  rw [if_pos h]
  simp only [hf _ s ha]
  refine ⟨trivial, trivial, (account_cnt _ _ _).1, ?_, ?_⟩
  · by_cases hi : o.iotime = 0
    · simp [hi, account]
      split <;> rfl
    · simp [hi]
  · unfold account
    split <;> rfl

/-- Without a stop nothing changes. -/
theorem C92_no_stop (o : Opts) (s : St) (e : Env) (h : stalls o s e.now = false) : handle o s e = (s, none) := by
  unfold handle
  rw [h]
  rfl

theorem far (x y q w z m : Nat) (h : y < q + m) (h5 : z ≤ w) : x + y < x + q - z + w + m := by omega

/-- **C92** (rate_ignore_thinktime, partial): after a pause the bytes that count for the rate are those the pause would have had time for, less
one block if it had time for one; so the time the next I/O is due (by the rate) is not later than it would be had the clock stood still.  Missing:
products that do not fit in 64 bits. -/
theorem C92_rate_partial (o : Opts) (s : St) (total : Nat) (ht : 0 < total) (hr : 0 < o.rate) (hg : o.rateIgn = true)
    (h1 : o.rate * total < 2 ^ 64) (h2 : o.bs * 1000000 < 2 ^ 64) (h3 : s.bytes + o.rate * total / 1000000 < 2 ^ 64) (h4 : o.bs ≤ s.bytes) :
    (account o s total).bytes = s.bytes + o.rate * total / 1000000 - (if o.bs * 1000000 < o.rate * (total + 1) then o.bs else 0) ∧
    (account o s total).bytes * 1000000 ≤ s.bytes * 1000000 + o.rate * total ∧
    s.bytes * 1000000 + o.rate * total < (account o s total).bytes * 1000000 + o.bs * 1000000 + 1000000 ∧
    (account o s total).usec = s.usec + total := by
  have hc : (o.bs * 1000000 / o.rate ≤ total) ↔ o.bs * 1000000 < o.rate * (total + 1) := by
    rw [← Nat.lt_succ_iff, Nat.div_lt_iff_lt_mul hr, Nat.mul_comm o.rate]
  have hb : (account o s total).bytes = s.bytes + o.rate * total / 1000000 - (if o.bs * 1000000 < o.rate * (total + 1) then o.bs else 0) := by
    unfold account
    rw [if_pos ⟨by omega, by omega, hg⟩]
    simp only
    rw [Nat.mod_eq_of_lt h1, Nat.mod_eq_of_lt h2]
    by_cases hle : o.bs * 1000000 / o.rate ≤ total
    · rw [if_pos hle, if_pos (hc.1 hle)]
      unfold u64
      omega
    · have hz : (o.bs * 1000000 / o.rate - total) / (o.bs * 1000000 / o.rate) = 0 := Nat.div_eq_of_lt (by omega)
      rw [if_neg hle, if_neg (fun h => hle (hc.2 h)), hz]
      unfold u64
      simp only [Int.natCast_zero, Int.zero_mul]
      omega
  refine ⟨hb, ?_, ?_, ?_⟩
  · rw [hb]
    have := Nat.div_mul_le_self (o.rate * total) 1000000
    generalize o.rate * total / 1000000 = q at this
    rw [Nat.sub_mul, Nat.add_mul]
    omega
  · rw [hb]
    have := Nat.lt_div_mul_add (a := o.rate * total) (b := 1000000) (by decide)
    generalize o.rate * total / 1000000 = q at this
    rw [Nat.sub_mul, Nat.add_mul]
    have h5 : (if o.bs * 1000000 < o.rate * (total + 1) then o.bs else 0) * 1000000 ≤ o.bs * 1000000 := by
      apply Nat.mul_le_mul_right
      split
      · exact Nat.le_refl _
      · exact Nat.zero_le _
    exact far _ _ _ _ _ _ this h5
  · unfold account
    rw [if_pos ⟨by omega, by omega, hg⟩]

/-- Without rate_ignore_thinktime a pause does not count for the rate. -/
theorem C92_rate_kept (o : Opts) (s : St) (total : Nat) (hg : o.rateIgn = false) : account o s total = s := by
  unfold account
  rw [if_neg (by simp [hg])]

end Fio.Think
