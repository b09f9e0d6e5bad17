import Verif.RunStr.Spec
/-!
# C107: the states of the jobs and the time left, as shown
-/

namespace Fio.RunStr

theorem digit_val (d : Nat) (h : d < 10) : (digit d).toNat = 48 + d := by
  have : d = 0 ∨ d = 1 ∨ d = 2 ∨ d = 3 ∨ d = 4 ∨ d = 5 ∨ d = 6 ∨ d = 7 ∨ d = 8 ∨ d = 9 := by omega
  rcases this with h | h | h | h | h | h | h | h | h | h <;> subst h <;> decide

theorem dec_spec (n : Nat) : Digits (dec n) ∧ value (dec n) = n ∧ (1 ≤ n → (dec n).length ≤ n) := by
  induction n using Nat.strongRecOn with
  | ind n ih =>
    rw [dec]
    by_cases h : n < 10
    · rw [if_pos h]
      have hd := digit_val n h
      refine ⟨⟨by simp, ?_⟩, ?_, ?_⟩
      · intro c hc
        rw [List.mem_singleton] at hc
        subst hc
        omega
      · simp [value, hd]
      · simp
    · rw [if_neg h]
      obtain ⟨⟨a1, a2⟩, b, c⟩ := ih (n / 10) (by omega)
      have hd := digit_val (n % 10) (by omega)
      refine ⟨⟨by simp, ?_⟩, ?_, ?_⟩
      · intro x hx
        rcases List.mem_append.1 hx with hx | hx
        · exact a2 x hx
        · rw [List.mem_singleton] at hx
          subst hx
          omega
      · unfold value at b ⊢
        rw [List.foldl_append, b]
        simp only [List.foldl_cons, List.foldl_nil, hd]
        omega
      · intro _
        have := c (by omega)
        simp only [List.length_append, List.length_cons, List.length_nil]
        omega

theorem takeWhile_replicate (c : Char) (r : List Char) : r.takeWhile (· == c) = List.replicate (r.takeWhile (· == c)).length c := by
  induction r with
  | nil => rfl
  | cons a r ih =>
    rw [List.takeWhile_cons]
    split
    · rename_i h
      have : a = c := by simpa using h
      subst this
      rw [List.length_cons, List.replicate_succ, ← ih]
    · rfl

theorem run_eq (c : Char) (r : List Char) : List.replicate (1 + (r.takeWhile (· == c)).length) c ++ r.dropWhile (· == c) = c :: r := by
  rw [Nat.add_comm, List.replicate_succ, List.cons_append, ← takeWhile_replicate, List.takeWhile_append_dropWhile]

theorem loop_ne (s : List Char) (h : s ≠ []) : loop s ≠ [] := by
  cases s with
  | nil => exact absurd rfl h
  | cons c r => rw [loop]; simp

/-- The string says the state of every job, in order. -/
theorem C107_says (s : List Char) : Says (condense s) s := by
  have : ∀ n (s : List Char), s.length = n → s ≠ [] → Says (loop s).dropLast s ∧ (loop s).dropLast ≠ [] := by
    intro n
    induction n using Nat.strongRecOn with
    | ind n ih =>
      intro s hn hs
      cases s with
      | nil => exact absurd rfl hs
      | cons c r =>
        have hd := (dec_spec (1 + (r.takeWhile (· == c)).length))
        rw [loop]
        by_cases hr : r.dropWhile (· == c) = []
        · have e1 := run_eq c r
          rw [hr, List.append_nil] at e1
          have e2 : (c :: ('(' :: dec (1 + (r.takeWhile (· == c)).length) ++ [')', ',']) ++ loop (r.dropWhile (· == c))).dropLast =
              c :: '(' :: (dec (1 + (r.takeWhile (· == c)).length) ++ [')']) := by
            rw [hr, loop, List.append_nil]
            have : (c :: ('(' :: dec (1 + (r.takeWhile (· == c)).length) ++ [')', ','])) =
                (c :: '(' :: (dec (1 + (r.takeWhile (· == c)).length) ++ [')'])) ++ [','] := by simp
            rw [this, List.dropLast_concat]
          rw [e2]
          refine ⟨?_, by simp⟩
          have := Says.last c _ hd.1
          rw [hd.2.1, e1] at this
          exact this
        · have hlt := length_dropWhile (· == c) r
          obtain ⟨i1, i2⟩ := ih (r.dropWhile (· == c)).length (by simp at hn; omega) _ rfl hr
          have e2 : (c :: ('(' :: dec (1 + (r.takeWhile (· == c)).length) ++ [')', ',']) ++ loop (r.dropWhile (· == c))).dropLast =
              c :: '(' :: (dec (1 + (r.takeWhile (· == c)).length) ++ ')' :: ',' :: (loop (r.dropWhile (· == c))).dropLast) := by
            rw [List.dropLast_append_of_ne_nil (loop_ne _ hr)]
            simp
          rw [e2]
          refine ⟨?_, by simp⟩
          have := Says.more c _ _ _ hd.1 i2 i1
          rw [hd.2.1, run_eq c r] at this
          exact this
  unfold condense
  split
  · rename_i h; rw [h]; exact .none
  · rename_i h; exact (this _ s rfl h).1

theorem digits_prefix (a b x y : List Char) (ha : Digits a) (hb : Digits b) (h : a ++ ')' :: x = b ++ ')' :: y) : a = b ∧ x = y := by
  have ha' := ha.2
  have hb' := hb.2
  clear ha hb
  induction a generalizing b with
  | nil =>
    cases b with
    | nil => simpa using h
    | cons d b =>
      simp only [List.nil_append, List.cons_append, List.cons.injEq] at h
      have := hb' d (by simp)
      rw [← h.1] at this
      exact absurd this (by decide)
  | cons d a ih =>
    cases b with
    | nil =>
      simp only [List.nil_append, List.cons_append, List.cons.injEq] at h
      have := ha' d (by simp)
      rw [h.1] at this
      exact absurd this (by decide)
    | cons d' b =>
      simp only [List.cons_append, List.cons.injEq] at h
      obtain ⟨i1, i2⟩ := ih b h.2 (fun c hc => ha' c (List.mem_cons_of_mem _ hc)) (fun c hc => hb' c (List.mem_cons_of_mem _ hc))
      exact ⟨by rw [h.1, i1], i2⟩

/-- A string says one thing only. -/
theorem C107_unique (out s t : List Char) (hs : Says out s) (ht : Says out t) : s = t := by
  induction hs generalizing t with
  | none => cases ht; rfl
  | last c ds hd =>
    generalize ho : c :: '(' :: (ds ++ [')']) = o at ht
    cases ht with
    | none => cases ho
    | last c' ds' hd' =>
      simp only [List.cons.injEq] at ho
      obtain ⟨rfl, -, h⟩ := ho
      obtain ⟨rfl, -⟩ := digits_prefix ds ds' [] [] hd hd' h
      rfl
    | more c' ds' out s hd' hne hs =>
      simp only [List.cons.injEq] at ho
      obtain ⟨rfl, -, h⟩ := ho
      obtain ⟨-, h2⟩ := digits_prefix ds ds' [] _ hd hd' h
      cases h2
  | more c ds out s hd hne _ ih =>
    generalize ho : c :: '(' :: (ds ++ ')' :: ',' :: out) = o at ht
    cases ht with
    | none => cases ho
    | last c' ds' hd' =>
      simp only [List.cons.injEq] at ho
      obtain ⟨rfl, -, h⟩ := ho
      obtain ⟨-, h2⟩ := digits_prefix ds ds' _ [] hd hd' h
      cases h2
    | more c' ds' out' s' hd' hne' hs' =>
      simp only [List.cons.injEq] at ho
      obtain ⟨rfl, -, h⟩ := ho
      obtain ⟨rfl, h2⟩ := digits_prefix ds ds' _ _ hd hd' h
      simp only [List.cons.injEq, true_and] at h2
      subst h2
      rw [ih s' hs']

/-- Different states are shown differently. -/
theorem C107_injective (s t : List Char) (h : condense s = condense t) : s = t :=
  C107_unique (condense s) s t (C107_says s) (by rw [h]; exact C107_says t)

theorem loop_length (s : List Char) : (loop s).length ≤ 5 * s.length := by
  have : ∀ n (s : List Char), s.length = n → (loop s).length ≤ 5 * s.length := by
    intro n
    induction n using Nat.strongRecOn with
    | ind n ih =>
      intro s hn
      cases s with
      | nil => simp [loop]
      | cons c r =>
        have hlt := length_dropWhile (· == c) r
        have i1 := ih (r.dropWhile (· == c)).length (by simp at hn; omega) _ rfl
        have hd := (dec_spec (1 + (r.takeWhile (· == c)).length)).2.2 (by omega)
        have hl : r.length = (r.takeWhile (· == c)).length + (r.dropWhile (· == c)).length := by
          rw [← List.length_append, List.takeWhile_append_dropWhile]
        rw [loop]
        simp only [List.length_append, List.length_cons, List.length_nil]
        omega
  exact this _ s rfl

/-- Nothing is written behind the buffer `run_str`, not even on the way, for as many jobs as there can be (/repo/eta.c:16-17); and the copy
with its 0 fits into the memory of `get_jobs_eta` for `nr` jobs (/repo/eta.c:551, 708). -/
theorem C107_fits (s : List Char) (nr : Nat) (h : s.length ≤ nr) : written s ≤ runstrSz nr + 1 ∧ (condense s).length + 1 ≤ runstrSz nr + 8 := by
  have h1 := loop_length s
  have h2 : (condense s).length ≤ (loop s).length := by
    unfold condense
    split
    · simp
    · simp
  simp only [written, runstrSz]
  omega

/-- The size of the buffer is needed: all jobs in different states write all of it. -/
theorem C107_fits_example : written ['R', 'W', 'R', 'W'] = runstrSz 4 + 1 := by
  have h : ∀ n, n < 10 → dec n = [digit n] := fun n hn => by rw [dec, if_pos hn]
  simp [written, runstrSz, loop, h]

theorem dec2_spec (n : Nat) : Digits (dec2 n) ∧ value (dec2 n) = n := by
  unfold dec2
  split
  · rename_i h
    have hd := digit_val n h
    refine ⟨⟨by simp, ?_⟩, ?_⟩
    · intro c hc
      simp only [List.mem_cons, List.not_mem_nil, or_false] at hc
      rcases hc with rfl | rfl
      · decide
      · omega
    · have : ('0' : Char).toNat = 48 := by decide
      simp [value, hd, this]
  · exact ⟨(dec_spec n).1, (dec_spec n).2.1⟩

/-- The time left is shown as it is, up to 2^32 days. -/
theorem C107_time (sec : Nat) (h : sec < 86400 * 2 ^ 32) : Time (etaToStr sec) sec := by
  unfold etaToStr
  rw [if_neg (by omega)]
  have hms := Time.ms _ _ (dec2_spec (sec / 60 % 60)).1 (dec2_spec (sec % 60)).1
  rw [(dec2_spec (sec / 60 % 60)).2, (dec2_spec (sec % 60)).2] at hms
  have hh := Time.hour _ _ _ (dec2_spec (sec / 60 / 60 % 24)).1 (by omega) hms
  rw [(dec2_spec (sec / 60 / 60 % 24)).2] at hh
  have hd := Time.day _ _ _ (dec2_spec (sec / 60 / 60 / 24 % 2 ^ 32)).1 (by omega) hh
  rw [(dec2_spec (sec / 60 / 60 / 24 % 2 ^ 32)).2] at hd
  by_cases h1 : sec / 60 / 60 / 24 % 2 ^ 32 = 0
  · by_cases h2 : sec / 60 / 60 % 24 = 0
    · simp only [h1, h2, ne_eq, not_true, if_false, or_self, List.nil_append]
      have : 60 * (sec / 60 % 60) + sec % 60 = sec := by omega
      rw [this] at hms
      exact hms
    · simp only [h1, h2, ne_eq, not_true, not_false_iff, if_false, if_true, true_or, List.nil_append]
      have : 3600 * (sec / 60 / 60 % 24) + (60 * (sec / 60 % 60) + sec % 60) = sec := by omega
      rw [this] at hh
      simpa using hh
  · simp only [h1, ne_eq, not_false_iff, if_true, or_true]
    have : 86400 * (sec / 60 / 60 / 24 % 2 ^ 32) + (3600 * (sec / 60 / 60 % 24) + (60 * (sec / 60 % 60) + sec % 60)) = sec := by omega
    rw [this] at hd
    simpa using hd

/-- The bound is needed: the days are kept in 32 bits. -/
theorem C107_time_counterexample : etaToStr (86400 * 2 ^ 32) = etaToStr 0 := by
  simp [etaToStr]

theorem dec2_len (n : Nat) (h : n < 2 ^ 32) : (dec2 n).length ≤ 10 := by
  have key : ∀ k (n : Nat), n < 10 ^ (k + 1) → (dec n).length ≤ k + 1 := by
    intro k
    induction k with
    | zero => intro n hn; rw [dec, if_pos (by simpa using hn)]; simp
    | succ k ih =>
      intro n hn
      rw [dec]
      split
      · simp
      · have := ih (n / 10) (by rw [Nat.pow_succ] at hn; omega)
        simp; omega
  unfold dec2
  split
  · simp
  · exact key 9 n (by omega)

/-- Every time fits into the buffers of 128 bytes (/repo/eta.c:601). -/
theorem C107_time_fits (sec : Nat) : (etaToStr sec).length + 1 ≤ 128 := by
  unfold etaToStr
  split
  · simp
  · have h1 := dec2_len (sec / 60 / 60 / 24 % 2 ^ 32) (Nat.mod_lt _ (by decide))
    have h2 := dec2_len (sec / 60 / 60 % 24) (by omega)
    have h3 := dec2_len (sec / 60 % 60) (by omega)
    have h4 := dec2_len (sec % 60) (by omega)
    simp only [List.length_append]
    split <;> split <;> simp only [List.length_append, List.length_cons, List.length_nil] <;> omega

/-- Ten jobs that read and one that exited; a day and a bit. -/
theorem C107_example : condense (List.replicate 10 'R' ++ ['E']) = "R(10),E(1)".toList ∧ etaToStr 90061 = "01d:01h:01m:01s".toList := by
  have h : ∀ n, n < 10 → dec n = [digit n] := fun n hn => by rw [dec, if_pos hn]
  have h10 : dec 10 = [digit 1, digit 0] := by rw [dec, if_neg (by decide), h _ (by decide)]; rfl
  refine ⟨?_, ?_⟩
  · have : loop (List.replicate 10 'R' ++ ['E']) = "R(10),E(1),".toList := by
      simp [loop, List.replicate, h, h10]
      decide
    unfold condense
    rw [this]
    decide
  · simp [etaToStr, dec2]
    decide

end Fio.RunStr
