import Mathlib.Tactic.Linarith
/-
Rounding of natural numbers to IEEE-754 double precision (53 significant bits, round to nearest,
ties to even), as performed by integer-to-double conversion and by multiplication of doubles
whose exact product is a natural number times a power of two.  Overflow and subnormals do not
occur for the magnitudes used (below 2^200 in units no smaller than 2^-128).
-/
namespace Fio

/-- Round to 53 significant bits, nearest, ties to even. -/
def round53 (p : Nat) : Nat :=
  if p < 2 ^ 53 then p else
    let e := p.log2 - 52
    let q := p / 2 ^ e
    let r := p % 2 ^ e
    if 2 ^ e < 2 * r ∨ (2 * r = 2 ^ e ∧ q % 2 = 1) then (q + 1) * 2 ^ e else q * 2 ^ e

theorem round53_small {p : Nat} (h : p < 2 ^ 53) : round53 p = p := by
  unfold round53; rw [if_pos h]

/-- The shape of the result for a number of `e + 53` bits. -/
theorem round53_of_bits {p e : Nat} (h1 : 2 ^ (e + 52) ≤ p) (h2 : p < 2 ^ (e + 53)) :
    round53 p = if 2 ^ e < 2 * (p % 2 ^ e) ∨ (2 * (p % 2 ^ e) = 2 ^ e ∧ p / 2 ^ e % 2 = 1)
      then (p / 2 ^ e + 1) * 2 ^ e else p / 2 ^ e * 2 ^ e := by
  by_cases he : e = 0
  · subst he
    rw [round53_small (by simpa using h2)]
    simp [Nat.mod_one]
  · have hp0 : p ≠ 0 := by have := Nat.two_pow_pos (e + 52); omega
    have hl : p.log2 = e + 52 := (Nat.log2_eq_iff hp0).2 ⟨h1, h2⟩
    have hge : ¬ p < 2 ^ 53 := by
      have : 2 ^ 53 ≤ 2 ^ (e + 52) := Nat.pow_le_pow_right (by omega) (by omega)
      omega
    unfold round53
    rw [if_neg hge, hl]
    simp

theorem exists_bits {p : Nat} (h : 2 ^ 53 ≤ p) : ∃ e, 0 < e ∧ 2 ^ (e + 52) ≤ p ∧ p < 2 ^ (e + 53) := by
  have hp0 : p ≠ 0 := by omega
  have h1 := Nat.log2_self_le hp0
  have h2 := Nat.lt_log2_self (n := p)
  have h3 : 53 ≤ p.log2 := (Nat.le_log2 hp0).2 h
  refine ⟨p.log2 - 52, by omega, ?_, ?_⟩
  · rw [show p.log2 - 52 + 52 = p.log2 by omega]; exact h1
  · rw [show p.log2 - 52 + 53 = p.log2 + 1 by omega]; exact h2

/-- Rounding never passes a representable number (upwards). -/
theorem round53_le {p m e : Nat} (hd : 2 ^ e ∣ m) (hm : m ≤ 2 ^ (e + 53)) (hp : p ≤ m) :
    round53 p ≤ m := by
  by_cases hs : p < 2 ^ 53
  · rw [round53_small hs]; exact hp
  · obtain ⟨e', h0, h1, h2⟩ := exists_bits (by omega : 2 ^ 53 ≤ p)
    rw [round53_of_bits h1 h2]
    have hpos := Nat.two_pow_pos e'
    have hdm := Nat.div_add_mod p (2 ^ e')
    have hlt := Nat.mod_lt p hpos
    by_cases hee : e' ≤ e
    · have hd' : 2 ^ e' ∣ m := Nat.dvd_trans (Nat.pow_dvd_pow 2 hee) hd
      obtain ⟨k, rfl⟩ := hd'
      split
      · rename_i hc
        have hr : 0 < p % 2 ^ e' := by omega
        have : p / 2 ^ e' < k := by
          apply Nat.lt_of_mul_lt_mul_left (a := 2 ^ e')
          omega
        calc (p / 2 ^ e' + 1) * 2 ^ e' ≤ k * 2 ^ e' := Nat.mul_le_mul_right _ this
          _ = 2 ^ e' * k := Nat.mul_comm _ _
      · have : p / 2 ^ e' * 2 ^ e' ≤ p := Nat.div_mul_le_self _ _
        omega
    · have h3 : 2 ^ (e + 53) ≤ 2 ^ (e' + 52) := Nat.pow_le_pow_right (by omega) (by omega)
      have hpe : p = 2 ^ (e' + 52) := by omega
      have hmod : p % 2 ^ e' = 0 := by
        rw [hpe, Nat.pow_add]; exact Nat.mul_mod_right _ _
      rw [hmod, if_neg (by omega)]
      have : p / 2 ^ e' * 2 ^ e' ≤ p := Nat.div_mul_le_self _ _
      omega

/-- Rounding never passes a representable number (downwards). -/
theorem le_round53 {p m e : Nat} (hd : 2 ^ e ∣ m) (hm : m ≤ 2 ^ (e + 53)) (hp : m ≤ p) :
    m ≤ round53 p := by
  by_cases hs : p < 2 ^ 53
  · rw [round53_small hs]; exact hp
  · obtain ⟨e', h0, h1, h2⟩ := exists_bits (by omega : 2 ^ 53 ≤ p)
    rw [round53_of_bits h1 h2]
    have hpos := Nat.two_pow_pos e'
    have hfloor : m ≤ p / 2 ^ e' * 2 ^ e' := by
      by_cases hee : e' ≤ e
      · have hd' : 2 ^ e' ∣ m := Nat.dvd_trans (Nat.pow_dvd_pow 2 hee) hd
        obtain ⟨k, rfl⟩ := hd'
        rw [Nat.mul_comm]
        apply Nat.mul_le_mul_right
        rw [Nat.le_div_iff_mul_le hpos, Nat.mul_comm]; exact hp
      · have h3 : 2 ^ (e + 53) ≤ 2 ^ (e' + 52) := Nat.pow_le_pow_right (by omega) (by omega)
        have h4 : 2 ^ 52 ≤ p / 2 ^ e' := by
          rw [Nat.le_div_iff_mul_le hpos, ← Nat.pow_add, Nat.add_comm]; exact h1
        have h5 : 2 ^ 52 * 2 ^ e' ≤ p / 2 ^ e' * 2 ^ e' := Nat.mul_le_mul_right _ h4
        rw [← Nat.pow_add, Nat.add_comm] at h5
        omega
    split
    · rw [Nat.add_mul]; omega
    · exact hfloor

theorem round53_exact {m e : Nat} (hd : 2 ^ e ∣ m) (hm : m ≤ 2 ^ (e + 53)) : round53 m = m :=
  Nat.le_antisymm (round53_le hd hm (Nat.le_refl _)) (le_round53 hd hm (Nat.le_refl _))

theorem round53_mono {p x : Nat} (h : p ≤ x) : round53 p ≤ round53 x := by
  by_cases hs : p < 2 ^ 53
  · rw [round53_small hs]
    exact le_round53 (e := 0) (by simp) (by simp; omega) h
  · obtain ⟨e, h0, h1, h2⟩ := exists_bits (by omega : 2 ^ 53 ≤ p)
    by_cases hx : x < 2 ^ (e + 53)
    · have h1' : 2 ^ (e + 52) ≤ x := by omega
      rw [round53_of_bits h1 h2, round53_of_bits h1' hx]
      have hpos := Nat.two_pow_pos e
      have hq : p / 2 ^ e ≤ x / 2 ^ e := Nat.div_le_div_right h
      rcases Nat.lt_or_ge (p / 2 ^ e) (x / 2 ^ e) with hlt | hge
      · have h3 : (p / 2 ^ e + 1) * 2 ^ e ≤ x / 2 ^ e * 2 ^ e := Nat.mul_le_mul_right _ hlt
        have h4 : p / 2 ^ e * 2 ^ e ≤ (p / 2 ^ e + 1) * 2 ^ e := Nat.mul_le_mul_right _ (by omega)
        have h5 : x / 2 ^ e * 2 ^ e ≤ (x / 2 ^ e + 1) * 2 ^ e := Nat.mul_le_mul_right _ (by omega)
        split <;> split <;> omega
      · have heq : x / 2 ^ e = p / 2 ^ e := by omega
        have d1 := Nat.div_add_mod p (2 ^ e)
        have d2 := Nat.div_add_mod x (2 ^ e)
        rw [heq] at d2 ⊢
        have hm : p % 2 ^ e ≤ x % 2 ^ e := by omega
        have h4 : p / 2 ^ e * 2 ^ e ≤ (p / 2 ^ e + 1) * 2 ^ e := Nat.mul_le_mul_right _ (by omega)
        split
        · rename_i hc
          rw [if_pos (by omega)]
        · split <;> omega
    · have h3 : round53 p ≤ 2 ^ (e + 53) := round53_le (e := e) (Nat.pow_dvd_pow 2 (by omega)) (Nat.le_refl _) (by omega)
      have h4 : 2 ^ (e + 53) ≤ round53 x :=
        le_round53 (e := e) (Nat.pow_dvd_pow 2 (by omega)) (Nat.le_refl _) (by omega)
      omega

/-- A number less than half a unit above a multiple of the unit is rounded down to it. -/
theorem round53_near {p m e : Nat} (h1 : 2 ^ (e + 52) ≤ p) (h2 : p < 2 ^ (e + 53)) (hd : 2 ^ e ∣ m)
    (hm : 2 * p < 2 * m + 2 ^ e) : round53 p ≤ m := by
  rw [round53_of_bits h1 h2]
  have hpos := Nat.two_pow_pos e
  have hdm := Nat.div_add_mod p (2 ^ e)
  have hlt := Nat.mod_lt p hpos
  obtain ⟨k, rfl⟩ := hd
  rcases Nat.lt_or_ge (p / 2 ^ e) k with hk | hk
  · have h3 : (p / 2 ^ e + 1) * 2 ^ e ≤ k * 2 ^ e := Nat.mul_le_mul_right _ hk
    have h4 : p / 2 ^ e * 2 ^ e ≤ (p / 2 ^ e + 1) * 2 ^ e := Nat.mul_le_mul_right _ (by omega)
    rw [Nat.mul_comm (2 ^ e) k]
    split <;> omega
  · have h3 : 2 ^ e * k ≤ 2 ^ e * (p / 2 ^ e) := Nat.mul_le_mul_left _ hk
    have hkeq : p / 2 ^ e = k := by
      apply Nat.le_antisymm _ hk
      apply Nat.le_of_lt_succ
      apply Nat.lt_of_mul_lt_mul_left (a := 2 ^ e)
      rw [Nat.mul_succ]; omega
    rw [hkeq] at hdm
    rw [hkeq, if_neg (by omega), Nat.mul_comm]

/-- `n * (r / 2^32)` computed in doubles and truncated is below `n`. -/
theorem scale32_lt {n r : Nat} (hn : 0 < n) (hn32 : n ≤ 2 ^ 32) (hr : r < 2 ^ 32) :
    round53 (n * r) / 2 ^ 32 < n := by
  have hlo := Nat.log2_self_le (n := n) (by omega)
  have hhi := Nat.lt_log2_self (n := n)
  have ht : n.log2 ≤ 32 := by
    have := (Nat.log2_lt (n := n) (k := 33) (by omega)).2 (by omega)
    omega
  generalize n.log2 = t at *
  have hmul : n * r ≤ n * (2 ^ 32 - 1) := Nat.mul_le_mul_left _ (by omega)
  have hle : n * r ≤ n * 2 ^ 32 - 2 ^ t := by
    rw [Nat.mul_sub] at hmul
    omega
  have hpos := Nat.two_pow_pos t
  have h1 : round53 (n * r) ≤ n * 2 ^ 32 - 2 ^ t := by
    apply round53_le (e := t) _ _ hle
    · apply Nat.dvd_sub
      · exact Dvd.dvd.mul_left (Nat.pow_dvd_pow 2 ht) n
      · exact Nat.dvd_refl _
    · have h3 : n * 2 ^ 32 ≤ 2 ^ (t + 1) * 2 ^ 32 := Nat.mul_le_mul_right _ (by omega)
      rw [← Nat.pow_add] at h3
      have h4 : 2 ^ (t + 1 + 32) ≤ 2 ^ (t + 53) := Nat.pow_le_pow_right (by omega) (by omega)
      omega
  rw [Nat.div_lt_iff_lt_mul (by omega)]
  have : 0 < n * 2 ^ 32 := by positivity
  omega

/-- A 64-bit number below 2^64 - 1024 rounds to at most 2^64 - 2048. -/
theorem round53_lt64 {r : Nat} (hr : r < 2 ^ 64 - 1024) : round53 r ≤ 2 ^ 64 - 2048 := by
  rcases Nat.lt_or_ge r (2 ^ 63) with h | h
  · have := round53_le (p := r) (m := 2 ^ 63) (e := 10) (by norm_num) (by norm_num) (by omega)
    omega
  · exact round53_near (e := 11) (by omega) (by omega) (by norm_num) (by omega)

theorem round53_scale (p e : Nat) : round53 (2 ^ e * p) = 2 ^ e * round53 p := by
  by_cases hs : p < 2 ^ 53
  · rw [round53_small hs]
    apply round53_exact (e := e) (Nat.dvd_mul_right _ _)
    rw [Nat.pow_add]
    exact Nat.mul_le_mul_left _ (by omega)
  · obtain ⟨e', h0, h1, h2⟩ := exists_bits (by omega : 2 ^ 53 ≤ p)
    have hpos := Nat.two_pow_pos e
    rw [round53_of_bits h1 h2, round53_of_bits (e := e + e') (p := 2 ^ e * p)
      (by rw [Nat.add_assoc, Nat.pow_add]; exact Nat.mul_le_mul_left _ h1)
      (by rw [Nat.add_assoc, Nat.pow_add]; exact Nat.mul_lt_mul_of_pos_left h2 hpos)]
    rw [Nat.pow_add 2 e e', Nat.mul_div_mul_left _ _ hpos, Nat.mul_mod_mul_left]
    have hc : (2 ^ e * 2 ^ e' < 2 * (2 ^ e * (p % 2 ^ e')) ∨
        2 * (2 ^ e * (p % 2 ^ e')) = 2 ^ e * 2 ^ e' ∧ p / 2 ^ e' % 2 = 1) ↔
        (2 ^ e' < 2 * (p % 2 ^ e') ∨ 2 * (p % 2 ^ e') = 2 ^ e' ∧ p / 2 ^ e' % 2 = 1) := by
      rw [show 2 * (2 ^ e * (p % 2 ^ e')) = 2 ^ e * (2 * (p % 2 ^ e')) by ac_rfl]
      rw [Nat.mul_lt_mul_left hpos, Nat.mul_right_inj (by omega)]
    simp only [hc]
    split <;> ac_rfl

/-- The double product of `n` and a 64-bit draw outside the top 1024 values, in units of 2^-64. -/
theorem scale64_bound {n r t : Nat} (hlo : 2 ^ t ≤ n) (hhi : n < 2 ^ (t + 1)) (hn53 : n ≤ 2 ^ 53)
    (hr : r < 2 ^ 64 - 1024) :
    round53 (n * round53 r) ≤ n * 2 ^ 64 - 2 ^ (t + 11) ∧
    (n ≠ 2 ^ t → round53 (n * round53 r) ≤ n * 2 ^ 64 - 2 ^ (t + 12)) := by
  have hpos := Nat.two_pow_pos t
  have ht : t ≤ 53 := by
    rcases Nat.lt_or_ge 53 t with h | h
    · have : 2 ^ 54 ≤ 2 ^ t := Nat.pow_le_pow_right (by omega) h
      omega
    · exact h
  have hr' := round53_lt64 hr
  have hmul : n * round53 r ≤ n * (2 ^ 64 - 2048) := Nat.mul_le_mul_left _ hr'
  have hmono := round53_mono hmul
  have hp11 : 2 ^ (t + 11) = 2 ^ t * 2048 := by rw [Nat.pow_add]
  have hp12 : 2 ^ (t + 12) = 2 ^ t * 4096 := by rw [Nat.pow_add]
  rcases Nat.lt_or_ge (2 ^ t) n with hgt | hle
  · have ht52 : t ≤ 52 := by
      rcases Nat.lt_or_ge 52 t with h | h
      · have : 2 ^ 53 ≤ 2 ^ t := Nat.pow_le_pow_right (by omega) h
        omega
      · exact h
    have hp64 : 2 ^ (t + 12 + 52) = 2 ^ t * 2 ^ 64 := by rw [Nat.add_assoc, Nat.pow_add]
    have hp65 : 2 ^ (t + 12 + 53) = 2 ^ (t + 1) * 2 ^ 64 := by rw [Nat.add_assoc, ← Nat.pow_add]
    have ht2 : 2 ^ t ≤ 2 ^ 52 := Nat.pow_le_pow_right (by omega) ht52
    have hts : 2 ^ (t + 1) = 2 * 2 ^ t := by rw [Nat.pow_succ, Nat.mul_comm]
    have key : round53 (n * (2 ^ 64 - 2048)) ≤ n * 2 ^ 64 - 2 ^ (t + 12) := by
      apply round53_near (e := t + 12)
      · rw [hp64]; omega
      · rw [hp65]; omega
      · apply Nat.dvd_sub
        · exact Dvd.dvd.mul_left (Nat.pow_dvd_pow 2 (by omega)) n
        · exact Nat.dvd_refl _
      · rw [hp12]; omega
    constructor
    · rw [hp11]; rw [hp12] at key; omega
    · intro _; omega
  · have hnt : n = 2 ^ t := by omega
    have : round53 (n * (2 ^ 64 - 2048)) = n * (2 ^ 64 - 2048) := by
      apply round53_exact (e := t + 11)
      · rw [hnt, Nat.pow_add]; exact Nat.mul_dvd_mul_left _ (by norm_num)
      · rw [hnt]
        calc 2 ^ t * (2 ^ 64 - 2048) ≤ 2 ^ t * 2 ^ 64 := Nat.mul_le_mul_left _ (by omega)
          _ = 2 ^ (t + 11 + 53) := by rw [← Nat.pow_add]
    constructor
    · rw [hp11]; omega
    · intro h; exact absurd hnt h

/-- Rounding moves a number by at most half a unit. -/
theorem round53_err {p e : Nat} (h1 : 2 ^ (e + 52) ≤ p) (h2 : p < 2 ^ (e + 53)) :
    ∃ k, round53 p = 2 ^ e * k ∧ 2 ^ 52 ≤ k ∧ k ≤ 2 ^ 53 ∧ 2 * (2 ^ e * k) ≤ 2 * p + 2 ^ e := by
  have hpos := Nat.two_pow_pos e
  have hdm := Nat.div_add_mod p (2 ^ e)
  have hlt := Nat.mod_lt p hpos
  have hk1 : 2 ^ 52 ≤ p / 2 ^ e := by
    rw [Nat.le_div_iff_mul_le hpos, ← Nat.pow_add, Nat.add_comm]; exact h1
  have hk2 : p / 2 ^ e < 2 ^ 53 := by
    rw [Nat.div_lt_iff_lt_mul hpos, ← Nat.pow_add, Nat.add_comm]; exact h2
  rw [round53_of_bits h1 h2]
  split
  · refine ⟨p / 2 ^ e + 1, Nat.mul_comm _ _, by omega, by omega, ?_⟩
    rw [Nat.mul_add]; omega
  · refine ⟨p / 2 ^ e, Nat.mul_comm _ _, by omega, by omega, ?_⟩
    omega

/-- `n * (r / 2^64)` computed in doubles and truncated is below `n`, for every 64-bit `n`, unless `r`
is among the top 1024 values. -/
theorem scale64_lt {n r : Nat} (hn : 0 < n) (hr : r < 2 ^ 64 - 1024) :
    round53 (round53 n * round53 r) / 2 ^ 64 < n := by
  have small : ∀ k, 0 < k → k ≤ 2 ^ 53 → ∃ t, 2 ^ t ≤ k ∧ k < 2 ^ (t + 1) := by
    intro k hk _
    exact ⟨k.log2, Nat.log2_self_le (by omega), Nat.lt_log2_self⟩
  by_cases hs : n < 2 ^ 53
  · rw [round53_small hs]
    obtain ⟨t, h1, h2⟩ := small n hn (by omega)
    have hb := (scale64_bound h1 h2 (by omega) hr).1
    rw [Nat.div_lt_iff_lt_mul (by omega)]
    have := Nat.two_pow_pos (t + 11)
    omega
  · obtain ⟨e, h0, h1, h2⟩ := exists_bits (by omega : 2 ^ 53 ≤ n)
    obtain ⟨k, hk, hk1, hk2, hk3⟩ := round53_err h1 h2
    rw [hk, Nat.mul_assoc, round53_scale]
    rw [Nat.div_lt_iff_lt_mul (by omega)]
    have hpos := Nat.two_pow_pos e
    have he1 : 2 ^ e = 2 * 2 ^ (e - 1) := by
      rw [show e = (e - 1) + 1 by omega, Nat.pow_succ, Nat.mul_comm]; rfl
    have hpos' := Nat.two_pow_pos (e - 1)
    by_cases hk52 : k = 2 ^ 52
    · subst hk52
      have hb := (scale64_bound (n := 2 ^ 52) (t := 52) (Nat.le_refl _) (by omega) (by omega) hr).1
      have h3 := Nat.mul_le_mul_left (2 ^ e) hb
      rw [Nat.pow_add] at h1
      omega
    · by_cases hk53 : k = 2 ^ 53
      · subst hk53
        have hb := (scale64_bound (n := 2 ^ 53) (t := 53) (Nat.le_refl _) (by omega) (by omega) hr).1
        have h3 := Nat.mul_le_mul_left (2 ^ e) hb
        omega
      · have hb := (scale64_bound (n := k) (t := 52) hk1 (by omega) hk2 hr).2 hk52
        have h3 := Nat.mul_le_mul_left (2 ^ e) hb
        rw [Nat.mul_sub, ← Nat.mul_assoc] at h3
        omega

/-- For one of the top 1024 draws the draw rounds to 2^64 and the product to `n` itself. -/
theorem scale64_top {n r : Nat} (hr : 2 ^ 64 - 1024 ≤ r) (hr' : r < 2 ^ 64) :
    round53 (round53 n * round53 r) / 2 ^ 64 = round53 n := by
  have h1 : round53 r = 2 ^ 64 := by
    have h2 : (2 : Nat) ^ 11 = 2048 := by norm_num
    rw [round53_of_bits (e := 11) (by omega) (by omega)]
    rw [if_pos (by omega)]
    omega
  rw [h1, Nat.mul_comm, round53_scale, Nat.mul_div_cancel_left _ (by omega)]
  by_cases hs : n < 2 ^ 53
  · rw [round53_small hs, round53_small hs]
  · obtain ⟨e, h0, h1, h2⟩ := exists_bits (by omega : 2 ^ 53 ≤ n)
    obtain ⟨k, hk, hk1, hk2, hk3⟩ := round53_err h1 h2
    rw [hk]
    apply round53_exact (e := e) (Nat.dvd_mul_right _ _)
    rw [Nat.pow_add]
    exact Nat.mul_le_mul_left _ hk2

end Fio
