import Verif.Stat.Model
import Mathlib.Tactic.Ring
/-
C13: latency buckets.
-/
namespace Fio.Stat

/-- Error bits of a value: the number of low bits its bucket ignores. -/
def eb (v : Nat) : Nat := v.log2 - 6

theorem platNr_eq : platNr = 1856 := by decide

theorem eb_bounds {v : Nat} (h : 128 ≤ v) : 1 ≤ eb v ∧ 2 ^ (eb v + 6) ≤ v ∧ v < 2 ^ (eb v + 7) := by
  have h0 : v ≠ 0 := by omega
  have h1 : 7 ≤ v.log2 := (Nat.le_log2 h0).2 h
  unfold eb
  refine ⟨by omega, ?_, ?_⟩
  · rw [show v.log2 - 6 + 6 = v.log2 by omega]; exact Nat.log2_self_le h0
  · rw [show v.log2 - 6 + 7 = v.log2 + 1 by omega]; exact Nat.lt_log2_self

theorem eb_small {v : Nat} (h : v < 128) : eb v = 0 := by
  unfold eb
  rcases Nat.eq_zero_or_pos v with h0 | h0
  · subst h0; decide
  · have : v.log2 < 7 := (Nat.log2_lt (by omega)).2 h
    omega

theorem q_bounds {v : Nat} (h : 128 ≤ v) : 64 ≤ v / 2 ^ eb v ∧ v / 2 ^ eb v < 128 := by
  obtain ⟨_, h2, h3⟩ := eb_bounds h
  have hp : 0 < 2 ^ eb v := Nat.two_pow_pos _
  constructor
  · rw [Nat.le_div_iff_mul_le hp]
    calc 64 * 2 ^ eb v = 2 ^ (eb v + 6) := by rw [pow_add]; ring
      _ ≤ v := h2
  · rw [Nat.div_lt_iff_lt_mul hp]
    calc v < 2 ^ (eb v + 7) := h3
      _ = 128 * 2 ^ eb v := by rw [pow_add]; ring

theorem valToIdx_eq (v : Nat) : valToIdx v = min (eb v * 64 + v / 2 ^ eb v) (platNr - 1) := by
  rcases Nat.lt_or_ge v 128 with h | h
  · have hm : (if v = 0 then 0 else v.log2) ≤ platBits := by
      split
      · exact Nat.zero_le _
      · have : v.log2 < 7 := (Nat.log2_lt (by omega)).2 h
        show v.log2 ≤ 6; omega
    unfold valToIdx
    simp only [hm, if_true, eb_small h]
    rw [platNr_eq]; simp; omega
  · obtain ⟨h1, h2, h3⟩ := eb_bounds h
    obtain ⟨q1, q2⟩ := q_bounds h
    have h0 : v ≠ 0 := by omega
    have hl : 7 ≤ v.log2 := (Nat.le_log2 h0).2 h
    have he : v.log2 - platBits = eb v := rfl
    unfold valToIdx
    simp only [if_neg h0]
    rw [if_neg (by show ¬ v.log2 ≤ 6; omega)]
    simp only [he, Nat.shiftRight_eq_div_pow, Nat.shiftLeft_eq]
    have hand : (platVal - 1) &&& (v / 2 ^ eb v) = v / 2 ^ eb v - 64 := by
      rw [Nat.and_comm]
      show (v / 2 ^ eb v) &&& (2 ^ 6 - 1) = _
      rw [Nat.and_two_pow_sub_one_eq_mod]
      omega
    rw [hand]
    have hbase : (eb v + 1) * 2 ^ platBits + (v / 2 ^ eb v - 64) = eb v * 64 + v / 2 ^ eb v := by
      show (eb v + 1) * 64 + _ = _
      omega
    rw [hbase]
    split <;> omega

theorem valToIdx_lt (v : Nat) : valToIdx v < platNr := by
  rw [valToIdx_eq, platNr_eq]; omega

theorem eb_mono {v w : Nat} (h : v ≤ w) : eb v ≤ eb w := by
  rcases Nat.lt_or_ge v 128 with h1 | h1
  · rw [eb_small h1]; exact Nat.zero_le _
  · obtain ⟨_, h2, _⟩ := eb_bounds h1
    obtain ⟨_, _, h3⟩ := eb_bounds (Nat.le_trans h1 h)
    have : 2 ^ (eb v + 6) < 2 ^ (eb w + 7) := by omega
    have := (Nat.pow_lt_pow_iff_right (by decide)).1 this
    omega

theorem valToIdx_mono {v w : Nat} (h : v ≤ w) : valToIdx v ≤ valToIdx w := by
  rw [valToIdx_eq, valToIdx_eq]
  have he := eb_mono h
  have key : eb v * 64 + v / 2 ^ eb v ≤ eb w * 64 + w / 2 ^ eb w := by
    rcases Nat.eq_or_lt_of_le he with he | he
    · rw [he]
      have := Nat.div_le_div_right (c := 2 ^ eb w) h
      omega
    · have hw : 128 ≤ w := by
        rcases Nat.lt_or_ge w 128 with h1 | h1
        · rw [eb_small h1] at he; omega
        · exact h1
      have := (q_bounds hw).1
      have hv : v / 2 ^ eb v < 128 := by
        rcases Nat.lt_or_ge v 128 with h1 | h1
        · rw [eb_small h1]; simpa using h1
        · exact (q_bounds h1).2
      omega
  omega

/-- The representative of bucket `e * 64 + q`. -/
theorem idxToVal_eq {e q : Nat} (he : 1 ≤ e) (he2 : e ≤ 27) (hq : 64 ≤ q) (hq2 : q < 128) :
    idxToVal (e * 64 + q) = some (q * 2 ^ e + 2 ^ (e - 1)) := by
  unfold idxToVal
  rw [platNr_eq, if_pos (by omega), if_neg (by show ¬ e * 64 + q < 128; omega)]
  have h1 : (e * 64 + q) >>> platBits - 1 = e := by
    rw [Nat.shiftRight_eq_div_pow]; show (e * 64 + q) / 64 - 1 = e; omega
  have h2 : (e * 64 + q) % platVal = q - 64 := by show (e * 64 + q) % 64 = _; omega
  simp only [h1, h2, Nat.shiftLeft_eq, Nat.one_mul]
  congr 1
  obtain ⟨d, rfl⟩ : ∃ d, e = d + 1 := ⟨e - 1, by omega⟩
  obtain ⟨k, rfl⟩ : ∃ k, q = k + 64 := ⟨q - 64, by omega⟩
  have e1 : (2 * (k + 64 - 64) + 1) * 2 ^ (d + 1) = 2 * ((2 * k + 1) * 2 ^ d) := by
    rw [Nat.add_sub_cancel, pow_succ]; ring
  rw [e1, Nat.mul_div_cancel_left _ (by decide)]
  show 2 ^ (d + 1 + 6) + _ = _
  rw [Nat.add_sub_cancel, show d + 1 + 6 = d + 7 by omega, pow_add, pow_succ]
  ring

/-- **C13.**  For every 64-bit latency: the bucket index is inside the table; it is monotone in the
latency; latencies below 128 are represented exactly; every latency the table can hold (below 2^34
nanoseconds, about 17 s) is represented within v/128; larger ones go to the last bucket. -/
theorem C13_buckets :
    (∀ v, valToIdx v < platNr) ∧
    (∀ v w, v ≤ w → valToIdx v ≤ valToIdx w) ∧
    (∀ v < 128, idxToVal (valToIdx v) = some v) ∧
    (∀ v < 2 ^ 34, ∃ r, idxToVal (valToIdx v) = some r ∧ 128 * ((v : Int) - r).natAbs ≤ v) ∧
    (∀ v, 2 ^ 34 ≤ v → valToIdx v = platNr - 1) := by
  have exact : ∀ v < 128, idxToVal (valToIdx v) = some v := by
    intro v h
    rw [valToIdx_eq, eb_small h]
    have : min (0 * 64 + v / 2 ^ 0) (platNr - 1) = v := by rw [platNr_eq]; simp; omega
    rw [this]
    unfold idxToVal
    rw [platNr_eq, if_pos (by omega), if_pos (by show v < 128; exact h)]
  refine ⟨valToIdx_lt, fun _ _ => valToIdx_mono, exact, ?_, ?_⟩
  · intro v hv
    rcases Nat.lt_or_ge v 128 with h | h
    · exact ⟨v, exact v h, by simp⟩
    · obtain ⟨h1, h2, h3⟩ := eb_bounds h
      obtain ⟨q1, q2⟩ := q_bounds h
      have he : eb v ≤ 27 := by
        have : 2 ^ (eb v + 6) < 2 ^ 34 := by omega
        have := (Nat.pow_lt_pow_iff_right (by decide)).1 this
        omega
      have hidx : valToIdx v = eb v * 64 + v / 2 ^ eb v := by
        rw [valToIdx_eq, platNr_eq]; omega
      refine ⟨_, by rw [hidx]; exact idxToVal_eq h1 he q1 q2, ?_⟩
      have hd := Nat.div_add_mod v (2 ^ eb v)
      have hm := Nat.mod_lt v (Nat.two_pow_pos (eb v))
      have e1 : 2 ^ eb v = 2 * 2 ^ (eb v - 1) := by
        conv_lhs => rw [show eb v = (eb v - 1) + 1 by omega, pow_succ]
        ring
      have e2 : 2 ^ (eb v + 6) = 128 * 2 ^ (eb v - 1) := by rw [pow_add, e1]; ring
      rw [Nat.mul_comm] at hd
      omega
  · intro v hv
    have h : 128 ≤ v := by omega
    obtain ⟨q1, _⟩ := q_bounds h
    obtain ⟨_, _, h3⟩ := eb_bounds h
    have : 2 ^ 34 < 2 ^ (eb v + 7) := by omega
    have := (Nat.pow_lt_pow_iff_right (by decide)).1 this
    rw [valToIdx_eq, platNr_eq]; omega

/-- The representative of a bucket lies in the bucket, for every bucket of the table (so all buckets
are used and representatives increase strictly with the index). -/
theorem C13_representatives (i : Nat) (h : i < platNr) :
    ∃ v, idxToVal i = some v ∧ v < 2 ^ 34 ∧ valToIdx v = i := by
  rw [platNr_eq] at h
  rcases Nat.lt_or_ge i 128 with h1 | h1
  · refine ⟨i, ?_, by omega, ?_⟩
    · unfold idxToVal; rw [platNr_eq, if_pos h, if_pos (by show i < 128; exact h1)]
    · rw [valToIdx_eq, eb_small h1, platNr_eq]; simp; omega
  · obtain ⟨e, q, rfl, he, he2, hq, hq2⟩ : ∃ e q, i = e * 64 + q ∧ 1 ≤ e ∧ e ≤ 27 ∧ 64 ≤ q ∧ q < 128 :=
      ⟨i / 64 - 1, i % 64 + 64, by omega, by omega, by omega, by omega, by omega⟩
    refine ⟨_, idxToVal_eq he he2 hq hq2, ?_, ?_⟩
    · obtain ⟨d, rfl⟩ : ∃ d, e = d + 1 := ⟨e - 1, by omega⟩
      rw [Nat.add_sub_cancel]
      have : (2 : Nat) ^ d ≤ 2 ^ 26 := Nat.pow_le_pow_right (by decide) (by omega)
      have e1 : q * 2 ^ (d + 1) + 2 ^ d = (2 * q + 1) * 2 ^ d := by rw [pow_succ]; ring
      rw [e1]
      calc (2 * q + 1) * 2 ^ d ≤ 255 * 2 ^ 26 := Nat.mul_le_mul (by omega) this
        _ < 2 ^ 34 := by decide
    · obtain ⟨d, rfl⟩ : ∃ d, e = d + 1 := ⟨e - 1, by omega⟩
      rw [Nat.add_sub_cancel]
      set v := q * 2 ^ (d + 1) + 2 ^ d with hv
      have hp : 0 < 2 ^ d := Nat.two_pow_pos d
      have hps : 2 ^ (d + 1) = 2 * 2 ^ d := by rw [pow_succ]; ring
      have hlo : 2 ^ (d + 1 + 6) ≤ v := by
        have : 2 ^ (d + 1 + 6) = 64 * 2 ^ (d + 1) := by rw [pow_add _ (d + 1)]; ring
        rw [this, hv]
        exact Nat.le_trans (Nat.mul_le_mul_right _ hq) (Nat.le_add_right _ _)
      have hhi : v < 2 ^ (d + 1 + 7) := by
        have : 2 ^ (d + 1 + 7) = 128 * 2 ^ (d + 1) := by rw [pow_add _ (d + 1)]; ring
        rw [this, hv]
        have : q * 2 ^ (d + 1) ≤ 127 * 2 ^ (d + 1) := Nat.mul_le_mul_right _ (by omega)
        omega
      have h128 : 128 ≤ v := by
        have : 2 ^ 7 ≤ 2 ^ (d + 1 + 6) := Nat.pow_le_pow_right (by decide) (by omega)
        omega
      obtain ⟨b1, b2, b3⟩ := eb_bounds h128
      have heb : eb v = d + 1 := by
        have l1 : 2 ^ (eb v + 6) < 2 ^ (d + 1 + 7) := by omega
        have l2 : 2 ^ (d + 1 + 6) < 2 ^ (eb v + 7) := by omega
        have := (Nat.pow_lt_pow_iff_right (by decide)).1 l1
        have := (Nat.pow_lt_pow_iff_right (by decide)).1 l2
        omega
      have hdiv : v / 2 ^ (d + 1) = q := by
        rw [hv, Nat.mul_comm, Nat.mul_add_div (Nat.two_pow_pos _)]
        rw [Nat.div_eq_of_lt (by omega)]; omega
      rw [valToIdx_eq, heb, hdiv, platNr_eq]; omega

/-- 1 ms is reported as 1003520 ns, 5 s within 1/128. -/
example : valToIdx 1000000 = 954 ∧ idxToVal 954 = some 1003520 ∧
    (idxToVal (valToIdx 5000000000)) = some 4999610368 := by decide +kernel

end Fio.Stat
