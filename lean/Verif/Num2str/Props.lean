import Verif.Num2str.Model
import Mathlib.Data.Rat.Defs
import Mathlib.Algebra.Order.Ring.Rat
import Mathlib.Algebra.Order.Field.Basic
import Mathlib.Tactic.Ring
import Mathlib.Tactic.FieldSimp
import Mathlib.Tactic.Linarith
import Mathlib.Tactic.NormNum
import Mathlib.Tactic.Positivity
/-
C22: the printed number denotes the number within one unit of its last digit.
-/
namespace Fio.Num2str

/-! ## Specification -/

/-- The value denoted by the printed text: int.frac times 1000^pref (or 1024^pref). -/
def denotes (pow2 : Bool) (o : Out) : ℚ :=
  ((o.int : ℚ) + o.frac / 10 ^ o.decimals) * (if pow2 then 1024 else 1000 : ℚ) ^ o.pref

/-- One unit of the last printed digit. -/
def unitInLastPlace (pow2 : Bool) (o : Out) : ℚ :=
  (if pow2 then 1024 else 1000 : ℚ) ^ o.pref / 10 ^ o.decimals

/-- Characters used by the number, counting the point. -/
def width (o : Out) : Nat := ndigits o.int + if o.decimals = 0 then 0 else o.decimals + 1

/-! ## Lemmas -/

theorem ndigits_le_iff {n m : Nat} (hm : 1 ≤ m) : ndigits n ≤ m ↔ n < 10 ^ m := by
  unfold ndigits
  rcases Nat.eq_zero_or_pos n with h | h
  · subst h
    have : 0 < 10 ^ m := by positivity
    simp; omega
  · rw [← Nat.log_lt_iff_lt_pow (by decide) (by omega)]
    omega

theorem thousand_cases (p : Bool) : thousand p = 1000 ∨ thousand p = 1024 := by
  cases p <;> simp [thousand]

theorem thousand_cast (p : Bool) : (if p then 1024 else 1000 : ℚ) = (thousand p : ℚ) := by
  cases p <;> simp [thousand]

theorem divLoop_spec (t maxlen : Nat) (ht : 0 < t) : ∀ (k num : Nat) (m : Option Nat),
    ∃ j, j ≤ k ∧ (divLoop t maxlen k num m).1 = num / t ^ j ∧ (divLoop t maxlen k num m).2.2 = k - j ∧
      (j = 0 → (divLoop t maxlen k num m).2.1 = m) ∧
      (∀ i < j, maxlen < ndigits (num / t ^ i)) ∧
      (0 < j → (divLoop t maxlen k num m).2.1 = some (num / t ^ (j - 1) % t)) ∧
      (j < k → ndigits (num / t ^ j) ≤ maxlen)
  | 0, num, m => ⟨0, by omega, by simp [divLoop], by simp [divLoop], by simp [divLoop], by simp, by simp, by simp⟩
  | k + 1, num, m => by
    unfold divLoop
    by_cases h : ndigits num ≤ maxlen
    · rw [if_pos h]
      exact ⟨0, by omega, by simp, by simp, by simp, by simp, by simp, by simpa using h⟩
    · rw [if_neg h]
      obtain ⟨j, h1, h2, h3, h4, h5, h6, h7⟩ := divLoop_spec t maxlen ht k (num / t) (some (num % t))
      have hd : ∀ i, num / t / t ^ i = num / t ^ (i + 1) := by
        intro i; rw [Nat.div_div_eq_div_mul, pow_succ, Nat.mul_comm]
      refine ⟨j + 1, by omega, by rw [h2, hd], by rw [h3]; omega, by omega, ?_, ?_, ?_⟩
      · intro i hi
        rcases Nat.eq_zero_or_pos i with h0 | h0
        · subst h0; simpa using Nat.lt_of_not_le h
        · obtain ⟨i', rfl⟩ : ∃ i', i = i' + 1 := ⟨i - 1, by omega⟩
          rw [← hd]; exact h5 i' (by omega)
      · intro _
        rw [Nat.add_sub_cancel]
        rcases Nat.eq_zero_or_pos j with h0 | h0
        · subst h0; rw [h4 rfl]; simp
        · rw [h6 h0, hd, Nat.sub_add_cancel h0]
      · intro hlt; rw [← hd]; exact h7 (by omega)

theorem fmtFrac_near (t d m : Nat) (up : Bool) (ht : 0 < t) :
    |(fmtFrac t d m up : ℚ) - 10 ^ d * m / t| ≤ 1 / 2 := by
  have hq := Nat.div_add_mod (10 ^ d * m) t
  have hr := Nat.mod_lt (10 ^ d * m) ht
  unfold fmtFrac
  simp only
  set q := 10 ^ d * m / t
  set r := 10 ^ d * m % t
  have htq : (0 : ℚ) < t := by exact_mod_cast ht
  have e : (10 : ℚ) ^ d * m / t = q + (r : ℚ) / t := by
    have : ((10 ^ d * m : Nat) : ℚ) = ((t * q + r : Nat) : ℚ) := by rw [hq]
    push_cast at this
    rw [this]; field_simp
  rw [e]
  have hr2 : (r : ℚ) < t := by exact_mod_cast hr
  have hr0 : (0 : ℚ) ≤ r := by exact_mod_cast Nat.zero_le r
  have hdiv0 : 0 ≤ (r : ℚ) / t := by positivity
  have hhalf : ∀ {a : ℚ}, a ≤ t / 2 → a / t ≤ 1 / 2 := by
    intro a ha; rw [div_le_iff₀ htq]; linarith
  have hhalf' : ∀ {a : ℚ}, (t : ℚ) / 2 ≤ a → 1 / 2 ≤ a / t := by
    intro a ha; rw [le_div_iff₀ htq]; linarith
  have hone : (r : ℚ) / t ≤ 1 := by rw [div_le_one htq]; exact le_of_lt hr2
  rw [abs_le]
  by_cases h1 : 2 * r < t
  · rw [if_pos h1]
    have : (r : ℚ) ≤ t / 2 := by
      have : (2 : ℚ) * r < t := by exact_mod_cast h1
      linarith
    have := hhalf this
    constructor <;> linarith
  · rw [if_neg h1]
    have h1' : (t : ℚ) / 2 ≤ r := by
      have : (t : ℚ) ≤ 2 * r := by exact_mod_cast (by omega : t ≤ 2 * r)
      linarith
    have g1 := hhalf' h1'
    by_cases h2 : 2 * r > t
    · rw [if_pos h2]; push_cast; constructor <;> linarith
    · rw [if_neg h2]
      have h2' : (r : ℚ) ≤ t / 2 := by
        have : (2 : ℚ) * r ≤ t := by exact_mod_cast (by omega : 2 * r ≤ t)
        linarith
      have g2 := hhalf h2'
      cases up
      · simp only [Bool.false_eq_true, if_false]; constructor <;> linarith
      · simp only [if_true]; push_cast; constructor <;> linarith

theorem fmtFrac_le (t d m : Nat) (up : Bool) (ht : 0 < t) (hm : m < t) : fmtFrac t d m up ≤ 10 ^ d := by
  have hlt : 10 ^ d * m / t < 10 ^ d := by
    rw [Nat.div_lt_iff_lt_mul ht]
    exact Nat.mul_lt_mul_of_pos_left hm (by positivity)
  unfold fmtFrac
  simp only
  split
  · omega
  · split
    · omega
    · split <;> omega

theorem basePost_pow (t : Nat) (ht : 2 ≤ t) : ∀ (b fuel : Nat), b < fuel → basePost t fuel (t ^ b) = b
  | 0, fuel, h => by
    obtain ⟨f, rfl⟩ : ∃ f, fuel = f + 1 := ⟨fuel - 1, by omega⟩
    simp [basePost]
  | b + 1, fuel, h => by
    obtain ⟨f, rfl⟩ : ∃ f, fuel = f + 1 := ⟨fuel - 1, by omega⟩
    have h1 : t ^ (b + 1) > 1 := Nat.one_lt_pow (by omega) (by omega)
    have h2 : t ^ (b + 1) / t = t ^ b := by rw [pow_succ]; exact Nat.mul_div_cancel _ (by omega)
    simp only [basePost, if_pos h1, h2]
    rw [basePost_pow t ht b f (by omega)]

/-- The number of decimals is at most two. -/
theorem decimals_le {t maxlen q p : Nat} (ht : t ≤ 1024) (hp : maxlen < ndigits p) (hq : p < (q + 1) * t)
    (hml : 1 ≤ maxlen) : maxlen - ndigits q - 1 ≤ 2 := by
  by_contra hc
  have hnd : 1 ≤ ndigits q := by unfold ndigits; omega
  have h1 : q < 10 ^ (maxlen - 4) := (ndigits_le_iff (by omega)).1 (by omega)
  have h2 : ¬ p < 10 ^ maxlen := fun h => absurd ((ndigits_le_iff hml).2 h) (by omega)
  have h3 : (q + 1) * t ≤ 10 ^ (maxlen - 4) * 1024 := Nat.mul_le_mul h1 ht
  have h4 : 10 ^ (maxlen - 4) * 10 ^ 4 = 10 ^ maxlen := by rw [← pow_add]; congr 1; omega
  omega

/-- **C22.**  Let the base be 1000^b (or 1024^b for binary prefixes) and the number not exceed what
fits `maxlen` digits with the largest prefix.  Then num2str prints a number that differs from
`num * base` by at most one unit of its last digit, with at most two decimals.  It takes at most
`maxlen` characters, or `maxlen + 1` when rounding carries into a new digit. -/
theorem C22_num2str_partial (num maxlen b : Nat) (pow2 up : Bool) (hml : 1 ≤ maxlen) (hb : b ≤ 6)
    (hfit : num < 10 ^ maxlen * thousand pow2 ^ (6 - b)) :
    ∃ o, num2str num maxlen (thousand pow2 ^ b) pow2 up = some o ∧
      |denotes pow2 o - (num : ℚ) * (thousand pow2 : ℚ) ^ b| ≤ unitInLastPlace pow2 o ∧
      o.frac < 10 ^ o.decimals ∧ o.decimals ≤ 2 ∧ o.pref ≤ 6 ∧
      (num < 10 ^ maxlen → o = ⟨num, 0, 0, b⟩) ∧
      (width o ≤ maxlen ∨ (width o = maxlen + 1 ∧ ∃ k, o.int = 10 ^ k ∧ o.frac = 0)) := by
  have ht := thousand_cases pow2
  have htp : 0 < thousand pow2 := by omega
  unfold num2str denotes unitInLastPlace
  simp only [thousand_cast]
  set t := thousand pow2 with htdef
  have htq : (0 : ℚ) < t := by exact_mod_cast htp
  rw [basePost_pow t (by omega) b 31 (by omega)]
  obtain ⟨j, h1, h2, h3, h4, h5, h6, h7⟩ := divLoop_spec t maxlen htp (nPrefix - b) num none
  generalize divLoop t maxlen (nPrefix - b) num none = res at *
  obtain ⟨n, m, k⟩ := res
  simp only at h2 h3 h4 h6 ⊢
  have hn7 : nPrefix = 7 := rfl
  have hjlt : j < nPrefix - b := by
    rcases Nat.lt_or_ge j (nPrefix - b) with h | h
    · exact h
    · exfalso
      have hlow := h5 (6 - b) (by omega)
      have : num / t ^ (6 - b) < 10 ^ maxlen := by
        rw [Nat.div_lt_iff_lt_mul (by positivity)]; exact hfit
      have := (ndigits_le_iff hml).2 this
      omega
  have hk : k ≠ 0 := by omega
  have hpref : nPrefix - k = b + j := by omega
  rw [if_neg hk, hpref]
  have hfits := h7 hjlt
  rw [← h2] at hfits
  rcases Nat.eq_zero_or_pos j with hj | hj
  · subst hj
    rw [h4 rfl]
    have hnn : n = num := by simpa using h2
    subst hnn
    refine ⟨_, rfl, ?_, by simp, by simp, by dsimp only; omega, fun _ => by simp, Or.inl ?_⟩
    · simp only [Nat.cast_zero, pow_zero, div_one, add_zero, sub_self, abs_zero]
      positivity
    · simpa [width] using hfits
  · rw [h6 hj]
    simp only
    set p := num / t ^ (j - 1) with hpdef
    have hnp : n = p / t := by
      rw [h2, hpdef, Nat.div_div_eq_div_mul, ← pow_succ]; congr 2; omega
    set md := p % t with hmd
    have hpn : p = t * n + md := by rw [hnp, hmd]; exact (Nat.div_add_mod p t).symm
    have hmdlt : md < t := Nat.mod_lt _ htp
    set r := num % t ^ (j - 1) with hrdef
    have hpw : 0 < t ^ (j - 1) := by positivity
    have hr : r < t ^ (j - 1) := Nat.mod_lt _ hpw
    have hnum : num = t ^ (j - 1) * p + r := (Nat.div_add_mod num _).symm
    have hplong : maxlen < ndigits p := by rw [hpdef]; exact h5 (j - 1) (by omega)
    have hnotsmall : ¬ num < 10 ^ maxlen := by
      intro hc
      have := h5 0 hj
      simp only [pow_zero, Nat.div_one] at this
      have := (ndigits_le_iff hml).2 hc
      omega
    -- exact value in units of t^(b+j)
    have hpwq : (0 : ℚ) < (t : ℚ) ^ (j - 1) := by positivity
    set x : ℚ := (r : ℚ) / (t : ℚ) ^ (j - 1) / t with hx
    have hx0 : 0 ≤ x := by positivity
    have hx1 : x ≤ 1 / t := by
      rw [hx]
      apply div_le_div_of_nonneg_right _ (le_of_lt htq)
      rw [div_le_one hpwq]
      exact_mod_cast Nat.le_of_lt hr
    have hval : (num : ℚ) * (t : ℚ) ^ b = (n + (md : ℚ) / t + x) * (t : ℚ) ^ (b + j) := by
      have e1 : (num : ℚ) = (t : ℚ) ^ (j - 1) * (t * n + md) + r := by
        have : ((num : Nat) : ℚ) = ((t ^ (j - 1) * (t * n + md) + r : Nat) : ℚ) := by rw [← hpn, ← hnum]
        push_cast at this; exact this
      have e2 : (t : ℚ) ^ (b + j) = (t : ℚ) ^ b * (t ^ (j - 1) * t) := by
        rw [pow_add, ← pow_succ]; congr 3; omega
      rw [e1, e2, hx]
      field_simp
    have hunit : (0 : ℚ) < (t : ℚ) ^ (b + j) := by positivity
    have hmd0 : (0 : ℚ) ≤ (md : ℚ) / t := by positivity
    have ht1000 : (1000 : ℚ) ≤ t := by
      rcases ht with h | h <;> rw [h] <;> norm_num
    have hinv : 1 / (t : ℚ) ≤ 1 / 1000 := one_div_le_one_div_of_le (by norm_num) ht1000
    have hndn : 1 ≤ ndigits n := by unfold ndigits; omega
    by_cases hroom : (maxlen : Int) - ndigits n ≤ 1
    · -- no room for decimals
      rw [if_pos hroom]
      refine ⟨_, rfl, ?_, by simp, by simp, by dsimp only; omega, fun h => absurd h hnotsmall, ?_⟩
      · simp only [Nat.cast_zero, pow_zero, div_one, add_zero]
        rw [hval, ← sub_mul, abs_mul, abs_of_pos hunit]
        apply mul_le_of_le_one_left (le_of_lt hunit)
        by_cases hc : md ≥ t / 2
        · simp only [hc, decide_true, if_true]
          push_cast
          have hmh : (1 : ℚ) / 2 ≤ (md : ℚ) / t := by
            rw [le_div_iff₀ htq]
            have : (t : ℚ) ≤ 2 * md := by exact_mod_cast (by omega : t ≤ 2 * md)
            linarith
          have hm1 : (md : ℚ) / t ≤ 1 := by
            rw [div_le_one htq]; exact_mod_cast Nat.le_of_lt hmdlt
          rw [abs_le]; constructor <;> linarith
        · simp only [hc, decide_false, Bool.false_eq_true, if_false]
          have hmh : (md : ℚ) / t ≤ 1 / 2 := by
            rw [div_le_iff₀ htq]
            have : (2 : ℚ) * md ≤ t := by exact_mod_cast (by omega : 2 * md ≤ t)
            linarith
          rw [abs_le]; constructor <;> linarith
      · unfold width
        simp only [if_true, Nat.add_zero]
        split
        · rcases Nat.lt_or_ge (n + 1) (10 ^ maxlen) with h | h
          · exact Or.inl ((ndigits_le_iff hml).2 h)
          · have : n < 10 ^ maxlen := (ndigits_le_iff hml).1 hfits
            have e : n + 1 = 10 ^ maxlen := by omega
            refine Or.inr ⟨?_, maxlen, by rw [e], trivial⟩
            rw [e]; unfold ndigits; rw [Nat.log_pow (by decide)]
        · exact Or.inl hfits
    · rw [if_neg hroom, if_pos hmdlt]
      set d := maxlen - ndigits n - 1 with hd
      have hdpos : 1 ≤ d := by omega
      have hd2 : d ≤ 2 := by
        apply decimals_le (t := t) (p := p) (by omega) hplong ?_ hml
        rw [hpn, Nat.add_mul, Nat.one_mul, Nat.mul_comm]; omega
      have hnear := fmtFrac_near t d md up htp
      have hle := fmtFrac_le t d md up htp hmdlt
      set f := fmtFrac t d md up
      have hten : (0 : ℚ) < 10 ^ d := by positivity
      have hten2 : (10 : ℚ) ^ d ≤ 100 := by
        have : (10 : ℚ) ^ d ≤ 10 ^ 2 := pow_le_pow_right₀ (by norm_num) hd2
        linarith
      have herr : |((n : ℚ) + f / 10 ^ d) - (n + (md : ℚ) / t + x)| ≤ 1 / 10 ^ d := by
        have e1 : ((n : ℚ) + f / 10 ^ d) - (n + (md : ℚ) / t + x) =
            ((f : ℚ) - 10 ^ d * md / t - 10 ^ d * x) / 10 ^ d := by field_simp; ring
        rw [e1, abs_div, abs_of_pos hten]
        apply div_le_div_of_nonneg_right _ (le_of_lt hten)
        have hxs : (10 : ℚ) ^ d * x ≤ 1 / 10 := by
          calc (10 : ℚ) ^ d * x ≤ 100 * (1 / 1000) := by
                apply mul_le_mul hten2 (le_trans hx1 hinv) hx0 (by norm_num)
            _ = 1 / 10 := by norm_num
        have hxs0 : 0 ≤ (10 : ℚ) ^ d * x := by positivity
        rw [abs_le] at hnear ⊢
        constructor <;> linarith [hnear.1, hnear.2]
      have hfinal : ∀ (i f' : Nat), (i : ℚ) + f' / 10 ^ d = n + f / 10 ^ d →
          |((i : ℚ) + f' / 10 ^ d) * (t : ℚ) ^ (b + j) - (num : ℚ) * (t : ℚ) ^ b| ≤ (t : ℚ) ^ (b + j) / 10 ^ d := by
        intro i f' hif
        rw [hif, hval, ← sub_mul, abs_mul, abs_of_pos hunit]
        calc _ ≤ 1 / 10 ^ d * (t : ℚ) ^ (b + j) := mul_le_mul_of_nonneg_right herr (le_of_lt hunit)
          _ = _ := by ring
      by_cases hcarry : f ≥ 10 ^ d
      · rw [if_pos hcarry]
        have hfe : f = 10 ^ d := by omega
        refine ⟨_, rfl, ?_, ?_, by dsimp only; exact hd2, by dsimp only; omega, fun h => absurd h hnotsmall, ?_⟩
        · apply hfinal
          rw [hfe]; push_cast; simp
        · dsimp only; rw [hfe]; simp
        · have hnl : n < 10 ^ ndigits n := (ndigits_le_iff hndn).1 (Nat.le_refl _)
          unfold width
          dsimp only
          rw [if_neg (by omega)]
          rcases Nat.lt_or_ge (n + 1) (10 ^ ndigits n) with h | h
          · left
            have := (ndigits_le_iff hndn).2 h
            omega
          · right
            have e : n + 1 = 10 ^ ndigits n := by omega
            refine ⟨?_, ndigits n, e, by omega⟩
            have : ndigits (n + 1) = ndigits n + 1 := by
              conv_lhs => rw [e]
              rw [ndigits, Nat.log_pow (by decide)]
            omega
      · rw [if_neg hcarry]
        refine ⟨_, rfl, hfinal n f rfl, by dsimp only; omega, by dsimp only; exact hd2, by dsimp only; omega,
          fun h => absurd h hnotsmall, Or.inl ?_⟩
        unfold width
        dsimp only
        rw [if_neg (by omega)]
        omega

/-- fio's reports call num2str with base 1; with at least two significant figures every 64-bit number
is printed right. -/
theorem C22_base1 (num maxlen : Nat) (pow2 up : Bool) (hnum : num < 2 ^ 64) (hml : 2 ≤ maxlen) :
    ∃ o, num2str num maxlen 1 pow2 up = some o ∧ |denotes pow2 o - num| ≤ unitInLastPlace pow2 o := by
  have hfit : num < 10 ^ maxlen * thousand pow2 ^ (6 - 0) := by
    have h1 : 10 ^ 2 ≤ 10 ^ maxlen := Nat.pow_le_pow_right (by decide) hml
    have h2 : 1000 ^ 6 ≤ thousand pow2 ^ 6 := Nat.pow_le_pow_left (by rcases thousand_cases pow2 with h | h <;> omega) 6
    have h3 : 10 ^ 2 * 1000 ^ 6 ≤ 10 ^ maxlen * thousand pow2 ^ 6 := Nat.mul_le_mul h1 h2
    have h4 : 2 ^ 64 < 10 ^ 2 * 1000 ^ 6 := by decide
    show num < 10 ^ maxlen * thousand pow2 ^ 6
    omega
  obtain ⟨o, h1, h2, _⟩ := C22_num2str_partial num maxlen 0 pow2 up (by omega) (by omega) hfit
  refine ⟨o, by simpa using h1, by simpa using h2⟩

/-- The same for the bit units: the text denotes eight times the number of bytes. -/
theorem C22_bits (num maxlen : Nat) (pow2 up : Bool) (hnum : num < 2 ^ 61) (hml : 2 ≤ maxlen) :
    ∃ o, num2strUnits num maxlen 1 pow2 true up = some o ∧
      |denotes pow2 o - 8 * num| ≤ unitInLastPlace pow2 o := by
  unfold num2strUnits
  rw [if_pos rfl, Nat.mod_eq_of_lt (by omega)]
  obtain ⟨o, h1, h2⟩ := C22_base1 (num * 8) maxlen pow2 up (by omega) hml
  refine ⟨o, h1, ?_⟩
  push_cast at h2
  rwa [mul_comm (8 : ℚ)]

theorem log_of_bounds {n k : Nat} (h1 : 10 ^ k ≤ n) (h2 : n < 10 ^ (k + 1)) : ndigits n = k + 1 := by
  unfold ndigits
  rw [Nat.log_eq_of_pow_le_of_lt_pow h1 h2]

/-- **The width limit is exceeded when rounding carries**: 999999 with three digits is "1000k". -/
theorem C22_width_counterexample (up : Bool) : num2str 999999 3 1 false up = some ⟨1000, 0, 0, 1⟩ := by
  have h6 : ndigits 999999 = 6 := log_of_bounds (by decide) (by decide)
  have h3 : ndigits 999 = 3 := log_of_bounds (by decide) (by decide)
  simp [num2str, basePost, divLoop, thousand, nPrefix, h6, h3]

/-- **Prefix lost**: with one significant figure, 2^64 - 1 bytes are printed as "0". -/
theorem C22_prefix_counterexample (up : Bool) : num2str (2 ^ 64 - 1) 1 1 false up = some ⟨0, 0, 0, 0⟩ := by
  have d0 : ndigits 18446744073709551615 = 20 := log_of_bounds (by decide) (by decide)
  have d1 : ndigits 18446744073709551 = 17 := log_of_bounds (by decide) (by decide)
  have d2 : ndigits 18446744073709 = 14 := log_of_bounds (by decide) (by decide)
  have d3 : ndigits 18446744073 = 11 := log_of_bounds (by decide) (by decide)
  have d4 : ndigits 18446744 = 8 := log_of_bounds (by decide) (by decide)
  have d5 : ndigits 18446 = 5 := log_of_bounds (by decide) (by decide)
  have d6 : ndigits 18 = 2 := log_of_bounds (by decide) (by decide)
  have d7 : ndigits 0 = 1 := by simp [ndigits]
  simp [num2str, basePost, divLoop, thousand, nPrefix, d0, d1, d2, d3, d4, d5, d6, d7]

/-- **Mixed base**: stat.c:951 passes base 1024 with decimal prefixes (`!i2p`).  9000 KiB are printed
as "9000k", which denotes 9000000 and is 216 units of the last digit away from 9216000. -/
theorem C22_mixed_base_counterexample (up : Bool) : ∃ o, num2str 9000 4 1024 false up = some o ∧
    denotes false o = 9000000 ∧ unitInLastPlace false o = 1000 ∧ ((9000 : ℚ) * 1024 = 9216000) := by
  have h : ndigits 9000 = 4 := log_of_bounds (by decide) (by decide)
  refine ⟨⟨9000, 0, 0, 1⟩, by simp [num2str, basePost, divLoop, thousand, nPrefix, h], ?_, ?_, by norm_num⟩
  · norm_num [denotes]
  · norm_num [unitInLastPlace]

/-- 1536 KiB with four digits: the hypotheses hold and "1.50Mi"-like output is produced (here 1572864
is printed as 1536Ki because it fits four digits). -/
example (up : Bool) : num2str 1572864 4 1 true up = some ⟨1536, 0, 0, 1⟩ := by
  have h7 : ndigits 1572864 = 7 := log_of_bounds (by decide) (by decide)
  have h4 : ndigits 1536 = 4 := log_of_bounds (by decide) (by decide)
  simp [num2str, basePost, divLoop, thousand, nPrefix, h7, h4]

/-- 12345678 with four digits is "12.3M". -/
example (up : Bool) : num2str 12345678 4 1 false up = some ⟨12, 1, 3, 2⟩ := by
  have h8 : ndigits 12345678 = 8 := log_of_bounds (by decide) (by decide)
  have h5 : ndigits 12345 = 5 := log_of_bounds (by decide) (by decide)
  have h2 : ndigits 12 = 2 := log_of_bounds (by decide) (by decide)
  simp [num2str, basePost, divLoop, thousand, nPrefix, h8, h5, h2, fmtFrac]

example : (12345678 : Nat) < 10 ^ 4 * thousand false ^ (6 - 0) := by decide

end Fio.Num2str
