import Verif.Fp.Spec
namespace Fio.Fp

variable {A : Arith}

/-- The significand `1 + m/2^52` as an integer times a power of two. -/
theorem keeps_scaled (hA : Sound A) {m : Nat} (hm : m < 2 ^ 52) {k : ℤ} (h1 : -1022 ≤ k)
    (h2 : k ≤ 1023) : A.rnd ((1 + m / 2 ^ 52) * 2 ^ k) = (1 + m / 2 ^ 52) * 2 ^ k := by
  have := hA.keeps (2 ^ 52 + m) (k - 52) (by rw [abs_of_nonneg (by positivity)]; omega) (by omega) (by omega)
  have e : ((2 ^ 52 + (m : ℤ) : ℤ) : ℚ) * 2 ^ (k - 52) = (1 + m / 2 ^ 52) * 2 ^ k := by
    rw [zpow_sub₀ (by norm_num)]
    push_cast
    field_simp
    ring
  rw [e] at this
  exact this

/-- Subnormals and their multiples. -/
theorem keeps_sub (hA : Sound A) {m : Nat} (hm : m < 2 ^ 53) {k : ℤ} (h1 : -1074 ≤ k)
    (h2 : k ≤ 971) : A.rnd (m * 2 ^ k) = m * 2 ^ k := by
  have := hA.keeps m k (by rw [abs_of_nonneg (by positivity)]; exact_mod_cast hm) h1 h2
  simpa using this

theorem down_ends (hA : Sound A) {v : ℚ} (h1 : 1 ≤ v) (h2 : v < 2) :
    ∀ (n : Nat) (s : Int) (fuel : Nat), n < fuel →
      (∀ i : Nat, i ≤ n → A.rnd (v * 2 ^ i) = v * 2 ^ i) →
      down A fuel (.fin (v * 2 ^ n)) s = some (.fin v, s + n)
  | 0, s, fuel, hf, _ => by
    obtain ⟨f, rfl⟩ : ∃ f, fuel = f + 1 := ⟨fuel - 1, by omega⟩
    have : ¬ (2 : ℚ) ≤ v := by linarith
    simp [down, LD.ge, this]
  | n + 1, s, fuel, hf, hk => by
    obtain ⟨f, rfl⟩ : ∃ f, fuel = f + 1 := ⟨fuel - 1, by omega⟩
    have hp : (1 : ℚ) ≤ 2 ^ n := one_le_pow₀ (by norm_num)
    have h3 : (2 : ℚ) ≤ v * 2 ^ (n + 1) := by rw [pow_succ]; nlinarith
    have h4 : v * 2 ^ (n + 1) / 2 = v * 2 ^ n := by rw [pow_succ]; ring
    simp only [down, LD.ge, h3, decide_true, if_true, LD.half, h4, hk n (by omega)]
    rw [down_ends hA h1 h2 n (s + 1) f (by omega) (fun i hi => hk i (by omega))]
    simp; omega

/-- A number below 2 leaves the first loop at once. -/
theorem down_none {v : ℚ} (h2 : v < 2) (s : Int) {fuel : Nat} (hf : 0 < fuel) :
    down A fuel (.fin v) s = some (.fin v, s) := by
  obtain ⟨f, rfl⟩ : ∃ f, fuel = f + 1 := ⟨fuel - 1, by omega⟩
  have : ¬ (2 : ℚ) ≤ v := by linarith
  simp [down, LD.ge, this]

theorem up_ends (hA : Sound A) {v : ℚ} (h1 : 1 ≤ v) (h2 : v < 2) :
    ∀ (n : Nat) (s : Int) (fuel : Nat), n < fuel →
      (∀ i : Nat, i ≤ n → A.rnd (v / 2 ^ i) = v / 2 ^ i) →
      up A fuel (.fin (v / 2 ^ n)) s = some (.fin v, s - n)
  | 0, s, fuel, hf, _ => by
    obtain ⟨f, rfl⟩ : ∃ f, fuel = f + 1 := ⟨fuel - 1, by omega⟩
    have : ¬ v < 1 := by linarith
    simp [up, LD.lt, this]
  | n + 1, s, fuel, hf, hk => by
    obtain ⟨f, rfl⟩ : ∃ f, fuel = f + 1 := ⟨fuel - 1, by omega⟩
    have hp : (1 : ℚ) ≤ 2 ^ n := one_le_pow₀ (by norm_num)
    have h3 : v / 2 ^ (n + 1) < 1 := by
      rw [div_lt_one (by positivity), pow_succ]; nlinarith
    have h4 : v / 2 ^ (n + 1) * 2 = v / 2 ^ n := by rw [pow_succ]; field_simp
    simp only [up, LD.lt, h3, decide_true, if_true, LD.twice, h4, hk n (by omega)]
    rw [up_ends hA h1 h2 n (s - 1) f (by omega) (fun i hi => hk i (by omega))]
    simp; omega

/-- The significand comes out as `m`. -/
theorem significand_eq (hA : Sound A) {m : Nat} (hm : m < 2 ^ 52) :
    significand A 52 (.fin (1 + m / 2 ^ 52)) = some (m : Int) := by
  have h0 : A.rnd ((m : ℚ) * 2 ^ (-52 : ℤ)) = (m : ℚ) * 2 ^ (-52 : ℤ) :=
    keeps_sub hA (by omega) (by norm_num) (by norm_num)
  have e0 : (1 + (m : ℚ) / 2 ^ 52 - 1) = (m : ℚ) * 2 ^ (-52 : ℤ) := by
    rw [show (-52 : ℤ) = -(52 : ℕ) by norm_num, zpow_neg, zpow_natCast]; field_simp; ring
  have e1 : (m : ℚ) * 2 ^ (-52 : ℤ) * 2 ^ 52 = m := by
    rw [show (-52 : ℤ) = -(52 : ℕ) by norm_num, zpow_neg, zpow_natCast]; field_simp
  have k1 : A.rnd (m : ℚ) = m := by
    have := keeps_sub hA (m := m) (k := 0) (by omega) (by norm_num) (by norm_num)
    simpa using this
  have k2 : A.rnd ((m : ℚ) + 1 / 2) = m + 1 / 2 := by
    have := keeps_sub hA (m := 2 * m + 1) (k := -1) (by omega) (by norm_num) (by norm_num)
    have e : ((2 * m + 1 : ℕ) : ℚ) * 2 ^ (-1 : ℤ) = m + 1 / 2 := by
      push_cast; rw [zpow_neg_one]; ring
    rwa [e] at this
  have hmq : (m : ℚ) < 2 ^ 52 := by exact_mod_cast hm
  have hm0 : (0 : ℚ) ≤ m := by positivity
  unfold significand
  simp only [e0, h0]
  rcases A with ⟨rnd, half⟩
  cases half
  · simp only [Bool.false_eq_true, if_false, e1]
    simp only at k1
    rw [k1]
    simp only [hm0, if_true, Int.floor_natCast]
    rw [if_pos (by omega)]
  · simp only [if_true]
    have e2 : (m : ℚ) * 2 ^ (-52 : ℤ) * (2 ^ 52 + 1 / 2) = m + (m : ℚ) / 2 ^ 53 := by
      rw [mul_add, e1, show (-52 : ℤ) = -(52 : ℕ) by norm_num, zpow_neg, zpow_natCast]
      field_simp
    rw [e2]
    have l1 := hA.mono (a := (m : ℚ)) (b := m + m / 2 ^ 53) (by
      have : (0 : ℚ) ≤ m / 2 ^ 53 := by positivity
      linarith)
    have l2 := hA.mono (a := m + m / 2 ^ 53) (b := (m : ℚ) + 1 / 2) (by
      have : (m : ℚ) / 2 ^ 53 ≤ 1 / 2 := by rw [div_le_div_iff₀ (by positivity) (by norm_num)]; linarith
      linarith)
    rw [k1] at l1
    rw [k2] at l2
    simp only at l1 l2 ⊢
    generalize rnd (m + m / 2 ^ 53) = r at l1 l2 ⊢
    have hf : ⌊r⌋ = m := by
      rw [Int.floor_eq_iff]
      constructor
      · simpa using l1
      · push_cast; linarith
    have hr : 0 ≤ r := le_trans hm0 l1
    rw [if_pos hr, hf, if_pos (by omega)]

theorem ofInt_nat (n : Nat) : BitVec.ofInt 64 (n : Int) = BitVec.ofNat 64 n := by
  simp

/-- The word put together. -/
theorem assemble (w : Fields) (h : w.Valid) :
    (BitVec.ofInt 64 (if w.s then 1 else 0) <<< 63 ||| BitVec.ofInt 64 (w.e : Int) <<< 52 |||
      BitVec.ofInt 64 (w.m : Int)) = BitVec.ofNat 64 w.word := by
  obtain ⟨s, e, m⟩ := w
  obtain ⟨he, hm⟩ := h
  simp only at he hm
  have h1 : 2 ^ 52 * e + m = 2 ^ 52 * e ||| m := Nat.two_pow_add_eq_or_of_lt hm e
  have h2 : 2 ^ 63 * 1 + (2 ^ 52 * e + m) = 2 ^ 63 * 1 ||| (2 ^ 52 * e + m) :=
    Nat.two_pow_add_eq_or_of_lt (by omega) 1
  apply BitVec.eq_of_toNat_eq
  simp only [Fields.word, ofInt_nat, BitVec.toNat_or, BitVec.toNat_shiftLeft, BitVec.toNat_ofNat,
    Nat.shiftLeft_eq]
  have e1 : e % 2 ^ 64 * 2 ^ 52 % 2 ^ 64 = 2 ^ 52 * e := by
    rw [Nat.mod_eq_of_lt (by omega : e < 2 ^ 64), Nat.mul_comm]
    exact Nat.mod_eq_of_lt (by omega)
  have e2 : m % 2 ^ 64 = m := Nat.mod_eq_of_lt (by omega)
  rw [e1, e2, Nat.or_assoc, ← h1]
  cases s
  · simp
    omega
  · have e3 : (BitVec.ofInt 64 1).toNat * 2 ^ 63 % 2 ^ 64 = 2 ^ 63 * 1 := by decide
    simp only [if_true]
    rw [e3, ← h2]
    rw [Nat.mod_eq_of_lt (by omega)]
    omega

theorem lt_zero_pos {q : ℚ} (h : 0 < q) : (LD.fin q).lt 0 = false := by
  simp [LD.lt, le_of_lt h]

theorem lt_zero_neg {q : ℚ} (h : q < 0) : (LD.fin q).lt 0 = true := by
  simp [LD.lt, h]

/-- The two loops bring a positive number to `[1, 2)`. -/
theorem normalise (hA : Sound A) {m : Nat} (hm : m < 2 ^ 52) {k : ℤ} (h1 : -1022 ≤ k)
    (h2 : k ≤ 1023) {fuel : Nat} (hf : 1023 < fuel) :
    ∃ x s, down A fuel (.fin ((1 + m / 2 ^ 52) * 2 ^ k)) 0 = some (x, s) ∧
      up A fuel x s = some (.fin (1 + m / 2 ^ 52), k) := by
  have hv1 : (1 : ℚ) ≤ 1 + m / 2 ^ 52 := by
    have : (0 : ℚ) ≤ m / 2 ^ 52 := by positivity
    linarith
  have hv2 : 1 + (m : ℚ) / 2 ^ 52 < 2 := by
    have hmq : (m : ℚ) < 2 ^ 52 := by exact_mod_cast hm
    have : (m : ℚ) / 2 ^ 52 < 1 := by rw [div_lt_one (by positivity)]; exact hmq
    linarith
  rcases le_total 0 k with hk | hk
  · obtain ⟨n, rfl⟩ : ∃ n : Nat, k = n := ⟨k.toNat, by omega⟩
    refine ⟨.fin (1 + m / 2 ^ 52), 0 + n, ?_, ?_⟩
    · rw [zpow_natCast]
      apply down_ends hA hv1 hv2 n 0 fuel (by omega)
      intro i hi
      have := keeps_scaled hA hm (k := i) (by omega) (by omega)
      rwa [zpow_natCast] at this
    · have := up_ends hA hv1 hv2 0 (0 + n) fuel (by omega) (by
        intro i hi
        obtain rfl : i = 0 := by omega
        have := keeps_scaled hA hm (k := 0) (by omega) (by omega)
        simpa using this)
      simpa using this
  · obtain ⟨n, rfl⟩ : ∃ n : Nat, k = -n := ⟨(-k).toNat, by omega⟩
    refine ⟨.fin ((1 + m / 2 ^ 52) * 2 ^ (-(n : ℤ))), 0, ?_, ?_⟩
    · apply down_none _ _ (by omega)
      rw [zpow_neg, zpow_natCast]
      have hp : ((2 : ℚ) ^ n)⁻¹ ≤ 1 := inv_le_one_of_one_le₀ (one_le_pow₀ (by norm_num))
      have h0 : (0 : ℚ) < ((2 : ℚ) ^ n)⁻¹ := by positivity
      nlinarith
    · have := up_ends hA hv1 hv2 n 0 fuel (by omega) (by
        intro i hi
        have := keeps_scaled hA hm (k := -i) (by omega) (by omega)
        rw [zpow_neg, zpow_natCast] at this
        exact this)
      rw [zpow_neg, zpow_natCast, ← div_eq_mul_inv]
      simpa using this

theorem normal_value {w : Fields} (h : w.Normal) :
    w.value = .fin ((if w.s then -1 else 1) * (1 + w.m / 2 ^ 52) * 2 ^ ((w.e : ℤ) - 1023)) := by
  have h1 := h.1
  have h2 := h.2.1
  unfold Fields.value
  rw [if_neg (by omega), if_neg (by omega)]

theorem pos_scaled (m : Nat) (k : ℤ) : (0 : ℚ) < (1 + m / 2 ^ 52) * 2 ^ k := by
  have : (0 : ℚ) < 2 ^ k := zpow_pos (by norm_num) k
  have : (0 : ℚ) ≤ m / 2 ^ 52 := by positivity
  apply mul_pos
  · linarith
  · assumption

/-- Packing a normal double gives its IEEE 754 word. -/
theorem pack_normal (hA : Sound A) {w : Fields} (h : w.Normal) {fuel : Nat} (hf : 1023 < fuel) :
    toWire A fuel w.value = some (BitVec.ofNat 64 w.word) := by
  obtain ⟨h1, h2, h3⟩ := h
  rw [normal_value ⟨h1, h2, h3⟩, ← assemble w ⟨by omega, h3⟩]
  have hp := pos_scaled w.m ((w.e : ℤ) - 1023)
  obtain ⟨x, s, hd, hu⟩ := normalise hA h3 (k := (w.e : ℤ) - 1023) (by omega) (by omega) hf
  have hs := significand_eq hA h3
  obtain ⟨sg, e, m⟩ := w
  simp only at *
  unfold toWire pack
  generalize hq : (1 + (m : ℚ) / 2 ^ 52) * 2 ^ ((e : ℤ) - 1023) = q at *
  cases sg
  · simp only [Bool.false_eq_true, if_false, one_mul, hq]
    rw [if_neg (by intro hc; injection hc; linarith), lt_zero_pos hp]
    simp only [Bool.false_eq_true, if_false, hd, hu, hs]
    congr 5
    omega
  · simp only [if_true, mul_assoc, hq]
    have hn : -1 * q < 0 := by linarith
    rw [if_neg (by intro hc; injection hc; linarith), lt_zero_neg hn]
    simp only [if_true, LD.neg, neg_mul, neg_neg, one_mul, hd, hu, hs]
    congr 5
    omega

theorem repeat_twice (hA : Sound A) {v : ℚ} : ∀ (n : Nat),
    (∀ i : Nat, i ≤ n → A.rnd (v * 2 ^ i) = v * 2 ^ i) →
    Nat.repeat (LD.twice A) n (.fin v) = .fin (v * 2 ^ n)
  | 0, _ => by simp [Nat.repeat]
  | n + 1, h => by
    rw [Nat.repeat, repeat_twice hA n (fun i hi => h i (by omega))]
    simp only [LD.twice]
    rw [mul_assoc, ← pow_succ, h (n + 1) (by omega)]

theorem repeat_half (hA : Sound A) {v : ℚ} : ∀ (n : Nat),
    (∀ i : Nat, i ≤ n → A.rnd (v / 2 ^ i) = v / 2 ^ i) →
    Nat.repeat (LD.half A) n (.fin v) = .fin (v / 2 ^ n)
  | 0, _ => by simp [Nat.repeat]
  | n + 1, h => by
    rw [Nat.repeat, repeat_half hA n (fun i hi => h i (by omega))]
    simp only [LD.half]
    rw [div_div, ← pow_succ, h (n + 1) (by omega)]

theorem scale_eq (hA : Sound A) {m : Nat} (hm : m < 2 ^ 52) {k : ℤ} (h1 : -1022 ≤ k)
    (h2 : k ≤ 1023) : scale A (.fin (1 + m / 2 ^ 52)) k = .fin ((1 + m / 2 ^ 52) * 2 ^ k) := by
  unfold scale
  rcases le_total 0 k with hk | hk
  · obtain ⟨n, rfl⟩ : ∃ n : Nat, k = n := ⟨k.toNat, by omega⟩
    rw [show (-(n : ℤ)).toNat = 0 by omega]
    simp only [Int.toNat_natCast, Nat.repeat]
    rw [repeat_twice hA n, zpow_natCast]
    intro i hi
    have := keeps_scaled hA hm (k := i) (by omega) (by omega)
    rwa [zpow_natCast] at this
  · obtain ⟨n, rfl⟩ : ∃ n : Nat, k = -n := ⟨(-k).toNat, by omega⟩
    rw [show (-(n : ℤ)).toNat = 0 by omega]
    simp only [neg_neg, Int.toNat_natCast, Nat.repeat]
    rw [repeat_half hA n, zpow_neg, zpow_natCast]
    · rfl
    · intro i hi
      have := keeps_scaled hA hm (k := -i) (by omega) (by omega)
      rw [zpow_neg, zpow_natCast] at this
      exact this

/-- The fields read back out of the word. -/
theorem fields_back {w : Fields} (h : w.Valid) :
    (BitVec.ofNat 64 w.word &&& ((1 : BitVec 64) <<< 52 - 1)).toNat = w.m ∧
    (((BitVec.ofNat 64 w.word >>> 52) &&& ((1 : BitVec 64) <<< 11 - 1)) -
      BitVec.ofNat 64 1023).toInt = (w.e : ℤ) - 1023 ∧
    (BitVec.ofNat 64 w.word >>> 63).getLsbD 0 = w.s := by
  obtain ⟨s, e, m⟩ := w
  obtain ⟨he, hm⟩ := h
  simp only [Fields.word] at *
  have hw : (if s then 2 ^ 63 else 0) + e * 2 ^ 52 + m < 2 ^ 64 := by split <;> omega
  have m1 : ((1 : BitVec 64) <<< 52 - 1).toNat = 2 ^ 52 - 1 := by decide
  have m2 : ((1 : BitVec 64) <<< 11 - 1).toNat = 2 ^ 11 - 1 := by decide
  refine ⟨?_, ?_, ?_⟩
  · rw [BitVec.toNat_and, m1, BitVec.toNat_ofNat, Nat.mod_eq_of_lt hw, Nat.and_two_pow_sub_one_eq_mod]
    split <;> omega
  · have h1 : ((BitVec.ofNat 64 ((if s then 2 ^ 63 else 0) + e * 2 ^ 52 + m) >>> 52) &&&
        ((1 : BitVec 64) <<< 11 - 1)).toNat = e := by
      rw [BitVec.toNat_and, m2, BitVec.toNat_ushiftRight, BitVec.toNat_ofNat, Nat.mod_eq_of_lt hw,
        Nat.and_two_pow_sub_one_eq_mod, Nat.shiftRight_eq_div_pow]
      split <;> omega
    rw [BitVec.toInt_sub, BitVec.toInt_eq_toNat_of_lt (by rw [h1]; omega), h1]
    have h2 : (BitVec.ofNat 64 1023).toInt = 1023 := by decide
    rw [h2, Int.bmod_eq_of_le (by omega) (by omega)]
  · rw [BitVec.getLsbD_ushiftRight, BitVec.getLsbD_ofNat]
    simp only [Nat.add_zero, Nat.testBit_eq_decide_div_mod_eq]
    cases s
    · simp; omega
    · simp; omega

/-- Unpacking any word whose exponent field is neither 0 nor 2047 gives the double it stands for. -/
theorem unpack_normal (hA : Sound A) {w : Fields} (h : w.Normal) :
    ofWire A (BitVec.ofNat 64 w.word) = w.value := by
  obtain ⟨h1, h2, h3⟩ := h
  obtain ⟨f1, f2, f3⟩ := fields_back (w := w) ⟨by omega, h3⟩
  have hne : BitVec.ofNat 64 w.word ≠ 0 := by
    intro hc
    rw [hc] at f2
    have : ((((0 : BitVec 64) >>> 52) &&& ((1 : BitVec 64) <<< 11 - 1)) -
      BitVec.ofNat 64 1023).toInt = -1023 := by decide
    rw [this] at f2
    omega
  have e1 : A.rnd (w.m : ℚ) = w.m := by
    have := keeps_sub hA (m := w.m) (k := 0) (by omega) (by norm_num) (by norm_num)
    simpa using this
  have e2 : A.rnd ((w.m : ℚ) / 2 ^ 52) = (w.m : ℚ) / 2 ^ 52 := by
    have := keeps_sub hA (m := w.m) (k := -52) (by omega) (by norm_num) (by norm_num)
    rw [show (-52 : ℤ) = -(52 : ℕ) by norm_num, zpow_neg, zpow_natCast] at this
    exact this
  have e3 : A.rnd ((w.m : ℚ) / 2 ^ 52 + 1) = 1 + (w.m : ℚ) / 2 ^ 52 := by
    have := keeps_scaled hA h3 (k := 0) (by norm_num) (by norm_num)
    rw [zpow_zero, mul_one] at this
    rw [add_comm]; exact this
  unfold ofWire unpack
  rw [if_neg hne]
  simp only [show 64 - 11 - 1 = 52 by norm_num, show 64 - 1 = 63 by norm_num,
    show 2 ^ (11 - 1) - 1 = 1023 by norm_num, f1, f2, f3, e1, e2, e3]
  rw [scale_eq hA h3 (by omega) (by omega), normal_value ⟨h1, h2, h3⟩]
  cases w.s
  · simp [LD.sign]
  · simp only [LD.sign, LD.neg, if_true, neg_mul, one_mul]

/-- A subnormal `m * 2^-1074` with `2^j <= m < 2^(j+1)` in normalised form. -/
theorem sub_form {m j : Nat} (h1 : 2 ^ j ≤ m) (h2 : m < 2 ^ (j + 1)) (hj : j ≤ 51) :
    (m - 2 ^ j) * 2 ^ (52 - j) < 2 ^ 52 ∧
      (m : ℚ) / 2 ^ j = 1 + (((m - 2 ^ j) * 2 ^ (52 - j) : ℕ) : ℚ) / 2 ^ 52 := by
  have hp := Nat.two_pow_pos (52 - j)
  have he : 2 ^ j * 2 ^ (52 - j) = 2 ^ 52 := by rw [← Nat.pow_add]; congr 1; omega
  constructor
  · have : m - 2 ^ j < 2 ^ j := by rw [Nat.pow_succ] at h2; omega
    calc (m - 2 ^ j) * 2 ^ (52 - j) < 2 ^ j * 2 ^ (52 - j) := Nat.mul_lt_mul_of_pos_right this hp
      _ = 2 ^ 52 := he
  · have heq : (2 : ℚ) ^ 52 = 2 ^ j * 2 ^ (52 - j) := by rw [← pow_add]; congr 1; omega
    rw [heq]
    push_cast [Nat.cast_sub h1]
    field_simp
    ring

/-- Packing a subnormal. -/
theorem pack_sub (hA : Sound A) {s : Bool} {m j : Nat} (h1 : 2 ^ j ≤ m) (h2 : m < 2 ^ (j + 1))
    (hj : j ≤ 51) {fuel : Nat} (hf : 1074 < fuel) :
    toWire A fuel (Fields.value ⟨s, 0, m⟩) =
      some (BitVec.ofInt 64 (if s then 1 else 0) <<< 63 |||
        BitVec.ofInt 64 ((j : ℤ) - 51) <<< 52 |||
        BitVec.ofInt 64 (((m - 2 ^ j) * 2 ^ (52 - j) : ℕ) : ℤ)) := by
  obtain ⟨f1, f2⟩ := sub_form h1 h2 hj
  have hm : m < 2 ^ 52 := lt_of_lt_of_le h2 (Nat.pow_le_pow_right (by norm_num) (by omega))
  have hpos : 0 < m := lt_of_lt_of_le (Nat.two_pow_pos j) h1
  have hsig := significand_eq hA f1
  rw [← f2] at hsig
  have hv1 : (1 : ℚ) ≤ m / 2 ^ j := by
    rw [le_div_iff₀ (by positivity), one_mul]; exact_mod_cast h1
  have hv2 : (m : ℚ) / 2 ^ j < 2 := by
    rw [div_lt_iff₀ (by positivity), ← pow_succ']; exact_mod_cast h2
  have hval : (m : ℚ) / 2 ^ 52 * 2 ^ (-1022 : ℤ) = (m / 2 ^ j) / 2 ^ (1074 - j) := by
    have e : (2 : ℚ) ^ 1074 = 2 ^ j * 2 ^ (1074 - j) := by rw [← pow_add]; congr 1; omega
    rw [div_div, ← e, show (-1022 : ℤ) = -(1022 : ℕ) by norm_num, zpow_neg, zpow_natCast,
      ← div_eq_mul_inv, div_div, ← pow_add]
  have hu := up_ends hA hv1 hv2 (1074 - j) 0 fuel (by omega) (by
    intro i hi
    have := keeps_sub hA (m := m) (k := -((j + i : ℕ) : ℤ)) (by omega) (by push_cast; omega)
      (by push_cast; omega)
    rw [zpow_neg, zpow_natCast, ← div_eq_mul_inv, pow_add, ← div_div] at this
    exact this)
  have hlt1 : (m : ℚ) / 2 ^ j / 2 ^ (1074 - j) < 2 := by
    apply lt_of_le_of_lt _ hv2
    exact div_le_self (by linarith) (one_le_pow₀ (by norm_num))
  have hd := down_none (A := A) hlt1 0 (fuel := fuel) (by omega)
  have hq0 : 0 < (m : ℚ) / 2 ^ j / 2 ^ (1074 - j) := by positivity
  unfold Fields.value
  rw [if_neg (by norm_num), if_pos (by rfl)]
  simp only [mul_assoc, hval]
  generalize (m : ℚ) / 2 ^ j / 2 ^ (1074 - j) = q at *
  unfold toWire pack
  cases s
  · simp only [Bool.false_eq_true, if_false, one_mul]
    rw [if_neg (by intro hc; injection hc; linarith), lt_zero_pos hq0]
    simp only [Bool.false_eq_true, if_false, hd, hu, hsig]
    congr 5
    omega
  · simp only [if_true]
    have hn : -1 * q < 0 := by linarith
    rw [if_neg (by intro hc; injection hc; linarith), lt_zero_neg hn]
    simp only [if_true, LD.neg, neg_mul, neg_neg, one_mul, hd, hu, hsig]
    congr 5
    omega

/-- The word a negative exponent gives. -/
theorem assemble_neg (s : Bool) {x m : Nat} (hx0 : 0 < x) (hx : x ≤ 51) (hm : m < 2 ^ 52) :
    (BitVec.ofInt 64 (if s then 1 else 0) <<< 63 ||| BitVec.ofInt 64 (-(x : Int)) <<< 52 |||
      BitVec.ofInt 64 (m : Int)) = BitVec.ofNat 64 (Fields.word ⟨true, 2048 - x, m⟩) := by
  have key : (BitVec.ofInt 64 (if s then 1 else 0) <<< 63 ||| BitVec.ofInt 64 (-(x : Int)) <<< 52) =
      (BitVec.ofInt 64 (if true then 1 else 0) <<< 63 |||
        BitVec.ofInt 64 ((2048 - x : ℕ) : Int) <<< 52) := by
    clear hm
    revert s
    interval_cases x <;> decide +kernel
  rw [key]
  exact assemble ⟨true, 2048 - x, m⟩ ⟨by simp only; omega, hm⟩

theorem down_inf : ∀ fuel s, down A fuel (.inf false) s = none
  | 0, _ => rfl
  | n + 1, s => by
    simp only [down, LD.ge, Bool.not_false, if_true, LD.half]
    exact down_inf n _

end Fio.Fp
