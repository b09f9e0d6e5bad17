import Verif.Clock.Spec
import Mathlib.Tactic.Linarith
import Mathlib.Tactic.Ring
/-
Lemmas about the calibration and the conversion of cycles.
-/
namespace Fio.Clock


theorem halvings_spec (n : Nat) : ∀ s, 0 < n →
    ∃ h, halvings n s = s + h ∧ 2 ^ h ≤ n ∧ n < 2 ^ (h + 1) := by
  induction n using Nat.strongRecOn with
  | _ n ih =>
    intro s hn
    rw [halvings]
    by_cases h1 : n > 1
    · rw [if_pos h1]
      have hlt : n >>> 1 < n := by rw [Nat.shiftRight_eq_div_pow]; omega
      have hpos : 0 < n >>> 1 := by rw [Nat.shiftRight_eq_div_pow]; omega
      obtain ⟨h, e1, e2, e3⟩ := ih _ hlt (s + 1) hpos
      refine ⟨h + 1, by omega, ?_, ?_⟩
      · rw [Nat.shiftRight_eq_div_pow] at e2
        rw [Nat.pow_succ]
        omega
      · rw [Nat.shiftRight_eq_div_pow] at e3
        rw [Nat.pow_succ]
        omega
    · rw [if_neg h1]
      exact ⟨0, by omega, by simp; omega, by simp; omega⟩

theorem maskLoop_eq : ∀ n, n ≤ 64 → maskLoop n = 2 ^ n - 1
  | 0, _ => rfl
  | n + 1, h => by
    have ih := maskLoop_eq n (by omega)
    unfold maskLoop at ih ⊢
    rw [List.range_succ, List.foldl_append, ih]
    simp only [List.foldl_cons, List.foldl_nil]
    have h1 : u64 (1 <<< n) = 2 ^ n := by
      rw [Nat.one_shiftLeft]
      exact Nat.mod_eq_of_lt (Nat.pow_lt_pow_right (by omega) (by omega))
    rw [h1]
    have h2 : 2 ^ n - 1 < 2 ^ n := Nat.sub_lt (Nat.two_pow_pos n) (by omega)
    rw [Nat.or_comm]
    have h3 : 2 ^ n ||| (2 ^ n - 1) = 2 ^ n + (2 ^ n - 1) := by
      have := Nat.two_pow_add_eq_or_of_lt h2 1
      simpa using this.symm
    rw [h3, Nat.pow_succ]
    omega

/-- What the calibration establishes. -/
structure Good (c start : Nat) (cal : Cal) : Prop where
  hstart : cal.cyclesStart = start
  hshift : cal.clockShift = 22
  hmult1 : cal.clockMult * c ≤ 4194304 * 1000000
  hmult2 : 4194304 * 1000000 < (cal.clockMult + 1) * c
  hmcs : cal.maxCyclesShift < 64
  hp1 : 2 ^ cal.maxCyclesShift ≤ 3600000 * c
  hp2 : 1800000 * c < 2 ^ cal.maxCyclesShift
  hov : 2 ^ cal.maxCyclesShift * cal.clockMult < 2 ^ 64
  hmask : cal.maxCyclesMask = 2 ^ cal.maxCyclesShift - 1
  hns : cal.nsecsForMaxCycles = 2 ^ cal.maxCyclesShift * cal.clockMult / 4194304

theorem calibrate_good {c : Nat} (hc : 0 < c) (hc' : c ≤ 900000000000) (start : Nat) :
    ∃ cal, calibrate c start = some cal ∧ Good c start cal := by
  have e1 : u64 (u64 (60 * 60 * c) * 1000) = 3600000 * c := by
    unfold u64; omega
  have e2 : u64 (60 * 60 * 1000 * c) = 3600000 * c := by
    unfold u64; omega
  obtain ⟨M, hM⟩ : ∃ M, M = (2 ^ 64 - 1) / (3600000 * c) := ⟨_, rfl⟩
  have hM1 : M * (3600000 * c) ≤ 2 ^ 64 - 1 := by
    rw [hM]; exact Nat.div_mul_le_self _ _
  have hM2 : 2 ^ 64 - 1 < (M + 1) * (3600000 * c) := by
    rw [hM]
    have := Nat.lt_mul_div_succ (2 ^ 64 - 1) (show 0 < 3600000 * c by omega)
    rw [Nat.mul_comm]; exact this
  obtain ⟨X, hX⟩ : ∃ X, X = M * c := ⟨_, rfl⟩
  have hX1 : X * 3600000 ≤ 2 ^ 64 - 1 := by
    rw [hX]; calc M * c * 3600000 = M * (3600000 * c) := by ring
      _ ≤ _ := hM1
  have hX2 : 2 ^ 64 - 1 < X * 3600000 + 3600000 * c := by
    rw [hX]; calc 2 ^ 64 - 1 < (M + 1) * (3600000 * c) := hM2
      _ = _ := by ring
  have e3 : u64 (M * c) = X := by rw [← hX]; unfold u64; omega
  obtain ⟨h, eh, hh1, hh2⟩ := halvings_spec (X / 1000000) 0 (by omega)
  have h22 : h = 22 := by
    have a1 : h < 23 := by
      by_contra hn
      have : (2 : Nat) ^ 23 ≤ 2 ^ h := Nat.pow_le_pow_right (by omega) (by omega)
      omega
    have a2 : 22 ≤ h := by
      by_contra hn
      have : (2 : Nat) ^ (h + 1) ≤ 2 ^ 22 := Nat.pow_le_pow_right (by omega) (by omega)
      omega
    omega
  subst h22
  obtain ⟨p, ep, hp1, hp2⟩ := halvings_spec (3600000 * c) 0 (by omega)
  have hp64 : p < 64 := by
    by_contra hn
    have : (2 : Nat) ^ 64 ≤ 2 ^ p := Nat.pow_le_pow_right (by omega) (by omega)
    omega
  have e4 : u64 (u64 (1 <<< 22) * 1000000) = 4194304 * 1000000 := by decide
  obtain ⟨m, hm⟩ : ∃ m, m = 4194304 * 1000000 / c := ⟨_, rfl⟩
  have hm1 : m * c ≤ 4194304 * 1000000 := by rw [hm]; exact Nat.div_mul_le_self _ _
  have hm2 : 4194304 * 1000000 < (m + 1) * c := by
    have := Nat.lt_mul_div_succ (4194304 * 1000000) hc
    rw [hm, Nat.mul_comm _ c]; exact this
  have hmM : m ≤ M := by
    by_contra hn
    have h1 : (M + 1) * c ≤ m * c := Nat.mul_le_mul_right c (by omega)
    have h2 : (M + 1) * c = X + c := by rw [hX]; ring
    omega
  have hov : 2 ^ p * m < 2 ^ 64 := by
    calc 2 ^ p * m ≤ (3600000 * c) * M := Nat.mul_le_mul hp1 hmM
      _ = M * (3600000 * c) := Nat.mul_comm _ _
      _ ≤ 2 ^ 64 - 1 := hM1
      _ < _ := by decide
  have e5 : u64 (u64 (1 <<< p) * m) = 2 ^ p * m := by
    have : u64 (1 <<< p) = 2 ^ p := by
      rw [Nat.one_shiftLeft]
      exact Nat.mod_eq_of_lt (Nat.pow_lt_pow_right (by omega) hp64)
    rw [this]
    exact Nat.mod_eq_of_lt hov
  rw [Nat.pow_succ] at hp2
  refine ⟨{ cyclesStart := start, clockMult := m, maxCyclesMask := maskLoop p,
            nsecsForMaxCycles := 2 ^ p * m / 4194304, clockShift := 22, maxCyclesShift := p },
    ?_, rfl, rfl, hm1, hm2, hp64, hp1, ?_, hov, maskLoop_eq p (by omega), rfl⟩
  · simp only [calibrate, e1, e2, ← hM, e3, eh, ep, Nat.zero_add, e4, ← hm, e5,
      Nat.shiftRight_eq_div_pow]
    rw [if_neg (by omega), if_neg (by omega), if_neg (by omega), if_neg (by omega)]
  · show 1800000 * c < 2 ^ p
    omega

/-- The number of nanoseconds for `d` cycles: period `P`, multiplier `m`. -/
def conv (P m d : Nat) : Nat := d / P * (P * m / 4194304) + d % P * m / 4194304

theorem conv_le (P m d : Nat) : conv P m d * 4194304 ≤ d * m := by
  unfold conv
  have h1 : P * m / 4194304 * 4194304 ≤ P * m := Nat.div_mul_le_self _ _
  have h2 : d % P * m / 4194304 * 4194304 ≤ d % P * m := Nat.div_mul_le_self _ _
  have h3 : d * m = d / P * (P * m) + d % P * m := by
    conv_lhs => rw [← Nat.div_add_mod d P]
    ring
  have h4 : d / P * (P * m / 4194304 * 4194304) ≤ d / P * (P * m) := Nat.mul_le_mul_left _ h1
  have h5 : (d / P * (P * m / 4194304) + d % P * m / 4194304) * 4194304 =
      d / P * (P * m / 4194304 * 4194304) + d % P * m / 4194304 * 4194304 := by ring
  rw [h5, h3]
  exact Nat.add_le_add h4 h2

theorem conv_step {P m : Nat} (hP : 0 < P) (d e : Nat) :
    conv P m d ≤ conv P m (d + e) ∧
    conv P m (d + e) * 4194304 ≤ (conv P m d + 1) * 4194304 + e * m ∧
    e * m ≤ (conv P m (d + e) - conv P m d + e / P + 2) * 4194304 := by
  obtain ⟨k, hk⟩ : ∃ k, k = d / P := ⟨_, rfl⟩
  obtain ⟨r, hr⟩ : ∃ r, r = d % P := ⟨_, rfl⟩
  obtain ⟨k', hk'⟩ : ∃ k, k = (d + e) / P := ⟨_, rfl⟩
  obtain ⟨r', hr'⟩ : ∃ r, r = (d + e) % P := ⟨_, rfl⟩
  have hd : d = P * k + r := by rw [hk, hr]; exact (Nat.div_add_mod d P).symm
  have hde : d + e = P * k' + r' := by rw [hk', hr']; exact (Nat.div_add_mod _ P).symm
  have hrP : r < P := by rw [hr]; exact Nat.mod_lt _ hP
  have hrP' : r' < P := by rw [hr']; exact Nat.mod_lt _ hP
  have hkk : k ≤ k' := by rw [hk, hk']; exact Nat.div_le_div_right (by omega)
  have hc1 : conv P m d = k * (P * m / 4194304) + r * m / 4194304 := by rw [conv, ← hk, ← hr]
  have hc2 : conv P m (d + e) = k' * (P * m / 4194304) + r' * m / 4194304 := by
    rw [conv, ← hk', ← hr']
  rw [hc1, hc2]
  obtain ⟨N, hN⟩ : ∃ N, N = P * m / 4194304 := ⟨_, rfl⟩
  obtain ⟨A, hA⟩ : ∃ A, A = P * m := ⟨_, rfl⟩
  obtain ⟨B, hB⟩ : ∃ B, B = r * m := ⟨_, rfl⟩
  obtain ⟨B', hB'⟩ : ∃ B, B = r' * m := ⟨_, rfl⟩
  rw [← hN, ← hB, ← hB']
  rw [← hA] at hN
  have hBA : B ≤ A := by rw [hA, hB]; exact Nat.mul_le_mul_right _ (by omega)
  have hBA' : B' ≤ A := by rw [hA, hB']; exact Nat.mul_le_mul_right _ (by omega)
  rcases Nat.lt_or_ge k k' with hlt | hge
  · obtain ⟨j, hj⟩ : ∃ j, k' = k + 1 + j := ⟨k' - k - 1, by omega⟩
    subst hj
    obtain ⟨J, hJ⟩ : ∃ J, J = j * N := ⟨_, rfl⟩
    obtain ⟨JA, hJA⟩ : ∃ J, J = j * A := ⟨_, rfl⟩
    have h1 : (k + 1 + j) * N = k * N + N + J := by rw [hJ]; ring
    have h2 : J * 4194304 ≤ JA := by
      rw [hJ, hJA, Nat.mul_assoc]; exact Nat.mul_le_mul_left _ (by omega)
    have h3 : JA ≤ J * 4194304 + j * 4194304 := by
      have : A ≤ N * 4194304 + 4194304 := by omega
      have := Nat.mul_le_mul_left j this
      rw [hJ, hJA]
      calc j * A ≤ j * (N * 4194304 + 4194304) := this
        _ = _ := by ring
    have h4 : e * m + B = A + JA + B' := by
      have : e + r = P + P * j + r' := by
        have : P * (k + 1 + j) = P * k + P + P * j := by ring
        omega
      calc e * m + B = (e + r) * m := by rw [hB]; ring
        _ = (P + P * j + r') * m := by rw [this]
        _ = _ := by rw [hA, hB', hJA, hA]; ring
    have h5 : j ≤ e / P := by
      rw [Nat.le_div_iff_mul_le hP]
      have h6 : P * (k + 1 + j) = P * k + P + P * j := by ring
      rw [h6] at hde
      rw [Nat.mul_comm j P]
      generalize P * k = a at *
      generalize P * j = b at *
      omega
    rw [h1]
    obtain ⟨E, hE⟩ : ∃ E, E = e * m := ⟨_, rfl⟩
    obtain ⟨K, hK⟩ : ∃ K, K = k * N := ⟨_, rfl⟩
    obtain ⟨q, hq⟩ : ∃ q, q = e / P := ⟨_, rfl⟩
    rw [← hE] at h4 ⊢
    rw [← hK, ← hq]
    rw [← hq] at h5
    clear hc1 hc2 hd hde hk hk' hr hr' hJ hJA hA hB hB' hE hK hq h1
    simp only [Nat.mul_comm _ 4194304] at *
    refine ⟨by omega, by omega, by omega⟩
  · have : k' = k := by omega
    subst this
    have h4 : e * m + B = B' := by
      have : e + r = r' := by omega
      rw [hB, hB', ← this]; ring
    obtain ⟨E, hE⟩ : ∃ E, E = e * m := ⟨_, rfl⟩
    obtain ⟨K, hK⟩ : ∃ K, K = k' * N := ⟨_, rfl⟩
    obtain ⟨q, hq⟩ : ∃ q, q = e / P := ⟨_, rfl⟩
    rw [← hE] at h4 ⊢
    rw [← hK, ← hq]
    clear hc1 hc2 hd hde hk hk' hr hr' hA hB hB' hE hK hq
    simp only [Nat.mul_comm _ 4194304] at *
    refine ⟨by omega, by omega, by omega⟩

theorem fair_of_conv {c P m : Nat} (hm1 : m * c ≤ 4194304 * 1000000)
    (hm2 : 4194304 * 1000000 < (m + 1) * c) (hc : 0 < c) (hp : 1800000 * c < P) (d e : Nat) :
    Fair c e (conv P m (d + e) - conv P m d) := by
  obtain ⟨h0, h1, h2⟩ := conv_step (m := m) (show 0 < P by omega) d e
  obtain ⟨n, hn⟩ : ∃ n, n = conv P m (d + e) - conv P m d := ⟨_, rfl⟩
  rw [← hn] at h2 ⊢
  have h1' : n * 4194304 ≤ e * m + 1 * 4194304 := by
    generalize conv P m (d + e) = x at *
    generalize conv P m d = y at *
    generalize e * m = z at *
    clear hm1 hm2 h2
    simp only [Nat.mul_comm _ 4194304] at *
    omega
  constructor
  · have a1 : n * 4194304 * c ≤ (e * m + 1 * 4194304) * c := Nat.mul_le_mul_right _ h1'
    have a2 : e * (m * c) ≤ e * (4194304 * 1000000) := Nat.mul_le_mul_left _ hm1
    nlinarith
  · have a1 : e * (4194304 * 1000000) ≤ e * ((m + 1) * c) := Nat.mul_le_mul_left _ hm2.le
    have a2 : e * m * c ≤ (n + e / P + 2) * 4194304 * c := Nat.mul_le_mul_right _ h2
    have a3 : e ≤ (e / 4194304 + 1) * 4194304 := by omega
    have a4 : e * c ≤ (e / 4194304 + 1) * 4194304 * c := Nat.mul_le_mul_right _ a3
    have a5 : e / P ≤ e / (1800000 * c) := Nat.div_le_div_left (by omega) (by omega)
    have a6 : (n + e / P + 2) * 4194304 * c ≤ (n + e / (1800000 * c) + 2) * 4194304 * c :=
      Nat.mul_le_mul_right _ (Nat.mul_le_mul_right _ (by omega))
    have a7 : e * ((m + 1) * c) = e * m * c + e * c := by ring
    have a8 : e * 1000000 * 4194304 ≤
        (n + e / 4194304 + e / (1800000 * c) + 3) * c * 4194304 := by
      calc e * 1000000 * 4194304 = e * (4194304 * 1000000) := by ring
        _ ≤ e * m * c + e * c := by rw [← a7]; exact a1
        _ ≤ (n + e / (1800000 * c) + 2) * 4194304 * c + (e / 4194304 + 1) * 4194304 * c :=
          Nat.add_le_add (a2.trans a6) a4
        _ = _ := by ring
    have a9 := Nat.le_of_mul_le_mul_right a8 (by decide)
    have a10 : (n + e / 4194304 + e / (1800000 * c) + 3) * c ≤
      (n + e / 4194304 + e / (1800000 * c) + 4) * c := Nat.mul_le_mul_right _ (by omega)
    exact a9.trans a10

/-- The time of day for `d` cycles after the start. -/
theorem cpuTime_eq {c start : Nat} {cal : Cal} (g : Good c start cal)
    (hs : start < 2 ^ 64) {d : Nat}
    (hd : d < 2 ^ 64) (hns : d * 1000000 < 2 ^ 64 * c) :
    cpuTime cal ((start + d) % 2 ^ 64) =
      { sec := (conv (2 ^ cal.maxCyclesShift) cal.clockMult d / 1000000000 : Nat),
        nsec := (conv (2 ^ cal.maxCyclesShift) cal.clockMult d % 1000000000 : Nat) } := by
  have e1 : u64 ((start + d) % 2 ^ 64 + (2 ^ 64 - start)) = d := by unfold u64; omega
  have hP : 0 < 2 ^ cal.maxCyclesShift := Nat.two_pow_pos _
  have e2 : d &&& cal.maxCyclesMask = d % 2 ^ cal.maxCyclesShift := by
    rw [g.hmask]; exact Nat.and_two_pow_sub_one_eq_mod _ _
  have e3 : u64 (d % 2 ^ cal.maxCyclesShift * cal.clockMult) =
      d % 2 ^ cal.maxCyclesShift * cal.clockMult := by
    apply Nat.mod_eq_of_lt
    refine Nat.lt_of_le_of_lt (Nat.mul_le_mul_right _ (Nat.mod_lt _ hP).le) g.hov
  have hlt : conv (2 ^ cal.maxCyclesShift) cal.clockMult d < 2 ^ 64 := by
    have h1 := conv_le (2 ^ cal.maxCyclesShift) cal.clockMult d
    have h2 : conv (2 ^ cal.maxCyclesShift) cal.clockMult d * 4194304 * c ≤ d * cal.clockMult * c :=
      Nat.mul_le_mul_right _ h1
    have h3 : d * (cal.clockMult * c) ≤ d * (4194304 * 1000000) := Nat.mul_le_mul_left _ g.hmult1
    by_contra hn
    have h4 : 2 ^ 64 * (4194304 * c) ≤
        conv (2 ^ cal.maxCyclesShift) cal.clockMult d * (4194304 * c) :=
      Nat.mul_le_mul_right _ (by omega)
    have h5 : d * 1000000 * 4194304 < 2 ^ 64 * c * 4194304 := Nat.mul_lt_mul_of_pos_right hns (by decide)
    nlinarith
  have e4 : u64 (d >>> cal.maxCyclesShift * cal.nsecsForMaxCycles) =
      d / 2 ^ cal.maxCyclesShift * (2 ^ cal.maxCyclesShift * cal.clockMult / 4194304) := by
    rw [Nat.shiftRight_eq_div_pow, g.hns]
    apply Nat.mod_eq_of_lt
    unfold conv at hlt
    omega
  have e5 : u64 (d / 2 ^ cal.maxCyclesShift * (2 ^ cal.maxCyclesShift * cal.clockMult / 4194304) +
      (d % 2 ^ cal.maxCyclesShift * cal.clockMult) / 4194304) =
      conv (2 ^ cal.maxCyclesShift) cal.clockMult d := Nat.mod_eq_of_lt hlt
  unfold cpuTime
  simp only [g.hstart, e1, e2, e3, e4, g.hshift, Nat.shiftRight_eq_div_pow (m := _) (n := 22), e5]
  rfl

end Fio.Clock
