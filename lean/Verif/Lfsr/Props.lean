import Verif.Lfsr.Lemmas
/-
C05, C06: the LFSR generator is a permutation of the block range, also after a reset.
-/
namespace Fio.Lfsr

/-! ### Initialisation -/

theorem findLfsrFrom_some {size : Nat} : ∀ (fuel i : Nat) (taps : List Nat), fuel + i = 64 →
    findLfsrFrom size fuel i = some taps →
    ∃ n, i ≤ n ∧ n < 64 ∧ size < 2 ^ n ∧ lfsrTaps[n]? = some taps ∧ ∀ m, i ≤ m → m < n → 2 ^ m ≤ size := by
  intro fuel
  induction fuel with
  | zero => intro i taps _ h; simp [findLfsrFrom] at h
  | succ fuel ih =>
    intro i taps hi h
    unfold findLfsrFrom at h
    by_cases hp : 2 ^ i > size
    · rw [if_pos hp] at h
      exact ⟨i, by omega, by omega, hp, h, by intro m h1 h2; omega⟩
    · rw [if_neg hp] at h
      obtain ⟨n, h1, h2, h3, h4, h5⟩ := ih (i + 1) taps (by omega) h
      refine ⟨n, by omega, h2, h3, h4, ?_⟩
      intro m hm1 hm2
      by_cases hmi : m = i
      · subst hmi; omega
      · exact h5 m (by omega) hm2

theorem findLfsrFrom_none {size : Nat} : ∀ (fuel i : Nat), fuel + i = 64 → 3 ≤ i →
    findLfsrFrom size fuel i = none → ∀ m, i ≤ m → m < 64 → 2 ^ m ≤ size := by
  intro fuel
  induction fuel with
  | zero => intro i hi _ _ m h1 h2; omega
  | succ fuel ih =>
    intro i hi h3 h m h1 h2
    unfold findLfsrFrom at h
    by_cases hp : 2 ^ i > size
    · rw [if_pos hp] at h
      obtain ⟨taps, ht, _⟩ := entry (n := i) h3 (by omega)
      rw [ht] at h; cases h
    · rw [if_neg hp] at h
      by_cases hmi : m = i
      · subst hmi; omega
      · exact ih (i + 1) (by omega) (by omega) h m (by omega) h2

theorem shl_get {n : Nat} (hn : 0 < n) (hn2 : n < 64) (i : Nat) :
    (1#64 <<< (n - 1)).getLsbD i = decide (i = n - 1) := by
  rw [BitVec.getLsbD_shiftLeft, BitVec.getLsbD_one, Bool.eq_iff_iff]
  simp only [Bool.and_eq_true, decide_eq_true_eq, Bool.not_eq_true', decide_eq_false_iff_not]
  omega

theorem bitmask_toNat {n : Nat} (hn : 0 < n) (hn2 : n < 64) {cb : BitVec 64}
    (hcb : ∀ i, cb.getLsbD i = decide (i = n - 1)) : ((cb <<< 1) - 1#64).toNat = 2 ^ n - 1 := by
  have h1 : cb <<< 1 = BitVec.twoPow 64 n := by
    apply BitVec.eq_of_getLsbD_eq
    intro i hi
    rw [BitVec.getLsbD_shiftLeft, BitVec.getLsbD_twoPow, hcb, Bool.eq_iff_iff]
    simp only [Bool.and_eq_true, decide_eq_true_eq, Bool.not_eq_true', decide_eq_false_iff_not]
    omega
  have h2 : 2 ^ n < 2 ^ 64 := Nat.pow_lt_pow_right (by omega) hn2
  have h3 : 0 < 2 ^ n := Nat.two_pow_pos n
  rw [h1, BitVec.toNat_sub, BitVec.toNat_twoPow, BitVec.toNat_ofNat, Nat.mod_eq_of_lt h2]
  omega

theorem rel_of_lt {n : Nat} {v : BitVec 64} (hv : v.toNat < 2 ^ n) : Rel n v (2 ^ n - 1 - v.toNat) := by
  refine ⟨by omega, ?_⟩
  intro i
  rw [show 2 ^ n - 1 - v.toNat = 2 ^ n - (v.toNat + 1) by omega, Nat.testBit_two_pow_sub_succ hv,
    BitVec.testBit_toNat]
  by_cases hi : i < n
  · simp [hi]
  · have : v.getLsbD i = false := by
      rw [← BitVec.testBit_toNat]
      exact Nat.testBit_lt_two_pow (Nat.lt_of_lt_of_le hv (Nat.pow_le_pow_right (by omega) (by omega)))
    simp [hi, this]

/-- What lfsr_reset establishes. -/
theorem reset_rel {n P fl fl'} (c : Cfg n P fl) {seed : BitVec 64}
    (h : lfsrReset fl seed = (fl', true)) :
    Cfg n P fl' ∧ fl'.numVals = 0 ∧ fl'.maxVal = fl.maxVal ∧ fl'.cycleLength = fl.cycleLength ∧
      fl'.cachedCycleLength = fl.cachedCycleLength ∧ fl'.spin = fl.spin ∧
      ∃ w, Rel n fl'.lastVal w ∧ w ≠ 0 := by
  have hbm := bitmask_toNat (by have := c.n3; omega) c.n64 c.cb
  unfold lfsrReset at h
  simp only [Prod.mk.injEq, decide_eq_true_eq] at h
  obtain ⟨h1, h2⟩ := h
  subst h1
  refine ⟨⟨c.n3, c.n64, c.prim, c.xm, c.cb⟩, rfl, rfl, rfl, rfl, rfl, ?_⟩
  have hle : (seed &&& fl.cachedBit <<< 1 - 1#64).toNat ≤ 2 ^ n - 1 := by
    rw [BitVec.toNat_and, hbm]; exact Nat.and_le_right
  have hpos := Nat.two_pow_pos n
  refine ⟨_, rel_of_lt (by simp only; omega), ?_⟩
  intro h0
  apply h2
  apply BitVec.eq_of_toNat_eq
  simp only at h0
  rw [hbm]; omega

/-- What a successful lfsr_init establishes. -/
theorem init_spec {nums seed : BitVec 64} {spin : Nat} {fl : Lfsr}
    (h : lfsrInit nums seed spin = some fl) (h0 : nums ≠ 0#64) :
    ∃ n P w, Cfg n P fl ∧ Rel n fl.lastVal w ∧ w ≠ 0 ∧ nums.toNat < 2 ^ n ∧
      fl.maxVal.toNat + 1 = nums.toNat ∧ fl.numVals = 0 ∧ fl.spin = spin ∧ spin ≤ 15 ∧
      fl.cachedCycleLength = spinCycle ((2 ^ n - 1) / (spin + 1)) ((2 ^ n - 1) % (spin + 1)) spin 15 1 ∧
      fl.cycleLength = fl.cachedCycleLength + 1 := by
  unfold lfsrInit at h
  cases hf : findLfsr nums.toNat with
  | none => simp [hf] at h
  | some taps =>
    obtain ⟨n, n1, n2, n3, n4, _⟩ := findLfsrFrom_some 61 3 taps rfl hf
    obtain ⟨taps', t1, t2, t3, t4⟩ := entry n1 n2
    rw [n4, Option.some_inj] at t1
    subst t1
    simp only [hf, t2, Option.bind_eq_bind, Option.bind_some, prepareSpin] at h
    by_cases hsp : spin > 15
    · rw [if_pos hsp] at h; simp at h
    · rw [if_neg hsp] at h
      simp only [Option.bind_some] at h
      generalize hr : lfsrReset _ seed = r at h
      obtain ⟨fl1, ok⟩ := r
      cases ok with
      | false => simp at h
      | true =>
        simp only [if_true, Option.some_inj] at h
        subst h
        have hcb := shl_get (show 0 < n by omega) n2
        have hbm := bitmask_toNat (show 0 < n by omega) n2 hcb
        obtain ⟨c, r1, r2, r3, r4, r5, w, r6, r7⟩ := reset_rel (n := n) (P := polyOf taps)
          ⟨n1, n2, t3, t4, hcb⟩ hr
        refine ⟨n, polyOf taps, w, c, r6, r7, n3, ?_, r1, r5, by omega, ?_, ?_⟩
        · rw [r2]
          have h1 : 1#64 ≤ nums := by
            rw [BitVec.le_def]
            have : nums.toNat ≠ 0 := fun hh => h0 (BitVec.eq_of_toNat_eq (by simpa using hh))
            simp; omega
          have h2 : 1 ≤ nums.toNat := by simpa [BitVec.le_def] using h1
          rw [BitVec.toNat_sub_of_le h1]
          simp; omega
        · rw [r4]; simp only [hbm]
        · rw [r3, r4]

/-! ### A pass -/

theorem seqL_coprime {n P : Nat} (K : Nat) (fl : Lfsr) (w : Nat) (c : Cfg n P fl)
    (h : Rel n fl.lastVal w) (hcc : fl.cachedCycleLength = 0) (hc : fl.cycleLength ≤ 1)
    (hsp : fl.spin ≤ 15) :
    seqL K fl = (List.range K).map fun k =>
      shown n ((gT P)^[stepsOf fl + (fl.spin + 1) * k] w) := by
  cases K with
  | zero => rfl
  | succ K =>
    have hr := inner_rel c h
    have hsw : switchSteps fl.spin = fl.spin + 1 := by simp [switchSteps, hsp]
    rw [seqL, seqL_plain K (inner fl) _ (inner_cfg c) hr
      (by rw [inner_cycle]; split <;> omega), List.range_succ_eq_map, List.map_cons, List.map_map]
    congr 1
    · rw [hr.toNat]; simp [shown]
    · apply List.map_congr_left
      intro k _
      simp only [inner_spin, Function.comp]
      rw [← Function.iterate_add_apply, hsw, Nat.add_comm]

/-- The state is one from which a full pass starts: either the step count is coprime to the
period and there is no cycle bookkeeping, or the bookkeeping is in its initial state. -/
def Fresh (n : Nat) (fl : Lfsr) : Prop :=
  fl.spin ≤ 15 ∧
  ((Nat.gcd (fl.spin + 1) (2 ^ n - 1) = 1 ∧ fl.cachedCycleLength = 0 ∧ fl.cycleLength ≤ 1) ∨
   (1 < Nat.gcd (fl.spin + 1) (2 ^ n - 1) ∧ 0 < fl.cachedCycleLength ∧
     fl.cachedCycleLength * Nat.gcd (fl.spin + 1) (2 ^ n - 1) = 2 ^ n - 1 ∧
     fl.cycleLength = fl.cachedCycleLength + 1))

theorem seqL_perm {n P : Nat} (fl : Lfsr) (w : Nat) (c : Cfg n P fl) (h : Rel n fl.lastVal w)
    (hw0 : w ≠ 0) (hfr : Fresh n fl) : (seqL (2 ^ n - 1) fl).Perm (List.range (2 ^ n - 1)) := by
  obtain ⟨hsp, hcase⟩ := hfr
  rcases hcase with ⟨hg, hcc, hcl⟩ | ⟨hg, hC, hCg, hcl⟩
  · rw [seqL_coprime _ fl w c h hcc hcl hsp]
    apply perm_of_inj c.prim h.lt hw0 (fun k => stepsOf fl + (fl.spin + 1) * k)
    intro a b ha hb hab
    have h1 : (fl.spin + 1) * a ≡ (fl.spin + 1) * b [MOD 2 ^ n - 1] :=
      Nat.ModEq.add_left_cancel' _ hab
    have h2 : a ≡ b [MOD 2 ^ n - 1] :=
      Nat.ModEq.cancel_left_of_coprime (by rw [Nat.gcd_comm]; exact hg) h1
    exact Nat.ModEq.eq_of_lt_of_lt h2 ha hb
  · have hsp14 : fl.spin ≤ 14 := by
      apply Classical.byContradiction
      intro hne
      have h15 : fl.spin = 15 := by omega
      rw [h15] at hg
      have hcop : Nat.Coprime (2 ^ 4) (2 ^ n - 1) := by
        apply Nat.Coprime.pow_left
        rw [Nat.coprime_two_left, Nat.odd_iff]
        have : 2 ^ n = 2 * 2 ^ (n - 1) := by
          rw [← Nat.pow_succ', Nat.succ_eq_add_one, Nat.sub_add_cancel (by have := c.n3; omega)]
        have : 0 < 2 ^ (n - 1) := Nat.two_pow_pos _
        omega
      have : Nat.gcd (15 + 1) (2 ^ n - 1) = 1 := hcop
      omega
    rw [seqL_cycle hC _ fl w c h rfl (by omega) (by omega) hsp14]
    generalize hCdef : fl.cachedCycleLength = C at *
    generalize hs : fl.spin + 1 = s at *
    have hgL : Nat.gcd s (2 ^ n - 1) ∣ 2 ^ n - 1 := Nat.gcd_dvd_right _ _
    have hgs : Nat.gcd s (2 ^ n - 1) ∣ s := Nat.gcd_dvd_left _ _
    apply perm_of_inj c.prim h.lt hw0 (fun k => s * (k + 1) + (k + 1 + C - fl.cycleLength) / C)
    intro a b ha hb hab
    have hk : ∀ k, k + 1 + C - fl.cycleLength = k := by intro k; omega
    simp only [hk] at hab
    have hlt : ∀ k, k < 2 ^ n - 1 → k / C < Nat.gcd s (2 ^ n - 1) := by
      intro k hk
      rw [Nat.div_lt_iff_lt_mul hC, Nat.mul_comm, hCg]; exact hk
    have hmodg : a / C = b / C := by
      have h1 : s * (a + 1) + a / C ≡ s * (b + 1) + b / C [MOD Nat.gcd s (2 ^ n - 1)] :=
        Nat.ModEq.of_dvd hgL hab
      have h2 : ∀ k, s * (k + 1) + k / C ≡ k / C [MOD Nat.gcd s (2 ^ n - 1)] := by
        intro k
        have : s * (k + 1) ≡ 0 [MOD Nat.gcd s (2 ^ n - 1)] :=
          (Nat.modEq_zero_iff_dvd).2 (Dvd.dvd.mul_right hgs _)
        simpa using this.add_right (k / C)
      exact Nat.ModEq.eq_of_lt_of_lt ((h2 a).symm.trans (h1.trans (h2 b))) (hlt a ha) (hlt b hb)
    rw [hmodg] at hab
    have h3 : s * (a + 1) ≡ s * (b + 1) [MOD 2 ^ n - 1] := Nat.ModEq.add_right_cancel' _ hab
    have h4 := Nat.ModEq.cancel_left_div_gcd (by have := hlt a ha; omega) h3
    have h5 : (2 ^ n - 1) / Nat.gcd (2 ^ n - 1) s = C := by
      rw [Nat.gcd_comm]
      exact Nat.div_eq_of_eq_mul_left (by omega) hCg.symm
    rw [h5] at h4
    have h6 : a % C = b % C := Nat.ModEq.add_right_cancel' 1 h4
    have e1 := Nat.div_add_mod a C
    have e2 := Nat.div_add_mod b C
    rw [← e1, ← e2, hmodg, h6]

theorem pass_spec {n P : Nat} (fl : Lfsr) (w : Nat) (c : Cfg n P fl) (h : Rel n fl.lastVal w)
    (hw0 : w ≠ 0) (hfr : Fresh n fl) (hnum : fl.numVals = 0) (hmax : fl.maxVal.toNat + 1 < 2 ^ n)
    (fuel : Nat) (hf : 2 ^ 63 ≤ fuel) :
    ∃ (outs : List Nat) (fl' : Lfsr), calls fuel (fl.maxVal.toNat + 1) fl = some (fl', outs.map some) ∧
      outs.Perm (List.range (fl.maxVal.toNat + 1)) ∧
      fl'.numVals = fl.maxVal.toNat + 1 ∧ fl'.maxVal = fl.maxVal := by
  have hp := (seqL_perm fl w c h hw0 hfr).filter (fun v => decide (v ≤ fl.maxVal.toNat))
  rw [filter_range (by omega)] at hp
  have hlen := hp.length_eq
  rw [List.length_range] at hlen
  have hK : 2 ^ n - 1 ≤ fuel := by
    have : 2 ^ n ≤ 2 ^ 63 := Nat.pow_le_pow_right (by omega) (by have := c.n64; omega)
    omega
  obtain ⟨fl', g1, g2, g3⟩ := calls_spec _ _ fuel fl hK rfl (by rw [hnum, hlen]; omega)
  rw [hlen] at g1
  exact ⟨_, fl', g1, hp, g2, g3⟩

theorem exhausted (fuel : Nat) : ∀ (j : Nat) (fl : Lfsr), fl.numVals > fl.maxVal.toNat →
    ∃ fl', calls fuel j fl = some (fl', List.replicate j none) := by
  intro j
  induction j with
  | zero => intro fl _; exact ⟨fl, rfl⟩
  | succ j ih =>
    intro fl h
    obtain ⟨fl', h'⟩ := ih { fl with numVals := fl.numVals + 1 } (by simp only; omega)
    refine ⟨fl', ?_⟩
    have : lfsrNext fuel fl = some ({ fl with numVals := fl.numVals + 1 }, none) := by
      simp [lfsrNext, h]
    simp [calls, this, h', List.replicate_succ]

/-- **C05.** After a successful `lfsr_init` for `nums ≥ 1` values (any seed, any spin), the next
`nums` calls of `lfsr_next` all succeed (each within 2^63 loop iterations), return every value
of `0 .. nums-1` exactly once, and every later call reports exhaustion. -/
theorem C05_permutation (nums seed : BitVec 64) (spin : Nat) (fl : Lfsr) (h0 : nums ≠ 0#64)
    (h : lfsrInit nums seed spin = some fl) (fuel : Nat) (hf : 2 ^ 63 ≤ fuel) :
    ∃ (outs : List Nat) (fl' : Lfsr), calls fuel nums.toNat fl = some (fl', outs.map some) ∧
      outs.Perm (List.range nums.toNat) ∧
      ∀ j, ∃ fl'', calls fuel j fl' = some (fl'', List.replicate j none) := by
  obtain ⟨n, P, w, c, hrel, hw0, hlt, hmax, hnum, hspin, hsp15, hcc, hcl⟩ := init_spec h h0
  have hL : 0 < 2 ^ n - 1 := by
    have := Nat.one_lt_two_pow (n := n) (by have := c.n3; omega); omega
  have hfr : Fresh n fl := by
    refine ⟨by omega, ?_⟩
    have := spinCycle_gcd hL hsp15
    simp only at this
    rw [hcl, hcc, hspin]
    rcases this with ⟨g1, g2⟩ | ⟨g1, g2, g3⟩
    · left; exact ⟨g1, g2, by rw [g2]⟩
    · right; exact ⟨g1, g3, g2, rfl⟩
  obtain ⟨outs, fl', p1, p2, p3, p4⟩ := pass_spec fl w c hrel hw0 hfr hnum (by omega) fuel hf
  rw [hmax] at p1 p2
  exact ⟨outs, fl', p1, p2, fun j => exhausted fuel j fl' (by rw [p4]; omega)⟩

/-- When `lfsr_init` succeeds: the size is below 2^63, the spin at most 15, and the seed is not
all ones in the low `n` bits, `n` being the register length (the least `n ≥ 3` with
`nums < 2^n`). -/
theorem C05_init (nums seed : BitVec 64) (spin : Nat) :
    (lfsrInit nums seed spin).isSome ↔
      nums.toNat < 2 ^ 63 ∧ spin ≤ 15 ∧
      ∃ n, 3 ≤ n ∧ nums.toNat < 2 ^ n ∧ (∀ m, 3 ≤ m → m < n → 2 ^ m ≤ nums.toNat) ∧
        seed.toNat % 2 ^ n ≠ 2 ^ n - 1 := by
  unfold lfsrInit
  cases hf : findLfsr nums.toNat with
  | none =>
    have := findLfsrFrom_none 61 3 rfl (by omega) hf 63 (by omega) (by omega)
    simp; omega
  | some taps =>
    obtain ⟨n, n1, n2, n3, n4, n5⟩ := findLfsrFrom_some 61 3 taps rfl hf
    obtain ⟨taps', t1, t2, t3, t4⟩ := entry n1 n2
    rw [n4, Option.some_inj] at t1
    subst t1
    have hcb := shl_get (show 0 < n by omega) n2
    have hbm := bitmask_toNat (show 0 < n by omega) n2 hcb
    have h63 : nums.toNat < 2 ^ 63 := by
      have : 2 ^ n ≤ 2 ^ 63 := Nat.pow_le_pow_right (by omega) (by omega)
      omega
    have huniq : ∀ n', 3 ≤ n' → nums.toNat < 2 ^ n' → (∀ m, 3 ≤ m → m < n' → 2 ^ m ≤ nums.toNat) →
        n' = n := by
      intro n' a1 a2 a3
      rcases Nat.lt_trichotomy n' n with hl | hl | hl
      · have := n5 n' a1 hl; omega
      · exact hl
      · have := a3 n n1 hl; omega
    have hseed : (seed &&& ((1#64 <<< (n - 1)) <<< 1) - 1#64 ≠ ((1#64 <<< (n - 1)) <<< 1) - 1#64) ↔
        seed.toNat % 2 ^ n ≠ 2 ^ n - 1 := by
      rw [← Nat.and_two_pow_sub_one_eq_mod, ← hbm, ← BitVec.toNat_and, ne_eq, ne_eq,
        BitVec.toNat_inj]
    simp only [t2, Option.bind_eq_bind, Option.bind_some, prepareSpin]
    by_cases hsp : spin > 15
    · rw [if_pos hsp]
      simp; omega
    · rw [if_neg hsp]
      simp only [Option.bind_some, lfsrReset]
      by_cases hs : seed.toNat % 2 ^ n ≠ 2 ^ n - 1
      · have hs' := hseed.2 hs
        simp only [hs', decide_true, if_true, Option.isSome_some, true_iff, ne_eq, not_false_eq_true]
        exact ⟨h63, by omega, n, n1, n3, n5, hs⟩
      · have hs' : ¬ _ := fun x => hs (hseed.1 x)
        simp only [hs', decide_false, Bool.false_eq_true, if_false, Option.isSome_none, false_iff]
        rintro ⟨_, _, n', a1, a2, a3, a4⟩
        rw [huniq n' a1 a2 a3] at a4
        exact hs a4

theorem calls_cons {fuel k : Nat} {fl fl' fl'' : Lfsr} {o : Option Nat} {os : List (Option Nat)}
    (h : lfsrNext fuel fl = some (fl', o)) (h2 : calls fuel k fl' = some (fl'', os)) :
    calls fuel (k + 1) fl = some (fl'', o :: os) := by
  simp [calls, h, h2]

/-- A concrete instance of C05: 10 values with spin 2 (step count 3 shares the factor 3 with the
period 15, so the cycle bookkeeping is active); the eleventh call reports exhaustion. -/
example : lfsrInit 10#64 5#64 2 = some ⟨12#64, 5#64, 8#64, 9#64, 0, 6, 5, 2⟩ ∧
    calls 9 11 ⟨12#64, 5#64, 8#64, 9#64, 0, 6, 5, 2⟩ =
      some (⟨12#64, 1#64, 8#64, 9#64, 11, 1, 5, 2⟩,
        [some 8, some 6, some 9, some 5, some 0, some 7, some 4, some 3, some 2, some 1, none]) :=
  ⟨by decide +kernel,
    (calls_cons (fl' := ⟨12#64, 8#64, 8#64, 9#64, 1, 5, 5, 2⟩) (by decide +kernel)
    (calls_cons (fl' := ⟨12#64, 6#64, 8#64, 9#64, 2, 4, 5, 2⟩) (by decide +kernel)
    (calls_cons (fl' := ⟨12#64, 9#64, 8#64, 9#64, 3, 2, 5, 2⟩) (by decide +kernel)
    (calls_cons (fl' := ⟨12#64, 5#64, 8#64, 9#64, 4, 1, 5, 2⟩) (by decide +kernel)
    (calls_cons (fl' := ⟨12#64, 0#64, 8#64, 9#64, 5, 5, 5, 2⟩) (by decide +kernel)
    (calls_cons (fl' := ⟨12#64, 7#64, 8#64, 9#64, 6, 4, 5, 2⟩) (by decide +kernel)
    (calls_cons (fl' := ⟨12#64, 4#64, 8#64, 9#64, 7, 5, 5, 2⟩) (by decide +kernel)
    (calls_cons (fl' := ⟨12#64, 3#64, 8#64, 9#64, 8, 3, 5, 2⟩) (by decide +kernel)
    (calls_cons (fl' := ⟨12#64, 2#64, 8#64, 9#64, 9, 2, 5, 2⟩) (by decide +kernel)
    (calls_cons (fl' := ⟨12#64, 1#64, 8#64, 9#64, 10, 1, 5, 2⟩) (by decide +kernel)
    (calls_cons (fl' := ⟨12#64, 1#64, 8#64, 9#64, 11, 1, 5, 2⟩) (by decide +kernel)
    rfl)))))))))))⟩

/-! ### C06: reset -/

theorem nextLoop_inv {n P : Nat} : ∀ (fuel : Nat) (fl fl' : Lfsr) (o : Option Nat),
    nextLoop fuel fl = some (fl', o) → Cfg n P fl → fl.cachedCycleLength = 0 → fl.cycleLength ≤ 1 →
    Cfg n P fl' ∧ fl'.cachedCycleLength = 0 ∧ fl'.cycleLength ≤ 1 ∧ fl'.spin = fl.spin ∧
      fl'.maxVal = fl.maxVal := by
  intro fuel
  induction fuel with
  | zero => intro fl fl' o h; simp [nextLoop] at h
  | succ fuel ih =>
    intro fl fl' o h c hcc hcl
    have hcl' : (inner fl).cycleLength ≤ 1 := by rw [inner_cycle]; split <;> omega
    rw [nextLoop] at h
    split at h
    · have := ih (inner fl) fl' o h (inner_cfg c) (by rw [inner_cached, hcc]) hcl'
      simpa using this
    · simp only [Option.some_inj, Prod.mk.injEq] at h
      obtain ⟨rfl, _⟩ := h
      exact ⟨inner_cfg c, by rw [inner_cached, hcc], hcl', by simp, by simp⟩

theorem calls_inv {n P fuel : Nat} : ∀ (j : Nat) (fl fl' : Lfsr) (os : List (Option Nat)),
    calls fuel j fl = some (fl', os) → Cfg n P fl → fl.cachedCycleLength = 0 → fl.cycleLength ≤ 1 →
    Cfg n P fl' ∧ fl'.cachedCycleLength = 0 ∧ fl'.cycleLength ≤ 1 ∧ fl'.spin = fl.spin ∧
      fl'.maxVal = fl.maxVal := by
  intro j
  induction j with
  | zero =>
    intro fl fl' os h c hcc hcl
    simp only [calls, Option.some_inj, Prod.mk.injEq] at h
    obtain ⟨rfl, _⟩ := h
    exact ⟨c, hcc, hcl, rfl, rfl⟩
  | succ j ih =>
    intro fl fl' os h c hcc hcl
    rw [calls] at h
    cases hn : lfsrNext fuel fl with
    | none => simp [hn] at h
    | some r =>
      obtain ⟨fl1, o⟩ := r
      simp only [hn, Option.bind_eq_bind, Option.bind_some] at h
      cases hc2 : calls fuel j fl1 with
      | none => simp [hc2] at h
      | some r2 =>
        obtain ⟨fl2, os2⟩ := r2
        simp only [hc2, Option.bind_some, Option.pure_def, Option.some_inj, Prod.mk.injEq] at h
        obtain ⟨rfl, _⟩ := h
        have h1 : Cfg n P fl1 ∧ fl1.cachedCycleLength = 0 ∧ fl1.cycleLength ≤ 1 ∧
            fl1.spin = fl.spin ∧ fl1.maxVal = fl.maxVal := by
          unfold lfsrNext at hn
          split at hn
          · simp only [Option.some_inj, Prod.mk.injEq] at hn
            obtain ⟨rfl, _⟩ := hn
            exact ⟨⟨c.n3, c.n64, c.prim, c.xm, c.cb⟩, hcc, hcl, rfl, rfl⟩
          · exact nextLoop_inv fuel { fl with numVals := fl.numVals + 1 } fl1 o hn ⟨c.n3, c.n64, c.prim, c.xm, c.cb⟩ hcc hcl
        obtain ⟨a1, a2, a3, a4, a5⟩ := h1
        obtain ⟨b1, b2, b3, b4, b5⟩ := ih fl1 fl2 os2 hc2 a1 a2 a3
        exact ⟨b1, b2, b3, by rw [b4, a4], by rw [b5, a5]⟩

/-- **C06**, in the form that covers every spin without cycle bookkeeping: after any number of
calls, resetting with an accepted seed starts another full pass. -/
theorem C06_reset_general (nums seed : BitVec 64) (spin : Nat) (fl : Lfsr) (h0 : nums ≠ 0#64)
    (h : lfsrInit nums seed spin = some fl) (hcyc : fl.cachedCycleLength = 0)
    (fuel : Nat) (hf : 2 ^ 63 ≤ fuel)
    (j : Nat) (fl1 : Lfsr) (os : List (Option Nat)) (hj : calls fuel j fl = some (fl1, os))
    (seed2 : BitVec 64) (fl2 : Lfsr) (hr : lfsrReset fl1 seed2 = (fl2, true)) :
    ∃ (outs : List Nat) (fl' : Lfsr), calls fuel nums.toNat fl2 = some (fl', outs.map some) ∧
      outs.Perm (List.range nums.toNat) ∧
      ∀ j, ∃ fl'', calls fuel j fl' = some (fl'', List.replicate j none) := by
  obtain ⟨n, P, w, c, hrel, hw0, hlt, hmax, hnum, hspin, hsp15, hcc, hcl⟩ := init_spec h h0
  have hL : 0 < 2 ^ n - 1 := by
    have := Nat.one_lt_two_pow (n := n) (by have := c.n3; omega); omega
  have hg : Nat.gcd (spin + 1) (2 ^ n - 1) = 1 := by
    have := spinCycle_gcd hL hsp15
    simp only at this
    rw [← hcc] at this
    rcases this with ⟨g1, g2⟩ | ⟨g1, g2, g3⟩
    · exact g1
    · omega
  obtain ⟨a1, a2, a3, a4, a5⟩ := calls_inv j fl fl1 os hj c hcyc (by omega)
  obtain ⟨b1, b2, b3, b4, b5, b6, w2, b7, b8⟩ := reset_rel a1 hr
  have hfr : Fresh n fl2 := by
    refine ⟨by omega, Or.inl ⟨?_, by omega, by omega⟩⟩
    rw [b6, a4, hspin]; exact hg
  have hm2 : fl2.maxVal.toNat + 1 = nums.toNat := by rw [b3, a5]; exact hmax
  obtain ⟨outs, fl', p1, p2, p3, p4⟩ := pass_spec fl2 w2 b1 b7 b8 hfr b2 (by omega) fuel hf
  rw [hm2] at p1 p2
  exact ⟨outs, fl', p1, p2, fun j => exhausted fuel j fl' (by rw [p4]; omega)⟩

/-- **C06.** With spin 0, as fio uses it: after any number `j` of calls (which all return), a
reset with an accepted seed makes the generator emit each of `0 .. nums-1` exactly once again. -/
theorem C06_reset (nums seed : BitVec 64) (fl : Lfsr) (h0 : nums ≠ 0#64)
    (h : lfsrInit nums seed 0 = some fl) (fuel : Nat) (hf : 2 ^ 63 ≤ fuel)
    (j : Nat) (fl1 : Lfsr) (os : List (Option Nat)) (hj : calls fuel j fl = some (fl1, os))
    (seed2 : BitVec 64) (fl2 : Lfsr) (hr : lfsrReset fl1 seed2 = (fl2, true)) :
    ∃ (outs : List Nat) (fl' : Lfsr), calls fuel nums.toNat fl2 = some (fl', outs.map some) ∧
      outs.Perm (List.range nums.toNat) ∧
      ∀ j, ∃ fl'', calls fuel j fl' = some (fl'', List.replicate j none) := by
  apply C06_reset_general nums seed 0 fl h0 h _ fuel hf j fl1 os hj seed2 fl2 hr
  obtain ⟨n, P, w, c, hrel, hw0, hlt, hmax, hnum, hspin, hsp15, hcc, hcl⟩ := init_spec h h0
  rw [hcc]; rfl

/-- The hypotheses of C06 are met: two calls, then a reset with another accepted seed. -/
example : lfsrInit 10#64 5#64 0 = some ⟨12#64, 5#64, 8#64, 9#64, 0, 1, 0, 0⟩ ∧
    calls 9 2 ⟨12#64, 5#64, 8#64, 9#64, 0, 1, 0, 0⟩ = some (⟨12#64, 8#64, 8#64, 9#64, 2, 0, 0, 0⟩, [some 1, some 8]) ∧
    lfsrReset ⟨12#64, 8#64, 8#64, 9#64, 2, 0, 0, 0⟩ 9#64 = (⟨12#64, 9#64, 8#64, 9#64, 0, 0, 0, 0⟩, true) :=
  ⟨by decide +kernel,
    (calls_cons (fl' := ⟨12#64, 1#64, 8#64, 9#64, 1, 0, 0, 0⟩) (by decide +kernel)
    (calls_cons (fl' := ⟨12#64, 8#64, 8#64, 9#64, 2, 0, 0, 0⟩) (by decide +kernel)
    rfl)),
    by decide +kernel⟩

/-- C06 does not extend to spins with cycle bookkeeping: `lfsr_reset` leaves `cycle_length` where it
was, so a reset after one call (8 values, spin 2) yields 7 twice and never 0. -/
theorem C06_spin_counterexample : ∃ fl fl1 fl2 fl3 os,
    lfsrInit 8#64 0#64 2 = some fl ∧ calls 9 1 fl = some (fl1, os) ∧
    lfsrReset fl1 0#64 = (fl2, true) ∧
    calls 9 8 fl2 = some (fl3, [some 7, some 4, some 3, some 2, some 1, some 6, some 5, some 7]) :=
  ⟨⟨12#64, 0#64, 8#64, 7#64, 0, 6, 5, 2⟩, ⟨12#64, 7#64, 8#64, 7#64, 1, 5, 5, 2⟩, ⟨12#64, 0#64, 8#64, 7#64, 0, 5, 5, 2⟩,
   ⟨12#64, 7#64, 8#64, 7#64, 8, 5, 5, 2⟩, [some 7], by decide +kernel,
    (calls_cons (fl' := ⟨12#64, 7#64, 8#64, 7#64, 1, 5, 5, 2⟩) (by decide +kernel)
    rfl), by decide +kernel,
    (calls_cons (fl' := ⟨12#64, 7#64, 8#64, 7#64, 1, 4, 5, 2⟩) (by decide +kernel)
    (calls_cons (fl' := ⟨12#64, 4#64, 8#64, 7#64, 2, 5, 5, 2⟩) (by decide +kernel)
    (calls_cons (fl' := ⟨12#64, 3#64, 8#64, 7#64, 3, 3, 5, 2⟩) (by decide +kernel)
    (calls_cons (fl' := ⟨12#64, 2#64, 8#64, 7#64, 4, 2, 5, 2⟩) (by decide +kernel)
    (calls_cons (fl' := ⟨12#64, 1#64, 8#64, 7#64, 5, 1, 5, 2⟩) (by decide +kernel)
    (calls_cons (fl' := ⟨12#64, 6#64, 8#64, 7#64, 6, 5, 5, 2⟩) (by decide +kernel)
    (calls_cons (fl' := ⟨12#64, 5#64, 8#64, 7#64, 7, 2, 5, 2⟩) (by decide +kernel)
    (calls_cons (fl' := ⟨12#64, 7#64, 8#64, 7#64, 8, 5, 5, 2⟩) (by decide +kernel)
    rfl))))))))⟩

end Fio.Lfsr
