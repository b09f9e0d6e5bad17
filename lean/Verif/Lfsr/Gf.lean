import Mathlib.Dynamics.PeriodicPts.Defs
import Mathlib.Data.Nat.Prime.Basic
import Mathlib.Data.Finset.Card
import Mathlib.Order.Interval.Finset.Nat
/-
Arithmetic of GF(2)[x]/(P) on natural numbers (bit i = coefficient of x^i): multiplication by x,
its inverse, and the order of x.
-/
namespace Fio.Lfsr

/-- Multiplication by x modulo the polynomial `P` of degree `n`. -/
def gS (n P w : Nat) : Nat := if (2 * w).testBit n then (2 * w) ^^^ P else 2 * w

/-- Division by x. -/
def gT (P w : Nat) : Nat := if w.testBit 0 then (w ^^^ P) / 2 else w / 2

/-- `P` has degree `n` and constant term one. -/
structure Poly (n P : Nat) : Prop where
  lo : 2 ^ n ≤ P
  hi : P < 2 ^ (n + 1)
  odd : P.testBit 0 = true

theorem Poly.top {n P : Nat} (h : Poly n P) : P.testBit n = true := by
  rw [Nat.testBit_eq_decide_div_mod_eq, decide_eq_true_eq]
  have h1 := h.lo
  have h2 := h.hi
  rw [Nat.pow_succ] at h2
  have h3 : P / 2 ^ n = 1 := by
    apply Nat.div_eq_of_lt_le <;> omega
  rw [h3]

theorem testBit_two_mul_zero (w : Nat) : (2 * w).testBit 0 = false := by
  rw [Nat.testBit_zero]; simp

theorem testBit_two_mul_succ (w i : Nat) : (2 * w).testBit (i + 1) = w.testBit i := by
  rw [Nat.testBit_succ]; congr 1; omega

theorem testBit_half (w i : Nat) : (w / 2).testBit i = w.testBit (i + 1) := by
  rw [Nat.testBit_succ]

theorem gS_lt {n P w : Nat} (hP : Poly n P) (hw : w < 2 ^ n) : gS n P w < 2 ^ n := by
  have h2 : 2 * w < 2 ^ (n + 1) := by rw [Nat.pow_succ]; omega
  unfold gS
  split
  · rename_i hb
    apply Nat.lt_pow_two_of_testBit
    intro i hi
    rw [Nat.testBit_xor]
    rcases Nat.eq_or_lt_of_le hi with rfl | hlt
    · rw [hb, hP.top]; rfl
    · have e1 : (2 * w).testBit i = false := Nat.testBit_lt_two_pow
        (Nat.lt_of_lt_of_le h2 (Nat.pow_le_pow_right (by omega) (by omega)))
      have e2 : P.testBit i = false := Nat.testBit_lt_two_pow
        (Nat.lt_of_lt_of_le hP.hi (Nat.pow_le_pow_right (by omega) (by omega)))
      rw [e1, e2]; rfl
  · rename_i hb
    apply Nat.lt_pow_two_of_testBit
    intro i hi
    rcases Nat.eq_or_lt_of_le hi with rfl | hlt
    · simpa using hb
    · exact Nat.testBit_lt_two_pow
        (Nat.lt_of_lt_of_le h2 (Nat.pow_le_pow_right (by omega) (by omega)))

theorem gT_gS {n P w : Nat} (hP : Poly n P) : gT P (gS n P w) = w := by
  unfold gS
  split
  · unfold gT
    have : (2 * w ^^^ P).testBit 0 = true := by
      rw [Nat.testBit_xor, testBit_two_mul_zero, hP.odd]; rfl
    rw [if_pos this, Nat.xor_assoc, Nat.xor_self, Nat.xor_zero]
    omega
  · unfold gT
    have : (2 * w).testBit 0 = false := testBit_two_mul_zero w
    rw [this]; simp

theorem two_mul_half {x : Nat} (h : x.testBit 0 = false) : 2 * (x / 2) = x := by
  rw [Nat.testBit_zero] at h
  have : x % 2 = 0 := by
    have := of_decide_eq_false h; omega
  omega

theorem gS_gT {n P w : Nat} (hP : Poly n P) (hw : w < 2 ^ n) : gS n P (gT P w) = w := by
  have hwn : w.testBit n = false := Nat.testBit_lt_two_pow hw
  unfold gT
  split
  · rename_i hb
    have h0 : (w ^^^ P).testBit 0 = false := by rw [Nat.testBit_xor, hb, hP.odd]; rfl
    unfold gS
    rw [two_mul_half h0]
    have : (w ^^^ P).testBit n = true := by rw [Nat.testBit_xor, hwn, hP.top]; rfl
    rw [if_pos this, Nat.xor_assoc, Nat.xor_self, Nat.xor_zero]
  · rename_i hb
    have hb : w.testBit 0 = false := by simpa using hb
    unfold gS
    rw [two_mul_half hb, hwn]; simp

theorem gT_lt {n P w : Nat} (hP : Poly n P) (hw : w < 2 ^ n) : gT P w < 2 ^ n := by
  have hwP : w ^^^ P < 2 ^ (n + 1) := Nat.xor_lt_two_pow
    (Nat.lt_of_lt_of_le hw (Nat.pow_le_pow_right (by omega) (by omega))) hP.hi
  rw [Nat.pow_succ] at hwP
  unfold gT
  split <;> omega

theorem two_mul_xor (a b : Nat) : 2 * (a ^^^ b) = 2 * a ^^^ 2 * b := by
  apply Nat.eq_of_testBit_eq
  intro i
  cases i with
  | zero => rw [Nat.testBit_xor, testBit_two_mul_zero, testBit_two_mul_zero, testBit_two_mul_zero]; rfl
  | succ i => rw [Nat.testBit_xor, testBit_two_mul_succ, testBit_two_mul_succ, testBit_two_mul_succ,
      Nat.testBit_xor]

theorem gS_xor {n P : Nat} (a b : Nat) : gS n P (a ^^^ b) = gS n P a ^^^ gS n P b := by
  unfold gS
  rw [two_mul_xor, Nat.testBit_xor]
  generalize 2 * a = x
  generalize 2 * b = y
  cases hx : x.testBit n <;> cases hy : y.testBit n
  · simp
  · simp [Nat.xor_assoc]
  · simp only [Bool.xor_false, if_true, Bool.false_eq_true, if_false]
    rw [Nat.xor_assoc, Nat.xor_comm y P, ← Nat.xor_assoc]
  · simp only [Bool.xor_self, Bool.false_eq_true, if_false, if_true]
    rw [Nat.xor_assoc, ← Nat.xor_assoc P y P, Nat.xor_comm P y, Nat.xor_assoc y, Nat.xor_self,
      Nat.xor_zero]

theorem gS_zero {n P : Nat} : gS n P 0 = 0 := by simp [gS]

/-- `mul n P k a v` is the sum of `a_i x^i v` over the low `k` bits of `a`. -/
def mulK (n P : Nat) : (k a v : Nat) → Nat
  | 0, _, _ => 0
  | k + 1, a, v => (if a.testBit 0 then v else 0) ^^^ mulK n P k (a / 2) (gS n P v)

theorem mulK_gS {n P : Nat} : ∀ (k a v : Nat), mulK n P k a (gS n P v) = gS n P (mulK n P k a v) := by
  intro k
  induction k with
  | zero => intro a v; simp [mulK, gS_zero]
  | succ k ih =>
    intro a v
    rw [mulK, mulK, gS_xor, ih]
    congr 1
    split
    · rfl
    · rw [gS_zero]

theorem mulK_iter {n P : Nat} (k a v : Nat) : ∀ j,
    mulK n P k a ((gS n P)^[j] v) = (gS n P)^[j] (mulK n P k a v) := by
  intro j
  induction j with
  | zero => rfl
  | succ j ih => rw [Function.iterate_succ_apply', Function.iterate_succ_apply', mulK_gS, ih]

theorem mulK_pow {n P : Nat} : ∀ (k i a : Nat), i + k ≤ n → a < 2 ^ k →
    mulK n P k a (2 ^ i) = 2 ^ i * a := by
  intro k
  induction k with
  | zero => intro i a _ ha; simp at ha; simp [mulK, ha]
  | succ k ih =>
    intro i a hik ha
    rw [mulK]
    have ha2 : a / 2 < 2 ^ k := by rw [Nat.pow_succ] at ha; omega
    by_cases hlast : k = 0
    · subst hlast
      simp only [mulK, Nat.xor_zero]
      have : a = 0 ∨ a = 1 := by omega
      rcases this with rfl | rfl <;> simp
    · have hS : gS n P (2 ^ i) = 2 ^ (i + 1) := by
        unfold gS
        rw [show 2 * 2 ^ i = 2 ^ (i + 1) by rw [Nat.pow_succ, Nat.mul_comm]]
        rw [Nat.testBit_two_pow_of_ne (by omega)]; simp
      rw [hS, ih (i + 1) (a / 2) (by omega) ha2]
      apply Nat.eq_of_testBit_eq
      intro j
      rw [Nat.testBit_xor, Nat.testBit_two_pow_mul, Nat.testBit_two_pow_mul, testBit_half]
      have hmid : (if a.testBit 0 = true then 2 ^ i else 0).testBit j =
          (decide (j = i) && a.testBit 0) := by
        cases h0 : a.testBit 0
        · simp
        · simp [Nat.testBit_two_pow, eq_comm]
      rw [hmid]
      by_cases hji : j = i
      · subst hji; simp
      · by_cases hj : i + 1 ≤ j
        · rw [show j - (i + 1) + 1 = j - i by omega]
          have : i ≤ j := by omega
          simp [hji, hj, this]
        · have : ¬ i ≤ j := by omega
          simp [hji, hj, this]

theorem mulK_one {n P a : Nat} (ha : a < 2 ^ n) : mulK n P n a 1 = a := by
  have := mulK_pow (P := P) n 0 a (n := n) (by omega) ha
  simpa using this

/-- `x^j v` as a product. -/
theorem iter_eq_mul {n P v : Nat} (hv : v < 2 ^ n) (j : Nat) :
    (gS n P)^[j] v = mulK n P n v ((gS n P)^[j] 1) := by
  rw [mulK_iter, mulK_one hv]

theorem iter_lt {n P w : Nat} (hP : Poly n P) (hw : w < 2 ^ n) : ∀ j, (gS n P)^[j] w < 2 ^ n := by
  intro j
  induction j with
  | zero => exact hw
  | succ j ih => rw [Function.iterate_succ_apply']; exact gS_lt hP ih

/-- `x^k` by repeated squaring. -/
def powX (n P : Nat) : (fuel k : Nat) → Nat
  | 0, _ => 1
  | fuel + 1, k =>
    if k = 0 then 1 else
      let h := powX n P fuel (k / 2)
      let q := mulK n P n h h
      if k % 2 = 1 then gS n P q else q

theorem powX_eq {n P : Nat} (hn : 0 < n) (hP : Poly n P) : ∀ (fuel k : Nat), k < 2 ^ fuel →
    powX n P fuel k = (gS n P)^[k] 1 := by
  have h1 : 1 < 2 ^ n := Nat.one_lt_two_pow (by omega)
  intro fuel
  induction fuel with
  | zero => intro k hk; simp at hk; simp [powX, hk]
  | succ fuel ih =>
    intro k hk
    rw [Nat.pow_succ] at hk
    unfold powX
    by_cases hk0 : k = 0
    · simp [hk0]
    · rw [if_neg hk0]
      have hih := ih (k / 2) (by omega)
      simp only [hih]
      have hsq : mulK n P n ((gS n P)^[k / 2] 1) ((gS n P)^[k / 2] 1) = (gS n P)^[k / 2 + k / 2] 1 := by
        rw [← iter_eq_mul (iter_lt hP h1 _), ← Function.iterate_add_apply]
      rw [hsq]
      split
      · rename_i hodd
        rw [← Function.iterate_succ_apply' (gS n P)]
        congr 1; omega
      · rename_i heven
        congr 1; omega

/-- `x` generates all nonzero residues: its order is `2^n - 1`. -/
structure Primitive (n P : Nat) : Prop where
  npos : 0 < n
  poly : Poly n P
  period : (gS n P)^[2 ^ n - 1] 1 = 1
  minimal : ∀ q, q.Prime → q ∣ 2 ^ n - 1 → (gS n P)^[(2 ^ n - 1) / q] 1 ≠ 1

open Function in
theorem Primitive.perS {n P : Nat} (h : Primitive n P) :
    minimalPeriod (gS n P) 1 = 2 ^ n - 1 := by
  have hL : 0 < 2 ^ n - 1 := by have := Nat.one_lt_two_pow (n := n) (by have := h.npos; omega); omega
  have hper : IsPeriodicPt (gS n P) (2 ^ n - 1) 1 := h.period
  have hdvd := hper.minimalPeriod_dvd
  apply Classical.byContradiction
  intro hne
  obtain ⟨c, hc⟩ := hdvd
  have hc1 : c ≠ 1 := by rintro rfl; rw [Nat.mul_one] at hc; exact hne hc.symm
  have hcpos : c ≠ 0 := by rintro rfl; rw [Nat.mul_zero] at hc; omega
  obtain ⟨q, hq, hqc⟩ := Nat.exists_prime_and_dvd hc1
  obtain ⟨c', rfl⟩ := hqc
  apply h.minimal q hq ⟨minimalPeriod (gS n P) 1 * c', by rw [hc]; exact Nat.mul_left_comm _ _ _⟩
  have hdiv : (2 ^ n - 1) / q = minimalPeriod (gS n P) 1 * c' := by
    rw [hc, show minimalPeriod (gS n P) 1 * (q * c') = q * (minimalPeriod (gS n P) 1 * c') from Nat.mul_left_comm _ _ _]
    exact Nat.mul_div_cancel_left _ hq.pos
  rw [hdiv]
  exact (isPeriodicPt_minimalPeriod (gS n P) 1).mul_const c'

theorem gS_ne_zero {n P w : Nat} (hP : Poly n P) (hw : w ≠ 0) : gS n P w ≠ 0 := by
  intro h
  have := gT_gS (w := w) hP
  rw [h] at this
  simp [gT] at this
  exact hw this.symm

theorem iter_ne_zero {n P w : Nat} (hP : Poly n P) (hw : w ≠ 0) : ∀ j, (gS n P)^[j] w ≠ 0 := by
  intro j
  induction j with
  | zero => exact hw
  | succ j ih => rw [Function.iterate_succ_apply']; exact gS_ne_zero hP ih

open Function in
/-- Every nonzero word is a power of x. -/
theorem Primitive.surj {n P : Nat} (h : Primitive n P) {w : Nat} (hw : w < 2 ^ n) (hw0 : w ≠ 0) :
    ∃ j, (gS n P)^[j] 1 = w := by
  have h1 : 1 < 2 ^ n := Nat.one_lt_two_pow (by have := h.npos; omega)
  have hinj : Set.InjOn (fun j => (gS n P)^[j] 1) (Finset.range (2 ^ n - 1)) := by
    intro a ha b hb hab
    rw [Finset.coe_range, Set.mem_Iio, ← h.perS] at ha hb
    exact (iterate_eq_iterate_iff_of_lt_minimalPeriod ha hb).1 hab
  have hsub : (Finset.range (2 ^ n - 1)).image (fun j => (gS n P)^[j] 1) ⊆ Finset.Ioo 0 (2 ^ n) := by
    intro x hx
    rw [Finset.mem_image] at hx
    obtain ⟨j, _, rfl⟩ := hx
    rw [Finset.mem_Ioo]
    exact ⟨Nat.pos_of_ne_zero (iter_ne_zero h.poly (by omega) j), iter_lt h.poly h1 j⟩
  have heq := Finset.eq_of_subset_of_card_le hsub (by
    rw [Finset.card_image_of_injOn hinj, Finset.card_range, Nat.card_Ioo]; omega)
  have : w ∈ (Finset.range (2 ^ n - 1)).image (fun j => (gS n P)^[j] 1) := by
    rw [heq, Finset.mem_Ioo]; exact ⟨Nat.pos_of_ne_zero hw0, hw⟩
  rw [Finset.mem_image] at this
  obtain ⟨j, _, hj⟩ := this
  exact ⟨j, hj⟩

theorem gT_iter_lt {n P w : Nat} (hP : Poly n P) (hw : w < 2 ^ n) : ∀ j, (gT P)^[j] w < 2 ^ n := by
  intro j
  induction j with
  | zero => exact hw
  | succ j ih => rw [Function.iterate_succ_apply']; exact gT_lt hP ih

theorem gS_gT_iter {n P w : Nat} (hP : Poly n P) (hw : w < 2 ^ n) : ∀ j,
    (gS n P)^[j] ((gT P)^[j] w) = w := by
  intro j
  induction j with
  | zero => rfl
  | succ j ih =>
    rw [Function.iterate_succ_apply, Function.iterate_succ_apply', gS_gT hP (gT_iter_lt hP hw j), ih]

theorem gT_gS_iter {n P w : Nat} (hP : Poly n P) : ∀ j,
    (gT P)^[j] ((gS n P)^[j] w) = w := by
  intro j
  induction j with
  | zero => rfl
  | succ j ih =>
    rw [Function.iterate_succ_apply, Function.iterate_succ_apply', gT_gS hP, ih]

open Function in
theorem Primitive.perT {n P : Nat} (h : Primitive n P) {w : Nat} (hw : w < 2 ^ n)
    (hw0 : w ≠ 0) : minimalPeriod (gT P) w = 2 ^ n - 1 := by
  obtain ⟨j, rfl⟩ := h.surj hw hw0
  have key : ∀ m, IsPeriodicPt (gT P) m ((gS n P)^[j] 1) ↔ IsPeriodicPt (gS n P) m 1 := by
    intro m
    have h1 : 1 < 2 ^ n := Nat.one_lt_two_pow (by have := h.npos; omega)
    constructor
    · intro hp
      have e : (gT P)^[m] ((gS n P)^[j] 1) = (gS n P)^[j] 1 := hp
      have e2 := gS_gT_iter h.poly hw m
      rw [e, ← iterate_add_apply, Nat.add_comm, iterate_add_apply] at e2
      have e3 := congrArg ((gT P)^[j]) e2
      rw [gT_gS_iter h.poly, gT_gS_iter h.poly] at e3
      exact e3
    · intro hp
      have e : (gS n P)^[m] 1 = 1 := hp
      have e2 : (gS n P)^[m] ((gS n P)^[j] 1) = (gS n P)^[j] 1 := by
        rw [← iterate_add_apply, Nat.add_comm, iterate_add_apply, e]
      have e3 := congrArg ((gT P)^[m]) e2
      rw [gT_gS_iter h.poly] at e3
      exact e3.symm
  rw [← h.perS]
  apply Nat.dvd_antisymm
  · exact ((key _).2 (isPeriodicPt_minimalPeriod _ _)).minimalPeriod_dvd
  · exact ((key _).1 (isPeriodicPt_minimalPeriod _ _)).minimalPeriod_dvd

open Function in
/-- Two states on the cycle agree exactly if the step counts agree modulo the period. -/
theorem Primitive.iter_eq {n P : Nat} (h : Primitive n P) {w : Nat} (hw : w < 2 ^ n)
    (hw0 : w ≠ 0) {a b : Nat} (hab : (gT P)^[a] w = (gT P)^[b] w) :
    a % (2 ^ n - 1) = b % (2 ^ n - 1) := by
  have hm := h.perT hw hw0
  have hpos : 0 < 2 ^ n - 1 := by
    have := Nat.one_lt_two_pow (n := n) (by have := h.npos; omega); omega
  have hp : IsPeriodicPt (gT P) (2 ^ n - 1) w := by rw [← hm]; exact isPeriodicPt_minimalPeriod _ _
  rw [← hp.iterate_mod_apply a, ← hp.iterate_mod_apply b] at hab
  exact (iterate_eq_iterate_iff_of_lt_minimalPeriod
    (by rw [hm]; exact Nat.mod_lt _ hpos) (by rw [hm]; exact Nat.mod_lt _ hpos)).1 hab

theorem gT_ne_zero {n P w : Nat} (hP : Poly n P) (hw : w < 2 ^ n) (hw0 : w ≠ 0) : gT P w ≠ 0 := by
  intro h
  have := gS_gT hP hw
  rw [h, gS_zero] at this
  exact hw0 this.symm

end Fio.Lfsr
