import Verif.Crc.Serial
import Mathlib.Algebra.Polynomial.Div
import Mathlib.Algebra.Polynomial.FieldDivision
import Mathlib.Algebra.Field.ZMod
import Mathlib.Tactic.LinearCombination
/-
The bit-serial registers as division of polynomials over the field of two elements.
-/
namespace Fio.Crc
open Polynomial

/-- Polynomials over GF(2). -/
abbrev F2X := (ZMod 2)[X]

/-- Bit `i` of the word is the coefficient of `X^i`. -/
noncomputable def toPoly {w : Nat} (c : BitVec w) : F2X :=
  ∑ i ∈ Finset.range w, if c.getLsbD i then X ^ i else 0

noncomputable def bit (b : Bool) : F2X := if b then 1 else 0

/-- The message as a polynomial, first bit the highest coefficient. -/
noncomputable def msgPoly (bits : List Bool) : F2X := bits.foldl (fun p b => p * X + bit b) 0

theorem two_eq (x : F2X) : x + x = 0 := by
  rw [← two_mul, show (2 : F2X) = 0 from by
    rw [← C_ofNat, show (OfNat.ofNat 2 : ZMod 2) = 0 from rfl, C_0], zero_mul]

theorem coeff_toPoly {w : Nat} (c : BitVec w) (i : Nat) : (toPoly c).coeff i = if c.getLsbD i then 1 else 0 := by
  unfold toPoly
  rw [finsetSum_coeff]
  have : ∀ j ∈ Finset.range w, (if c.getLsbD j then (X : F2X) ^ j else 0).coeff i =
      if j = i then (if c.getLsbD i then 1 else 0) else 0 := by
    intro j _
    by_cases h : j = i
    · subst h
      by_cases h' : c.getLsbD j <;> simp [h', coeff_X_pow]
    · by_cases h' : c.getLsbD j <;> simp [h', h, coeff_X_pow, Ne.symm h]
  rw [Finset.sum_congr rfl this, Finset.sum_ite_eq']
  by_cases hi : i < w
  · simp [hi]
  · simp [hi, BitVec.getLsbD_of_ge c i (by omega)]

theorem degree_toPoly {w : Nat} (c : BitVec w) : (toPoly c).degree < w := by
  rw [degree_lt_iff_coeff_zero]
  intro m hm
  rw [coeff_toPoly, BitVec.getLsbD_of_ge c m hm]; simp

theorem toPoly_inj {w : Nat} {c c' : BitVec w} (h : toPoly c = toPoly c') : c = c' := by
  apply BitVec.eq_of_getLsbD_eq
  intro i _
  have := congrArg (fun p : F2X => p.coeff i) h
  simp only [coeff_toPoly] at this
  revert this
  cases c.getLsbD i <;> cases c'.getLsbD i <;> simp

theorem ite_xor_z (a b : Bool) : (if (a ^^ b) then (1 : ZMod 2) else 0) = (if a then 1 else 0) + (if b then 1 else 0) := by
  cases a <;> cases b <;> decide

theorem toPoly_xor {w : Nat} (c c' : BitVec w) : toPoly (c ^^^ c') = toPoly c + toPoly c' := by
  ext i
  rw [coeff_add, coeff_toPoly, coeff_toPoly, coeff_toPoly, BitVec.getLsbD_xor, ite_xor_z]

theorem toPoly_zero {w : Nat} : toPoly (0#w) = 0 := by
  ext i; rw [coeff_toPoly]; simp

theorem toPoly_shl {w : Nat} (hw : 0 < w) (c : BitVec w) :
    toPoly (c <<< 1) = toPoly c * X + bit c.msb * X ^ w := by
  ext i
  rw [coeff_add, coeff_toPoly, BitVec.getLsbD_shiftLeft]
  have hb : (bit c.msb * X ^ w : F2X).coeff i = if i = w then (if c.getLsbD (w - 1) then 1 else 0) else 0 := by
    rw [BitVec.msb_eq_getLsbD_last]
    unfold bit
    by_cases h : c.getLsbD (w - 1) <;> simp [h, coeff_X_pow]
  rw [hb]
  cases i with
  | zero =>
    rw [mul_coeff_zero, coeff_X_zero, mul_zero]
    have : ¬ 0 = w := by omega
    simp [this]
  | succ i =>
    rw [coeff_mul_X, coeff_toPoly]
    by_cases h1 : i + 1 < w
    · have : ¬ i + 1 = w := by omega
      simp [h1, this]
    · by_cases h2 : i + 1 = w
      · have h3 : w - 1 = i := by omega
        subst h2
        simp only [Nat.add_sub_cancel]
        rw [if_pos trivial]
        cases c.getLsbD i <;> simp <;> decide
      · simp [h1, h2, BitVec.getLsbD_of_ge c i (by omega)]

theorem toPoly_top {w : Nat} (hw : 0 < w) : toPoly (BitVec.twoPow w (w - 1)) = X ^ (w - 1) := by
  ext i
  rw [coeff_toPoly, coeff_X_pow, BitVec.getLsbD_twoPow]
  by_cases h : i = w - 1
  · subst h; simp [show w - 1 < w by omega]
  · simp [h, Ne.symm h]

/-- The divisor with feedback word `p`. -/
noncomputable def genPoly {w : Nat} (p : BitVec w) : F2X := X ^ w + toPoly p

theorem monic_gen {w : Nat} (p : BitVec w) : (genPoly p).Monic := monic_X_pow_add (degree_toPoly p)

theorem degree_gen {w : Nat} (p : BitVec w) : (genPoly p).degree = w := by
  unfold genPoly
  rw [degree_add_eq_left_of_degree_lt, degree_X_pow]
  rw [degree_X_pow]; exact degree_toPoly p

theorem toPoly_ite {w : Nat} (b : Bool) (p : BitVec w) : toPoly (if b then p else 0#w) = bit b * toPoly p := by
  cases b <;> simp [bit, toPoly_zero]

theorem toPoly_bitL {w : Nat} (hw : 0 < w) (p c : BitVec w) (b : Bool) :
    ∃ t, toPoly (bitL p c b) = toPoly c * X + bit b * X ^ w + t * genPoly p := by
  obtain ⟨c', hc'⟩ : ∃ c', c' = c ^^^ (if b then BitVec.twoPow w (w - 1) else 0#w) := ⟨_, rfl⟩
  refine ⟨bit c'.msb, ?_⟩
  unfold bitL stepL
  rw [← hc', toPoly_xor, toPoly_shl hw, toPoly_ite]
  have : toPoly c' = toPoly c + bit b * X ^ (w - 1) := by
    rw [hc', toPoly_xor, toPoly_ite, toPoly_top hw]
  have hx : (X : F2X) ^ (w - 1) * X = X ^ w := by rw [← pow_succ]; congr 1; omega
  rw [this]
  unfold genPoly
  linear_combination bit b * hx

theorem msgPoly_append_aux (l : List Bool) : ∀ (q : F2X),
    l.foldl (fun p b => p * X + bit b) q = q * X ^ l.length + msgPoly l := by
  induction l with
  | nil => intro q; simp [msgPoly]
  | cons b l ih =>
    intro q
    unfold msgPoly
    rw [List.foldl_cons, List.foldl_cons, ih, ih (0 * X + bit b), List.length_cons]
    ring

theorem msgPoly_append (l l' : List Bool) : msgPoly (l ++ l') = msgPoly l * X ^ l'.length + msgPoly l' := by
  unfold msgPoly
  rw [List.foldl_append, msgPoly_append_aux]; rfl

theorem msgPoly_cons (b : Bool) (l : List Bool) : msgPoly (b :: l) = bit b * X ^ l.length + msgPoly l := by
  have := msgPoly_append [b] l
  rw [List.singleton_append] at this
  rw [this]
  simp [msgPoly]

theorem serialL_congr {w : Nat} (hw : 0 < w) (p : BitVec w) (bits : List Bool) : ∀ (c : BitVec w),
    ∃ t, toPoly (serialL p c bits) = toPoly c * X ^ bits.length + msgPoly bits * X ^ w + t * genPoly p := by
  induction bits with
  | nil => intro c; exact ⟨0, by simp [serialL, msgPoly]⟩
  | cons b l ih =>
    intro c
    obtain ⟨t, ht⟩ := ih (bitL p c b)
    obtain ⟨s, hs⟩ := toPoly_bitL hw p c b
    refine ⟨t + s * X ^ l.length, ?_⟩
    show toPoly (serialL p (bitL p c b) l) = _
    rw [ht, hs, msgPoly_cons, List.length_cons]
    ring

/-- The register is the remainder of the division. -/
theorem serialL_mod {w : Nat} (hw : 0 < w) (p c : BitVec w) (bits : List Bool) :
    toPoly (serialL p c bits) = (toPoly c * X ^ bits.length + msgPoly bits * X ^ w) %ₘ genPoly p := by
  obtain ⟨t, ht⟩ := serialL_congr hw p bits c
  refine ((div_modByMonic_unique t _ (monic_gen p) ⟨?_, ?_⟩).2).symm
  · rw [ht, add_comm _ (t * genPoly p), add_assoc, mul_comm (genPoly p) t]
    generalize t * genPoly p = y
    rw [add_comm y, add_assoc, two_eq, add_zero]
  · rw [degree_gen]; exact degree_toPoly _

/-! ## Reflected registers -/

theorem stepR_reverse {w : Nat} (p c : BitVec w) :
    (stepR p c).reverse = stepL p.reverse c.reverse := by
  apply BitVec.eq_of_getLsbD_eq
  intro i hi
  unfold stepR stepL
  rw [BitVec.getLsbD_reverse, BitVec.getMsbD_xor, BitVec.getLsbD_xor, BitVec.msb_reverse, BitVec.getLsbD_shiftLeft,
    BitVec.getMsbD_ushiftRight, BitVec.getLsbD_reverse]
  congr 1
  · by_cases h : i = 0
    · subst h; simp
    · have : ¬ i < 1 := by omega
      simp [this, hi]
  · cases c.getLsbD 0
    · simp
    · simp [BitVec.getLsbD_reverse]

theorem reverse_xor {w : Nat} (a b : BitVec w) : (a ^^^ b).reverse = a.reverse ^^^ b.reverse := by
  apply BitVec.eq_of_getLsbD_eq
  intro i _
  rw [BitVec.getLsbD_reverse, BitVec.getMsbD_xor, BitVec.getLsbD_xor, BitVec.getLsbD_reverse, BitVec.getLsbD_reverse]

theorem bitR_reverse {w : Nat} (p c : BitVec w) (b : Bool) :
    (bitR p c b).reverse = bitL p.reverse c.reverse b := by
  unfold bitR bitL
  rw [stepR_reverse, reverse_xor]
  congr 2
  cases b
  · apply BitVec.eq_of_getLsbD_eq; intro i hi; rw [BitVec.getLsbD_reverse]; simp
  · apply BitVec.eq_of_getLsbD_eq
    intro i hi
    rw [if_pos rfl, if_pos rfl, BitVec.getLsbD_reverse, BitVec.getMsbD_one, BitVec.getLsbD_twoPow]
    by_cases h : i = w - 1
    · subst h; simp
    · simp [h, Ne.symm h]

theorem serialR_reverse {w : Nat} (hw : 0 < w) (p : BitVec w) (bits : List Bool) : ∀ (c : BitVec w),
    (serialR p c bits).reverse = serialL p.reverse c.reverse bits := by
  induction bits with
  | nil => intro c; rfl
  | cons b l ih =>
    intro c
    show (serialR p (bitR p c b) l).reverse = _
    rw [ih, bitR_reverse]; rfl

theorem serialR_mod {w : Nat} (hw : 0 < w) (p c : BitVec w) (bits : List Bool) :
    toPoly (serialR p c bits).reverse =
      (toPoly c.reverse * X ^ bits.length + msgPoly bits * X ^ w) %ₘ genPoly p.reverse := by
  rw [serialR_reverse hw, serialL_mod hw]

/-! ## Error detection -/

/-- The two messages have the same length and all differences lie within `n` consecutive bits. -/
def Burst (n : Nat) (l l' : List Bool) : Prop :=
  ∃ a u v z, l = a ++ u ++ z ∧ l' = a ++ v ++ z ∧ u.length = v.length ∧ u.length ≤ n ∧ u ≠ v

theorem coprime_X {w : Nat} (p : BitVec w) (hw : 0 < w) (hp : p.getLsbD 0 = true) : IsCoprime (genPoly p) (X : F2X) := by
  apply IsCoprime.symm
  rw [(irreducible_X (R := ZMod 2)).coprime_iff_not_dvd, X_dvd_iff]
  unfold genPoly
  rw [coeff_add, coeff_toPoly, hp, coeff_X_pow]
  have : ¬ 0 = w := by omega
  simp [this]

theorem degree_msgPoly (l : List Bool) : (msgPoly l).degree < l.length := by
  induction l with
  | nil => simp [msgPoly]
  | cons b l ih =>
    rw [msgPoly_cons, List.length_cons]
    refine lt_of_le_of_lt (degree_add_le _ _) (max_lt ?_ (lt_trans ih (by exact_mod_cast Nat.lt_succ_self _)))
    cases b
    · simp [bit]
    · simp only [bit, if_true, one_mul, degree_X_pow]; exact_mod_cast Nat.lt_succ_self _

theorem msgPoly_inj : ∀ (l l' : List Bool), l.length = l'.length → msgPoly l = msgPoly l' → l = l'
  | [], [], _, _ => rfl
  | [], _ :: _, h, _ => by simp at h
  | _ :: _, [], h, _ => by simp at h
  | b :: l, b' :: l', h, e => by
    have hl : l.length = l'.length := by simpa using h
    rw [msgPoly_cons, msgPoly_cons, hl] at e
    have c := congrArg (fun p : F2X => p.coeff l'.length) e
    have h1 : (msgPoly l).coeff l'.length = 0 := coeff_eq_zero_of_degree_lt (hl ▸ degree_msgPoly l)
    have h2 : (msgPoly l').coeff l'.length = 0 := coeff_eq_zero_of_degree_lt (degree_msgPoly l')
    have hb : b = b' := by
      revert c
      cases b <;> cases b' <;> simp [bit, h1, h2]
    subst hb
    rw [msgPoly_inj l l' hl (add_left_cancel e)]

theorem detectL {w : Nat} (hw : 0 < w) (p c : BitVec w) (hp : p.getLsbD 0 = true) (l l' : List Bool)
    (hb : Burst w l l') : serialL p c l ≠ serialL p c l' := by
  obtain ⟨a, u, v, z, rfl, rfl, hl, hn, hne⟩ := hb
  intro e
  obtain ⟨t, ht⟩ := serialL_congr hw p (a ++ u ++ z) c
  obtain ⟨s, hs⟩ := serialL_congr hw p (a ++ v ++ z) c
  rw [e, hs, msgPoly_append, msgPoly_append, msgPoly_append, msgPoly_append] at ht
  simp only [List.length_append, hl] at ht
  have hd : genPoly p ∣ (msgPoly u - msgPoly v) * X ^ (z.length + w) := by
    refine ⟨s - t, ?_⟩
    linear_combination -ht
  have hd2 : genPoly p ∣ msgPoly u - msgPoly v := (IsCoprime.pow_right (coprime_X p hw hp)).dvd_of_dvd_mul_right hd
  have hdeg : (msgPoly u - msgPoly v).degree < (genPoly p).degree := by
    rw [degree_gen]
    refine lt_of_le_of_lt (degree_sub_le _ _) (max_lt ?_ ?_)
    · exact lt_of_lt_of_le (degree_msgPoly u) (by exact_mod_cast hn)
    · exact lt_of_lt_of_le (degree_msgPoly v) (by rw [← hl]; exact_mod_cast hn)
  exact hne (msgPoly_inj u v hl (sub_eq_zero.1 (eq_zero_of_dvd_of_degree_lt hd2 hdeg)))

theorem detectR {w : Nat} (hw : 0 < w) (p c : BitVec w) (hp : p.msb = true) (l l' : List Bool)
    (hb : Burst w l l') : serialR p c l ≠ serialR p c l' := by
  intro e
  have := congrArg BitVec.reverse e
  rw [serialR_reverse hw, serialR_reverse hw] at this
  exact detectL hw p.reverse c.reverse (by rw [BitVec.getLsbD_reverse]; exact hp) l l' hb this

/-! ### Odd numbers of flipped bits -/

theorem msgPoly_eval (l : List Bool) : (msgPoly l).eval 1 = ((l.count true : Nat) : ZMod 2) := by
  induction l with
  | nil => simp [msgPoly]
  | cons b l ih =>
    rw [msgPoly_cons, eval_add, ih]
    cases b <;> simp [bit, add_comm]

/-- Number of positions in which two bit strings of equal length differ. -/
def hamming : List Bool → List Bool → Nat
  | a :: l, b :: l' => (if a = b then 0 else 1) + hamming l l'
  | _, _ => 0

theorem hamming_eval : ∀ (l l' : List Bool), l.length = l'.length →
    (msgPoly l + msgPoly l').eval 1 = ((hamming l l' : Nat) : ZMod 2)
  | [], [], _ => by simp [msgPoly, hamming]
  | [], _ :: _, h => by simp at h
  | _ :: _, [], h => by simp at h
  | b :: l, b' :: l', h => by
    have hl : l.length = l'.length := by simpa using h
    have ih := hamming_eval l l' hl
    rw [eval_add] at ih
    rw [msgPoly_cons, msgPoly_cons, eval_add, eval_add, eval_add, hamming, Nat.cast_add, ← ih]
    have two : (1 : ZMod 2) + 1 = 0 := by decide
    cases b <;> cases b' <;> simp [bit]
    · ring
    · ring
    · linear_combination two

theorem oddL {w : Nat} (hw : 0 < w) (p c : BitVec w) (hp : (genPoly p).eval 1 = 0) (l l' : List Bool)
    (hl : l.length = l'.length) (ho : hamming l l' % 2 = 1) : serialL p c l ≠ serialL p c l' := by
  intro e
  obtain ⟨t, ht⟩ := serialL_congr hw p l c
  obtain ⟨s, hs⟩ := serialL_congr hw p l' c
  have h1 := congrArg (eval 1) ht
  have h2 := congrArg (eval 1) hs
  rw [e] at h1
  rw [h1] at h2
  simp only [eval_add, eval_mul, eval_pow, eval_X, one_pow, mul_one, hp, mul_zero, add_zero] at h2
  have h3 := hamming_eval l l' hl
  rw [eval_add] at h3
  have h4 : (msgPoly l).eval 1 = (msgPoly l').eval 1 := by linear_combination h2
  rw [h4] at h3
  have two : ∀ x : ZMod 2, x + x = 0 := by decide
  rw [two] at h3
  have : ((hamming l l' : Nat) : ZMod 2) = 1 := by
    rw [← Nat.mod_add_div (hamming l l') 2, ho]
    push_cast
    rw [show (2 : ZMod 2) = 0 from rfl]; ring
  rw [this] at h3
  exact absurd h3 (by decide)

end Fio.Crc
