import Verif.Rand.Model
/-
C11: which seeds leave a component of the Tausworthe generators dead.
C12: rand_between stays between its bounds.
-/
namespace Fio.Rand

/-! ## C11 -/

/-- Bits of one Tausworthe step.  `m` is the number of low bits the mask clears. -/
theorem taus_bit {w : Nat} (s c : BitVec w) (a b d m : Nat)
    (hc : ∀ j < w, c.getLsbD j = decide (m ≤ j)) {j : Nat} (hj : j < w) :
    (taus s a b c d).getLsbD j =
      ((decide (d + m ≤ j) && s.getLsbD (j - d)) ^^
        (decide (j + b < w) && ((decide (a ≤ j + b) && s.getLsbD (j + b - a)) ^^ s.getLsbD (j + b)))) := by
  unfold taus
  rw [BitVec.getLsbD_xor, BitVec.getLsbD_shiftLeft, BitVec.getLsbD_and, BitVec.getLsbD_ushiftRight,
    BitVec.getLsbD_xor, BitVec.getLsbD_shiftLeft, hc (j - d) (by omega), Nat.add_comm b j]
  congr 1
  · by_cases h1 : d + m ≤ j
    · have h2 : ¬ j < d := by omega
      have h3 : m ≤ j - d := by omega
      simp [h1, h2, h3, hj]
    · by_cases h2 : j < d
      · simp [h1, h2]
      · have h3 : ¬ m ≤ j - d := by omega
        simp [h1, h3]
  · by_cases h1 : j + b < w
    · by_cases h2 : a ≤ j + b
      · simp [h1, h2, Nat.not_lt.2 h2]
      · simp [h1, h2, Nat.lt_of_not_le h2]
    · rw [BitVec.getLsbD_of_ge s (j + b) (by omega)]
      simp [h1]

/-- Only the low `m` bits of `s` are set. -/
theorem lt_iff_bits {w : Nat} (s : BitVec w) (m : Nat) :
    s.toNat < 2 ^ m ↔ ∀ j, m ≤ j → j < w → s.getLsbD j = false := by
  constructor
  · intro h j hj _
    rw [BitVec.getLsbD]
    exact Nat.testBit_lt_two_pow (Nat.lt_of_lt_of_le h (Nat.pow_le_pow_right (by omega) hj))
  · intro h
    apply Nat.lt_pow_two_of_testBit
    intro j hj
    rcases Nat.lt_or_ge j w with hw | hw
    · exact h j hj hw
    · exact BitVec.getLsbD_of_ge s j hw

/-- The step maps the low `m`-bit values to zero. -/
theorem taus_dead {w : Nat} (s c : BitVec w) (a b d m : Nat)
    (hc : ∀ j < w, c.getLsbD j = decide (m ≤ j)) (hab : a + m ≤ b)
    (hs : s.toNat < 2 ^ m) : taus s a b c d = 0#w := by
  rw [lt_iff_bits] at hs
  have hs' : ∀ j, m ≤ j → s.getLsbD j = false := by
    intro j hj
    rcases Nat.lt_or_ge j w with h | h
    · exact hs j hj h
    · exact BitVec.getLsbD_of_ge s j h
  apply BitVec.eq_of_getLsbD_eq
  intro j hj
  rw [taus_bit s c a b d m hc hj]
  rw [hs' (j + b) (by omega), hs' (j + b - a) (by omega)]
  by_cases h1 : d + m ≤ j
  · rw [hs' (j - d) (by omega)]; simp
  · simp [h1]

/-- The step keeps every other value out of them: on the upper `w - m` bits it is injective. -/
theorem taus_alive {w : Nat} (s c : BitVec w) (a b d m : Nat)
    (hc : ∀ j < w, c.getLsbD j = decide (m ≤ j)) (hw : w = b + d + m) (ha : 0 < a)
    (had : a + d + m ≤ w) (hs : 2 ^ m ≤ s.toNat) : 2 ^ m ≤ (taus s a b c d).toNat := by
  apply Nat.le_of_not_lt
  intro hlt
  have hz := (lt_iff_bits _ m).1 hlt
  have : s.toNat < 2 ^ m := by
    rw [lt_iff_bits]
    intro i
    induction i using Nat.strongRecOn with
    | _ i ih =>
      intro hmi hiw
      rcases Nat.lt_or_ge i (w - d) with h | h
      · -- bit i is bit i + d of the result
        have h1 := hz (i + d) (by omega) (by omega)
        rw [taus_bit s c a b d m hc (by omega)] at h1
        rw [Nat.add_sub_cancel] at h1
        simpa [show d + m ≤ i + d by omega, show ¬ i + d + b < w by omega] using h1
      · have h1 := hz (i - b) (by omega) (by omega)
        rw [taus_bit s c a b d m hc (by omega), Nat.sub_add_cancel (by omega)] at h1
        have h2 := ih (i - a) (by omega) (by omega) (by omega)
        simpa [show ¬ d + m ≤ i - b by omega, hiw, h2] using h1
  omega

/-- Components of the generators with the number of low bits each one ignores. -/
inductive Comp32 where | c1 | c2 | c3
inductive Comp64 where | c1 | c2 | c3 | c4 | c5

def Taus88.get (t : Taus88) : Comp32 → BitVec 32
  | .c1 => t.s1 | .c2 => t.s2 | .c3 => t.s3

def Taus258.get (t : Taus258) : Comp64 → BitVec 64
  | .c1 => t.s1 | .c2 => t.s2 | .c3 => t.s3 | .c4 => t.s4 | .c5 => t.s5

/-- The smallest value a component must have to survive. -/
def min32 : Comp32 → Nat
  | .c1 => 2 | .c2 => 8 | .c3 => 16

def min64 : Comp64 → Nat
  | .c1 => 2 | .c2 => 512 | .c3 => 4096 | .c4 => 131072 | .c5 => 8388608

theorem step32_dead (t : Taus88) (c : Comp32) (h : (t.get c).toNat < min32 c) :
    ((step32 t).get c) = 0#32 := by
  cases c <;> simp only [Taus88.get, step32, min32] at *
  · exact taus_dead _ _ _ _ _ 1 (by decide) (by omega) h
  · exact taus_dead _ _ _ _ _ 3 (by decide) (by omega) h
  · exact taus_dead _ _ _ _ _ 4 (by decide) (by omega) h

theorem step32_alive (t : Taus88) (c : Comp32) (h : min32 c ≤ (t.get c).toNat) :
    min32 c ≤ ((step32 t).get c).toNat := by
  cases c <;> simp only [Taus88.get, step32, min32] at *
  · exact taus_alive _ _ _ _ _ 1 (by decide) (by omega) (by omega) (by omega) h
  · exact taus_alive _ _ _ _ _ 3 (by decide) (by omega) (by omega) (by omega) h
  · exact taus_alive _ _ _ _ _ 4 (by decide) (by omega) (by omega) (by omega) h

theorem step64_dead (t : Taus258) (c : Comp64) (h : (t.get c).toNat < min64 c) :
    ((step64 t).get c) = 0#64 := by
  cases c <;> simp only [Taus258.get, step64, min64] at *
  · exact taus_dead _ _ _ _ _ 1 (by decide) (by omega) h
  · exact taus_dead _ _ _ _ _ 9 (by decide) (by omega) h
  · exact taus_dead _ _ _ _ _ 12 (by decide) (by omega) h
  · exact taus_dead _ _ _ _ _ 17 (by decide) (by omega) h
  · exact taus_dead _ _ _ _ _ 23 (by decide) (by omega) h

theorem step64_alive (t : Taus258) (c : Comp64) (h : min64 c ≤ (t.get c).toNat) :
    min64 c ≤ ((step64 t).get c).toNat := by
  cases c <;> simp only [Taus258.get, step64, min64] at *
  · exact taus_alive _ _ _ _ _ 1 (by decide) (by omega) (by omega) (by omega) h
  · exact taus_alive _ _ _ _ _ 9 (by decide) (by omega) (by omega) (by omega) h
  · exact taus_alive _ _ _ _ _ 12 (by decide) (by omega) (by omega) (by omega) h
  · exact taus_alive _ _ _ _ _ 17 (by decide) (by omega) (by omega) (by omega) h
  · exact taus_alive _ _ _ _ _ 23 (by decide) (by omega) (by omega) (by omega) h

theorem min32_pos (c : Comp32) : 0 < min32 c := by cases c <;> decide
theorem min64_pos (c : Comp64) : 0 < min64 c := by cases c <;> decide

theorem crank32_dead (c : Comp32) : ∀ (n : Nat) (t : Taus88), (t.get c).toNat < min32 c →
    ((crank32 (n + 1) t).get c) = 0#32
  | 0, t, h => step32_dead t c h
  | n + 1, t, h => crank32_dead c n (step32 t) (by rw [step32_dead t c h]; simpa using min32_pos c)

theorem crank32_alive (c : Comp32) : ∀ (n : Nat) (t : Taus88), min32 c ≤ (t.get c).toNat →
    min32 c ≤ ((crank32 n t).get c).toNat
  | 0, _, h => h
  | n + 1, t, h => crank32_alive c n (step32 t) (step32_alive t c h)

theorem crank64_dead (c : Comp64) : ∀ (n : Nat) (t : Taus258), (t.get c).toNat < min64 c →
    ((crank64 (n + 1) t).get c) = 0#64
  | 0, t, h => step64_dead t c h
  | n + 1, t, h => crank64_dead c n (step64 t) (by rw [step64_dead t c h]; simpa using min64_pos c)

theorem crank64_alive (c : Comp64) : ∀ (n : Nat) (t : Taus258), min64 c ≤ (t.get c).toNat →
    min64 c ≤ ((crank64 n t).get c).toNat
  | 0, _, h => h
  | n + 1, t, h => crank64_alive c n (step64 t) (step64_alive t c h)

theorem crank32_add (n m : Nat) (t : Taus88) : crank32 n (crank32 m t) = crank32 (m + n) t := by
  induction m generalizing t with
  | zero => simp [crank32]
  | succ m ih => rw [show m + 1 + n = (m + n) + 1 by omega]; exact ih _

theorem crank64_add (n m : Nat) (t : Taus258) : crank64 n (crank64 m t) = crank64 (m + n) t := by
  induction m generalizing t with
  | zero => simp [crank64]
  | succ m ih => rw [show m + 1 + n = (m + n) + 1 by omega]; exact ih _

/-- **C11, exact form.**  For every seed, after any number of draws following seeding, a component
is either never zero (indeed never below its threshold), or it is zero after every draw; which of
the two happens is decided by the value it was seeded with. -/
theorem C11_components_partial :
    (∀ (seed : BitVec 32) (c : Comp32),
      (min32 c ≤ ((seed32 seed).get c).toNat →
        ∀ n, min32 c ≤ ((crank32 n (initRand32 seed)).get c).toNat ∧
          (crank32 n (initRand32 seed)).get c ≠ 0#32) ∧
      (((seed32 seed).get c).toNat < min32 c →
        ∀ n, (crank32 n (initRand32 seed)).get c = 0#32)) ∧
    (∀ (seed : BitVec 64) (c : Comp64),
      (min64 c ≤ ((seed64 seed).get c).toNat →
        ∀ n, min64 c ≤ ((crank64 n (initRand64 seed)).get c).toNat ∧
          (crank64 n (initRand64 seed)).get c ≠ 0#64) ∧
      (((seed64 seed).get c).toNat < min64 c →
        ∀ n, (crank64 n (initRand64 seed)).get c = 0#64)) := by
  refine ⟨fun seed c => ⟨fun h n => ?_, fun h n => ?_⟩, fun seed c => ⟨fun h n => ?_, fun h n => ?_⟩⟩
  · have := crank32_alive c (6 + n) _ h
    rw [← crank32_add] at this
    refine ⟨this, fun h0 => ?_⟩
    have hp := min32_pos c
    unfold initRand32 at h0
    rw [h0] at this
    simp at this; omega
  · have := crank32_dead c (5 + n) _ h
    rw [show 5 + n + 1 = 6 + n by omega, ← crank32_add] at this
    exact this
  · have := crank64_alive c (6 + n) _ h
    rw [← crank64_add] at this
    refine ⟨this, fun h0 => ?_⟩
    have hp := min64_pos c
    unfold initRand64 at h0
    rw [h0] at this
    simp at this; omega
  · have := crank64_dead c (5 + n) _ h
    rw [show 5 + n + 1 = 6 + n by omega, ← crank64_add] at this
    exact this

theorem seedFix_lt_iff {w : Nat} (x m : BitVec w) (k : Nat) (h2m : 2 * m.toNat < 2 ^ w)
    (hk1 : m.toNat < k) (hk2 : k ≤ m.toNat + 1) :
    (seedFix x m).toNat < k ↔ x.toNat = 0 ∨ x.toNat = m.toNat := by
  unfold seedFix
  split
  · rename_i h
    have h' : x.toNat < m.toNat := h
    rw [BitVec.toNat_add, Nat.mod_eq_of_lt (by omega)]
    omega
  · rename_i h
    have h' : ¬ x.toNat < m.toNat := h
    omega

/-- **C11, the 32-bit generator:** a component dies exactly if its linear congruential value was 0
or equal to the minimum passed to `__seed`; for the first component these are two seeds of 2^32. -/
theorem C11_dead_seeds32 (seed : BitVec 32) :
    ((∃ n, (crank32 n (initRand32 seed)).s1 = 0#32) ↔ seed = 3660657#32 ∨ seed = 3660656#32) ∧
    ((∃ n, (crank32 n (initRand32 seed)).s2 = 0#32) ↔
      lcg (seed32 seed).s1 seed = 0#32 ∨ lcg (seed32 seed).s1 seed = 7#32) ∧
    ((∃ n, (crank32 n (initRand32 seed)).s3 = 0#32) ↔
      lcg (seed32 seed).s2 seed = 0#32 ∨ lcg (seed32 seed).s2 seed = 15#32) := by
  have key : ∀ c : Comp32, (∃ n, (crank32 n (initRand32 seed)).get c = 0#32) ↔
      ((seed32 seed).get c).toNat < min32 c := by
    intro c
    have h := C11_components_partial.1 seed c
    constructor
    · intro ⟨n, hn⟩
      rcases Nat.lt_or_ge ((seed32 seed).get c).toNat (min32 c) with hl | hg
      · exact hl
      · exact absurd hn (h.1 hg n).2
    · intro hl; exact ⟨0, h.2 hl 0⟩
  have nat_eq : ∀ (x : BitVec 32) (k : Nat), k < 2 ^ 32 → (x.toNat = k ↔ x = BitVec.ofNat 32 k) := by
    intro x k hk
    constructor
    · intro h; apply BitVec.eq_of_toNat_eq; rw [h, BitVec.toNat_ofNat, Nat.mod_eq_of_lt hk]
    · intro h; rw [h]; simpa using hk
  refine ⟨(key .c1).trans ?_, (key .c2).trans ?_, (key .c3).trans ?_⟩
  · show (seedFix (lcg (lcgStart 32) seed) 1#32).toNat < 2 ↔ _
    rw [seedFix_lt_iff _ _ _ (by decide) (by decide) (by decide)]
    rw [nat_eq _ 0 (by omega)]
    have : (lcg (lcgStart 32) seed).toNat = (1#32).toNat ↔ lcg (lcgStart 32) seed = 1#32 := nat_eq _ 1 (by omega)
    rw [this]
    have hx : ∀ y : BitVec 32, lcg (lcgStart 32) seed = y ↔ seed = 3660657#32 ^^^ y := by
      intro y
      have h0 : lcgStart 32 * 69069#32 = 3660657#32 := by decide
      unfold lcg
      rw [h0]
      constructor
      · intro h; rw [← h, ← BitVec.xor_assoc, BitVec.xor_self, BitVec.zero_xor]
      · intro h; rw [h, ← BitVec.xor_assoc, BitVec.xor_self, BitVec.zero_xor]
    rw [hx, hx]
    rfl
  · show (seedFix (lcg (seed32 seed).s1 seed) 7#32).toNat < 8 ↔ _
    rw [seedFix_lt_iff _ _ _ (by decide) (by decide) (by decide), nat_eq _ 0 (by omega)]
    exact or_congr Iff.rfl (nat_eq _ 7 (by omega))
  · show (seedFix (lcg (seed32 seed).s2 seed) 15#32).toNat < 16 ↔ _
    rw [seedFix_lt_iff _ _ _ (by decide) (by decide) (by decide), nat_eq _ 0 (by omega)]
    exact or_congr Iff.rfl (nat_eq _ 15 (by omega))

/-- **C11 fails as stated:** there are seeds, 32-bit and 64-bit, for which the first component is
zero forever. -/
theorem C11_counterexample :
    (∀ n, (crank32 n (initRand32 3660657#32)).s1 = 0#32) ∧
    (∀ n, (crank64 n (initRand64 366069360657#64)).s1 = 0#64) := by
  refine ⟨fun n => ?_, fun n => ?_⟩
  · exact (C11_components_partial.1 3660657#32 .c1).2 (by decide +kernel) n
  · exact (C11_components_partial.2 366069360657#64 .c1).2 (by decide +kernel) n

/-- init_rand (seed 1) and the default seed of fio (FIO_RANDSEED, 0xb1899bed) are safe: no component
ever becomes zero, with either generator. -/
theorem C11_default_seeds (n : Nat) :
    (∀ c : Comp32, (crank32 n (initRand32 1#32)).get c ≠ 0#32 ∧
      (crank32 n (initRand32 0xb1899bed#32)).get c ≠ 0#32) ∧
    (∀ c : Comp64, (crank64 n (initRand64 1#64)).get c ≠ 0#64 ∧
      (crank64 n (initRand64 0xb1899bed#64)).get c ≠ 0#64) := by
  refine ⟨fun c => ⟨?_, ?_⟩, fun c => ⟨?_, ?_⟩⟩
  · exact ((C11_components_partial.1 _ c).1 (by cases c <;> decide +kernel) n).2
  · exact ((C11_components_partial.1 _ c).1 (by cases c <;> decide +kernel) n).2
  · exact ((C11_components_partial.2 _ c).1 (by cases c <;> decide +kernel) n).2
  · exact ((C11_components_partial.2 _ c).1 (by cases c <;> decide +kernel) n).2

/-! ## C12 -/

/-- **C12, 32-bit generator.**  If the range, reduced to 32 bits as the code does, is below 2^31 - or
is 2^32 - 1, where `end++` wraps to 0 - the result is between the bounds. -/
theorem C12_between32_partial (t : Taus88) (start end_ : Nat) (hse : start ≤ end_) (he : end_ < 2 ^ 64)
    (hr : (end_ - start) % 2 ^ 32 < 2 ^ 31 ∨ (end_ - start) % 2 ^ 32 = 2 ^ 32 - 1) :
    ∃ v, (randBetween (.st32 t) start end_).1 = some v ∧ start ≤ v ∧ v ≤ end_ := by
  have hrange : (end_ + (2 ^ 64 - start)) % 2 ^ 64 = end_ - start := by omega
  unfold randBetween rand32Upto
  simp only [hrange]
  generalize hr' : (rand32 t).1.toNat = r
  have hr32 : r < 2 ^ 32 := hr' ▸ (rand32 t).1.isLt
  have hmod : (end_ - start) % 2 ^ 32 ≤ end_ - start := Nat.mod_le _ _
  generalize (end_ - start) % 2 ^ 32 = n at hr hmod
  rcases hr with hn | hn
  · have h1 : (n + 1) % 2 ^ 32 = n + 1 := by omega
    have h2 := scale32_lt (n := n + 1) (r := r) (by omega) (by omega) hr32
    rw [h1]
    unfold scaleInt32
    simp only
    rw [if_pos (by omega)]
    refine ⟨_, rfl, ?_, ?_⟩
    · dsimp only; rw [Nat.mod_eq_of_lt (by omega)]; omega
    · dsimp only; rw [Nat.mod_eq_of_lt (by omega)]; omega
  · have h1 : (n + 1) % 2 ^ 32 = 0 := by omega
    rw [h1]
    have h0 : scaleInt32 0 r = some 0 := by
      unfold scaleInt32
      rw [Nat.zero_mul, round53_small (by omega)]; rfl
    rw [h0]
    exact ⟨_, rfl, by dsimp only; omega, by dsimp only; omega⟩

/-- **C12, 64-bit generator.**  If the generator's output is not one of the top 1024 64-bit values,
the result is between the bounds, whatever the range. -/
theorem C12_between64_partial (t : Taus258) (start end_ : Nat) (hse : start ≤ end_) (he : end_ < 2 ^ 64)
    (hr : (rand64 t).1.toNat < 2 ^ 64 - 1024) :
    ∃ v, (randBetween (.st64 t) start end_).1 = some v ∧ start ≤ v ∧ v ≤ end_ := by
  have hrange : (end_ + (2 ^ 64 - start)) % 2 ^ 64 = end_ - start := by omega
  unfold randBetween rand64Upto
  simp only [hrange]
  by_cases hmax : end_ - start = 2 ^ 64 - 1
  · have h1 : ((end_ - start) % 2 ^ 64 + 1) % 2 ^ 64 = 0 := by omega
    have h0 : ∀ r, scaleInt64 0 r = some 0 := by
      intro r
      unfold scaleInt64
      rw [round53_small (p := 0) (by omega), Nat.zero_mul, round53_small (by omega)]; rfl
    rw [h1, h0]
    exact ⟨_, rfl, by dsimp only; omega, by dsimp only; omega⟩
  · have h1 : ((end_ - start) % 2 ^ 64 + 1) % 2 ^ 64 = end_ - start + 1 := by omega
    have h2 := scale64_lt (n := end_ - start + 1) (by omega) hr
    rw [h1]
    unfold scaleInt64
    simp only
    rw [if_pos (by omega)]
    refine ⟨_, rfl, ?_, ?_⟩
    · dsimp only; rw [Nat.mod_eq_of_lt (by omega)]; omega
    · dsimp only; rw [Nat.mod_eq_of_lt (by omega)]; omega

/-- **C12 fails for the other draws:** for a range below 2^53 every one of the top 1024 outputs of
the 64-bit generator makes rand_between return exactly `end + 1`. -/
theorem C12_top_draws (t : Taus258) (start end_ : Nat) (hse : start ≤ end_) (he : end_ + 1 < 2 ^ 64)
    (hn : end_ - start + 1 < 2 ^ 53) (hr : 2 ^ 64 - 1024 ≤ (rand64 t).1.toNat) :
    (randBetween (.st64 t) start end_).1 = some (end_ + 1) := by
  have hrange : (end_ + (2 ^ 64 - start)) % 2 ^ 64 = end_ - start := by omega
  unfold randBetween rand64Upto
  simp only [hrange]
  have h1 : ((end_ - start) % 2 ^ 64 + 1) % 2 ^ 64 = end_ - start + 1 := by omega
  rw [h1]
  unfold scaleInt64
  simp only
  rw [scale64_top hr (rand64 t).1.isLt, round53_small hn, if_pos (by omega)]
  simp only [Option.map_some, Option.some.injEq]
  omega

/-- A 64-bit generator state whose next output is 2^64 - 1. -/
def topState : Taus258 :=
  ⟨0xf6216c23d3d9fdb9#64, 0x216363698f529b4a#64, 0xea7b5bf55eb561a4#64, 0x795b929e9a9a80fd#64,
    0x94b2b8fda02f34a6#64⟩

/-- Witness of the failure: all components of the state are alive, and asking for a percentage
between 1 and 100 (as io_u.c:195 does) yields 101. -/
theorem C12_counterexample64 :
    (∀ c, min64 c ≤ (topState.get c).toNat) ∧
    (randBetween (.st64 topState) 1 100).1 = some 101 := by
  refine ⟨fun c => by cases c <;> decide +kernel, ?_⟩
  exact C12_top_draws topState 1 100 (by omega) (by omega) (by omega) (by decide +kernel)

/-- With the 32-bit generator a range of 2^32 - 1 values makes the conversion to `int` overflow,
already on the first draw after init_rand. -/
theorem C12_counterexample32 :
    (randBetween (.st32 (initRand32 1#32)) 0 (2 ^ 32 - 2)).1 = none := by
  decide +kernel

/-- The hypotheses of the positive statements are met by ordinary cases. -/
example : (randBetween (.st64 (initRand64 1#64)) 1 100).1 = some 61 ∧
    (rand64 (initRand64 1#64)).1.toNat < 2 ^ 64 - 1024 := by decide +kernel
example : (randBetween (.st32 (initRand32 1#32)) 1 100).1 = some 62 ∧
    (100 - 1) % 2 ^ 32 < 2 ^ 31 := by decide +kernel

end Fio.Rand
