import Verif.Buf.Model
namespace Fio.Buf

/-- `x & ~m` takes the bits of `m` away: at most `m` is lost. -/
theorem andNot {k x m : Nat} (hx : x < 2 ^ k) (hm : m < 2 ^ k) :
    (x &&& (2 ^ k - 1 - m)) + (x &&& m) = x := by
  have h1 : (BitVec.ofNat k x &&& ~~~ BitVec.ofNat k m) + (BitVec.ofNat k x &&& BitVec.ofNat k m) =
      BitVec.ofNat k x := by
    rw [BitVec.add_eq_or_of_and_eq_zero]
    · ext i hi
      simp
      cases (BitVec.ofNat k x)[i] <;> cases (BitVec.ofNat k m)[i] <;> rfl
    · ext i hi
      simp
      intros
      assumption
  have h2 := congrArg BitVec.toNat h1
  have h3 : (BitVec.ofNat k x &&& ~~~ BitVec.ofNat k m).toNat = x &&& (2 ^ k - 1 - m) := by
    rw [BitVec.toNat_and, BitVec.toNat_not, BitVec.toNat_ofNat, BitVec.toNat_ofNat,
      Nat.mod_eq_of_lt hx, Nat.mod_eq_of_lt hm]
  have h4 : (BitVec.ofNat k x &&& BitVec.ofNat k m).toNat = x &&& m := by
    rw [BitVec.toNat_and, BitVec.toNat_ofNat, BitVec.toNat_ofNat,
      Nat.mod_eq_of_lt hx, Nat.mod_eq_of_lt hm]
  have h5 : (BitVec.ofNat k x &&& ~~~ BitVec.ofNat k m).toNat ≤ x := by
    rw [h3]; exact Nat.and_le_left
  rw [BitVec.toNat_add, h3, h4, BitVec.toNat_ofNat, Nat.mod_eq_of_lt hx] at h2
  by_cases hlt : (x &&& (2 ^ k - 1 - m)) + (x &&& m) < 2 ^ k
  · rw [Nat.mod_eq_of_lt hlt] at h2; exact h2
  · exfalso
    have a1 : x &&& m ≤ x := Nat.and_le_left
    rw [h3] at h5
    rw [Nat.mod_eq_sub_mod (by omega), Nat.mod_eq_of_lt (by omega)] at h2
    omega

theorem andNot_le {k x m : Nat} (hx : x < 2 ^ k) (hm : m < 2 ^ k) :
    x - m ≤ (x &&& (2 ^ k - 1 - m)) ∧ (x &&& (2 ^ k - 1 - m)) ≤ x := by
  have h := andNot hx hm
  have h1 : x &&& m ≤ m := Nat.and_le_right
  omega

/-- Clearing the low bits below a power of two. -/
theorem andNot_pow {k j x : Nat} (hx : x < 2 ^ k) (hj : j ≤ k) :
    (x &&& (2 ^ k - 1 - (2 ^ j - 1))) = 2 ^ j * (x / 2 ^ j) := by
  have hp := Nat.pow_le_pow_right (n := 2) (by omega) hj
  have hp1 := Nat.two_pow_pos j
  have h := andNot hx (m := 2 ^ j - 1) (by omega)
  rw [Nat.and_two_pow_sub_one_eq_mod] at h
  have := Nat.div_add_mod x (2 ^ j)
  omega

/-- `PTR_ALIGN` with a mask `2^j - 1`, when nothing wraps. -/
theorem ptrAlign_eq {ptr j : Nat} (hj : j ≤ 64) (h : ptr + (2 ^ j - 1) < 2 ^ 64) :
    ptrAlign ptr (2 ^ j - 1) = 2 ^ j * ((ptr + (2 ^ j - 1)) / 2 ^ j) := by
  unfold ptrAlign
  rw [Nat.mod_eq_of_lt h, andNot_pow h hj]

theorem ptrAlign_spec {ptr j : Nat} (hj : j ≤ 64) (h : ptr + (2 ^ j - 1) < 2 ^ 64) :
    ptr ≤ ptrAlign ptr (2 ^ j - 1) ∧ ptrAlign ptr (2 ^ j - 1) ≤ ptr + (2 ^ j - 1) ∧
      2 ^ j ∣ ptrAlign ptr (2 ^ j - 1) := by
  rw [ptrAlign_eq hj h]
  have hp := Nat.two_pow_pos j
  have h1 := Nat.div_add_mod (ptr + (2 ^ j - 1)) (2 ^ j)
  have h2 := Nat.mod_lt (ptr + (2 ^ j - 1)) hp
  exact ⟨by omega, by omega, Nat.dvd_mul_right _ _⟩

theorem buf_eq {c : Cfg} {base : Nat} : ∀ {i : Nat}, c.first base + i * c.stride < 2 ^ 64 →
    c.buf base i = c.first base + i * c.stride
  | 0, _ => by simp [Cfg.buf]
  | i + 1, h => by
    rw [Nat.add_mul] at h ⊢
    rw [Cfg.buf, buf_eq (i := i) (by omega), Nat.mod_eq_of_lt (by omega)]
    omega

end Fio.Buf
