import Verif.Common.Mem
/-
Little endian byte encoding of numbers.
-/
namespace Fio

/-- The low `n` bytes of `v`, least significant first. -/
def le : Nat → Nat → List Byte
  | 0, _ => []
  | n + 1, v => BitVec.ofNat 8 v :: le n (v / 256)

/-- The number stored in the bytes. -/
def fromLe : List Byte → Nat
  | [] => 0
  | b :: l => b.toNat + 256 * fromLe l

@[simp] theorem le_length (n v : Nat) : (le n v).length = n := by
  induction n generalizing v with
  | zero => rfl
  | succ n ih => simp [le, ih]

theorem fromLe_le (n v : Nat) : fromLe (le n v) = v % 256 ^ n := by
  induction n generalizing v with
  | zero => simp [le, fromLe, Nat.mod_one]
  | succ n ih =>
    rw [le, fromLe, ih, BitVec.toNat_ofNat, show 256 ^ (n + 1) = 256 * 256 ^ n by rw [Nat.pow_succ, Nat.mul_comm], Nat.mod_mul]

theorem fromLe_lt (l : List Byte) : fromLe l < 256 ^ l.length := by
  induction l with
  | nil => simp [fromLe]
  | cons b l ih =>
    rw [fromLe, List.length_cons, Nat.pow_succ]
    have := b.isLt
    omega

theorem fromLe_inj : ∀ (l l' : List Byte), l.length = l'.length → fromLe l = fromLe l' → l = l'
  | [], [], _, _ => rfl
  | [], _ :: _, h, _ => by simp at h
  | _ :: _, [], h, _ => by simp at h
  | b :: l, b' :: l', h, e => by
    rw [fromLe, fromLe] at e
    have h1 := b.isLt
    have h2 := b'.isLt
    have hb : b = b' := BitVec.eq_of_toNat_eq (by omega)
    subst hb
    rw [fromLe_inj l l' (by simpa using h) (by omega)]

theorem le_fromLe (l : List Byte) : le l.length (fromLe l) = l := by
  apply fromLe_inj
  · simp
  · rw [fromLe_le, Nat.mod_eq_of_lt (fromLe_lt l)]

theorem le_inj {n v w : Nat} (hv : v < 256 ^ n) (hw : w < 256 ^ n) (h : le n v = le n w) : v = w := by
  have := congrArg fromLe h
  rwa [fromLe_le, fromLe_le, Nat.mod_eq_of_lt hv, Nat.mod_eq_of_lt hw] at this

end Fio
