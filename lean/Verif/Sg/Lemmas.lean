import Verif.Sg.Spec
/-!
# Lemmas on commands of the sg engine
-/

namespace Fio.Sg

open Spec

@[simp] theorem be_len (n v : Nat) : (be n v).length = n := by
  induction n generalizing v with
  | zero => rfl
  | succ n ih => simp [be, ih]

theorem val_append (a b : List Nat) : val (a ++ b) = val a * 256 ^ b.length + val b := by
  induction a with
  | nil => simp [val]
  | cons x a ih => simp only [List.cons_append, val, ih, List.length_append, Nat.pow_add, Nat.add_mul, Nat.mul_assoc]; omega

theorem val_be (n v : Nat) : val (be n v) = v % 256 ^ n := by
  induction n generalizing v with
  | zero => simp [be, val, Nat.mod_one]
  | succ n ih =>
    rw [be, val_append, ih]
    have : v % 256 ^ (n + 1) = v % 256 + 256 * (v / 256 % 256 ^ n) := by
      rw [Nat.pow_succ, Nat.mul_comm (256 ^ n) 256, Nat.mod_mul]
    rw [this]
    simp [val]
    omega

theorem val_be_of_lt (n v : Nat) (h : v < 256 ^ n) : val (be n v) = v := by rw [val_be, Nat.mod_eq_of_lt h]

theorem len2 (x : List Nat) (h : x.length = 2) : ∃ a b, x = [a, b] := by
  match x, h with
  | [a, b], _ => exact ⟨a, b, rfl⟩

theorem len4 (x : List Nat) (h : x.length = 4) : ∃ a b c d, x = [a, b, c, d] := by
  match x, h with
  | [a, b, c, d], _ => exact ⟨a, b, c, d, rfl⟩

theorem len8 (x : List Nat) (h : x.length = 8) : ∃ a b c d e f g i, x = [a, b, c, d, e, f, g, i] := by
  match x, h with
  | [a, b, c, d, e, f, g, i], _ => exact ⟨a, b, c, d, e, f, g, i, rfl⟩

/-- A command of ten bytes. -/
theorem short_slices (p b : Nat) (x y : List Nat) (hx : x.length = 4) (hy : y.length = 2) :
    let c := put (put (put (put zero16 0 [p]) 1 [b]) 2 x) 7 y
    slice c 0 1 = [p] ∧ slice c 1 1 = [b] ∧ slice c 2 4 = x ∧ slice c 7 2 = y := by
  obtain ⟨a1, a2, a3, a4, rfl⟩ := len4 x hx
  obtain ⟨b1, b2, rfl⟩ := len2 y hy
  simp [put, zero16, slice, List.replicate]

/-- A command of sixteen. -/
theorem long_slices (p b : Nat) (x y : List Nat) (hx : x.length = 8) (hy : y.length = 4) :
    let c := put (put (put (put zero16 0 [p]) 1 [b]) 2 x) 10 y
    slice c 0 1 = [p] ∧ slice c 1 1 = [b] ∧ slice c 2 8 = x ∧ slice c 10 4 = y := by
  obtain ⟨a1, a2, a3, a4, a5, a6, a7, a8, rfl⟩ := len8 x hx
  obtain ⟨b1, b2, b3, b4, rfl⟩ := len4 y hy
  simp [put, zero16, slice, List.replicate]

theorem stream_slices (p b : Nat) (x y z : List Nat) (hx : x.length = 8) (hy : y.length = 2) (hz : z.length = 2) :
    let c := put (put (put (put (put zero16 0 [p]) 1 [b]) 2 x) 10 y) 12 z
    slice c 0 1 = [p] ∧ slice c 1 1 = [b] ∧ slice c 2 8 = x ∧ slice c 10 2 = y ∧ slice c 12 2 = z := by
  obtain ⟨a1, a2, a3, a4, a5, a6, a7, a8, rfl⟩ := len8 x hx
  obtain ⟨b1, b2, rfl⟩ := len2 y hy
  obtain ⟨c1, c2, rfl⟩ := len2 z hz
  simp [put, zero16, slice, List.replicate]

theorem val_one (a : Nat) : val [a] = a := by simp [val]

/-- Without options byte 1 is zero. -/
theorem op_zero (lba a b : Nat) : op lba a b = put (put zero16 0 [if lba < max10 then a else b]) 1 [0] := by
  simp [op, put, zero16, List.replicate]

/-! ## Bytes in place -/

theorem put_len (m s : List Nat) (i : Nat) (h : i + s.length ≤ m.length) : (put m i s).length = m.length := by
  simp [put]
  omega

theorem put_get (m s : List Nat) (i k : Nat) (h : i + s.length ≤ m.length) :
    (put m i s)[k]? = if k < i then m[k]? else if k < i + s.length then s[k - i]? else m[k]? := by
  unfold put
  by_cases h1 : k < i
  · rw [if_pos h1, List.append_assoc, List.getElem?_append_left (by simp; omega), List.getElem?_take_of_lt h1]
  · rw [if_neg h1]
    by_cases h2 : k < i + s.length
    · rw [if_pos h2, List.append_assoc, List.getElem?_append_right (by simp; omega), List.getElem?_append_left (by simp; omega)]
      congr 1
      simp
      omega
    · rw [if_neg h2, List.getElem?_append_right (by simp; omega), List.getElem?_drop]
      congr 1
      simp
      omega

theorem slice_get (m : List Nat) (j n k : Nat) : (slice m j n)[k]? = if k < n then m[j + k]? else none := by
  unfold slice
  by_cases h : k < n
  · rw [if_pos h, List.getElem?_take_of_lt h, List.getElem?_drop]
  · rw [if_neg h, List.getElem?_eq_none]
    simp
    omega

theorem slice_put_same (m s : List Nat) (i : Nat) (h : i + s.length ≤ m.length) : slice (put m i s) i s.length = s := by
  apply List.ext_getElem?
  intro k
  rw [slice_get, put_get m s i _ h]
  by_cases hk : k < s.length
  · rw [if_pos hk, if_neg (by omega), if_pos (by omega)]
    congr 1
    omega
  · rw [if_neg hk, List.getElem?_eq_none (by omega)]

theorem slice_put_other (m s : List Nat) (i j n : Nat) (h : i + s.length ≤ m.length) (hd : j + n ≤ i ∨ i + s.length ≤ j) :
    slice (put m i s) j n = slice m j n := by
  apply List.ext_getElem?
  intro k
  rw [slice_get, slice_get]
  by_cases hk : k < n
  · rw [if_pos hk, if_pos hk, put_get m s i _ h]
    rcases hd with hd | hd
    · rw [if_pos (by omega)]
    · rw [if_neg (by omega), if_neg (by omega)]
  · rw [if_neg hk, if_neg hk]

theorem slice_take (m : List Nat) (t j n : Nat) (h : j + n ≤ t) : slice (m.take t) j n = slice m j n := by
  apply List.ext_getElem?
  intro k
  rw [slice_get, slice_get]
  by_cases hk : k < n
  · rw [if_pos hk, if_pos hk, List.getElem?_take_of_lt (by omega)]
  · rw [if_neg hk, if_neg hk]

end Fio.Sg
