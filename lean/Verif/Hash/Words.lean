import Verif.Hash.Model

/-! # Words, bits and rotations -/

namespace Fio.Hash

theorem ror_eq {w : Nat} (x : BitVec w) (n : Nat) (h : n < w) : ror x n = x.rotateRight n := by
  simp [ror, BitVec.rotateRight, BitVec.rotateRightAux, Nat.mod_eq_of_lt h]

theorem rol_eq {w : Nat} (x : BitVec w) (n : Nat) (h : n < w) : rol x n = x.rotateLeft n := by
  simp [rol, BitVec.rotateLeft, BitVec.rotateLeftAux, Nat.mod_eq_of_lt h]

theorem ch_eq {w : Nat} (x y z : BitVec w) : ch x y z = Spec.ch x y z := by
  ext i hi
  simp only [ch, Spec.ch, BitVec.getElem_xor, BitVec.getElem_and, BitVec.getElem_not]
  cases x[i] <;> cases y[i] <;> cases z[i] <;> rfl

theorem maj_eq {w : Nat} (x y z : BitVec w) : maj x y z = Spec.maj x y z := by
  ext i hi
  simp only [maj, Spec.maj, BitVec.getElem_xor, BitVec.getElem_and, BitVec.getElem_or]
  cases x[i] <;> cases y[i] <;> cases z[i] <;> rfl

/-- Four bytes of a list. -/
theorem slice4 (b : List Byte) (i : Nat) (h : 4 * i + 4 ≤ b.length) :
    Spec.slice 4 i b = [b.getD (4 * i) 0, b.getD (4 * i + 1) 0, b.getD (4 * i + 2) 0, b.getD (4 * i + 3) 0] := by
  apply List.ext_getElem
  · simp [Spec.slice]; omega
  · intro j h1 h2
    simp only [List.length_cons, List.length_nil] at h2
    simp only [Spec.slice, List.getElem_take, List.getElem_drop]
    match j, h2 with
    | 0, _ => simp [List.getD_eq_getElem?_getD, List.getElem?_eq_getElem (show 4 * i < b.length by omega)]
    | 1, _ => simp [List.getD_eq_getElem?_getD, List.getElem?_eq_getElem (show 4 * i + 1 < b.length by omega)]
    | 2, _ => simp [List.getD_eq_getElem?_getD, List.getElem?_eq_getElem (show 4 * i + 2 < b.length by omega)]
    | 3, _ => simp [List.getD_eq_getElem?_getD, List.getElem?_eq_getElem (show 4 * i + 3 < b.length by omega)]

theorem append8_toNat {w : Nat} (x : BitVec w) (y : Byte) : (x ++ y).toNat = 256 * x.toNat + y.toNat := by
  rw [BitVec.toNat_append, ← Nat.shiftLeft_add_eq_or_of_lt y.isLt, Nat.shiftLeft_eq]
  omega

theorem append32_toNat (x y : BitVec 32) : (x ++ y).toNat = 4294967296 * x.toNat + y.toNat := by
  rw [BitVec.toNat_append, ← Nat.shiftLeft_add_eq_or_of_lt y.isLt, Nat.shiftLeft_eq]
  omega

theorem ld32_toNat (b : List Byte) (i : Nat) (h : 4 * i + 4 ≤ b.length) :
    (ld32 b i).toNat = Spec.leNum (Spec.slice 4 i b) := by
  rw [slice4 b i h]
  simp only [ld32, append8_toNat, Spec.leNum, List.foldr_cons, List.foldr_nil]
  omega

theorem ld32_eq (b : List Byte) (i : Nat) (h : 4 * i + 4 ≤ b.length) :
    ld32 b i = BitVec.ofNat 32 (Spec.leNum (Spec.slice 4 i b)) := by
  rw [← ld32_toNat b i h, BitVec.ofNat_toNat, BitVec.setWidth_eq]

theorem be32_append (x0 x1 x2 x3 : Byte) :
    be32 (((x3 ++ x2) ++ x1) ++ x0 : BitVec (8 + 8 + 8 + 8)) = (((x0 ++ x1) ++ x2) ++ x3 : BitVec (8 + 8 + 8 + 8)) := by
  apply BitVec.eq_of_getLsbD_eq
  intro i hi
  simp only [be32, BitVec.getLsbD_or, BitVec.getLsbD_and, BitVec.getLsbD_shiftLeft, BitVec.getLsbD_ushiftRight,
    BitVec.getLsbD_append]
  match i, hi with
  | 0, _ | 1, _ | 2, _ | 3, _ | 4, _ | 5, _ | 6, _ | 7, _ | 8, _ | 9, _ | 10, _ | 11, _ | 12, _ | 13, _ | 14, _ | 15, _
  | 16, _ | 17, _ | 18, _ | 19, _ | 20, _ | 21, _ | 22, _ | 23, _ | 24, _ | 25, _ | 26, _ | 27, _ | 28, _ | 29, _
  | 30, _ | 31, _ => simp
  | n + 32, h => omega

theorem be32_ld32 (b : List Byte) (i : Nat) (h : 4 * i + 4 ≤ b.length) :
    be32 (ld32 b i) = BitVec.ofNat 32 (Spec.beNum (Spec.slice 4 i b)) := by
  rw [slice4 b i h]
  rw [ld32, be32_append]
  apply BitVec.eq_of_toNat_eq
  simp only [append8_toNat, Spec.beNum, List.foldl_cons, List.foldl_nil, BitVec.toNat_ofNat]
  have := (b.getD (4 * i) 0).isLt
  have := (b.getD (4 * i + 1) 0).isLt
  have := (b.getD (4 * i + 2) 0).isLt
  have := (b.getD (4 * i + 3) 0).isLt
  omega

theorem slice8 (b : List Byte) (i : Nat) : Spec.slice 8 i b = Spec.slice 4 (2 * i) b ++ Spec.slice 4 (2 * i + 1) b := by
  simp only [Spec.slice]
  rw [show 4 * (2 * i) = 8 * i by omega, show 4 * (2 * i + 1) = 8 * i + 4 by omega, ← List.drop_drop, ← List.take_add]

theorem leNum_append (a b : List Byte) : Spec.leNum (a ++ b) = Spec.leNum a + 256 ^ a.length * Spec.leNum b := by
  induction a with
  | nil => simp [Spec.leNum]
  | cons x a ih =>
    have h1 : ∀ l : List Byte, Spec.leNum (x :: l) = x.toNat + 256 * Spec.leNum l := fun _ => rfl
    rw [List.cons_append, h1, h1, ih, List.length_cons, Nat.pow_succ, Nat.mul_add, ← Nat.add_assoc, ← Nat.mul_assoc,
      Nat.mul_comm 256 (256 ^ a.length)]

theorem beNum_foldl (b : List Byte) (a : Nat) :
    b.foldl (fun a b => 256 * a + b.toNat) a = 256 ^ b.length * a + Spec.beNum b := by
  induction b generalizing a with
  | nil => simp [Spec.beNum]
  | cons x b ih =>
    simp only [Spec.beNum, List.foldl_cons, List.length_cons]
    rw [ih, ih (256 * 0 + x.toNat)]
    rw [Nat.pow_succ, Nat.mul_add, Nat.mul_zero, Nat.zero_add, Nat.mul_assoc, Nat.add_assoc]

theorem beNum_append (a b : List Byte) : Spec.beNum (a ++ b) = 256 ^ b.length * Spec.beNum a + Spec.beNum b := by
  rw [Spec.beNum, List.foldl_append, beNum_foldl]; rfl

theorem slice_length (k i : Nat) (b : List Byte) (h : k * i + k ≤ b.length) : (Spec.slice k i b).length = k := by
  simp [Spec.slice]; omega

theorem ld64_eq (b : List Byte) (i : Nat) (h : 8 * i + 8 ≤ b.length) :
    ld64 b i = BitVec.ofNat 64 (Spec.leNum (Spec.slice 8 i b)) := by
  apply BitVec.eq_of_toNat_eq
  have e : (ld64 b i).toNat = Spec.leNum (Spec.slice 8 i b) := by
    rw [slice8, leNum_append, slice_length _ _ _ (by omega), ld64, append32_toNat, ld32_toNat _ _ (by omega),
      ld32_toNat _ _ (by omega)]
    omega
  rw [BitVec.toNat_ofNat, ← e, Nat.mod_eq_of_lt (ld64 b i).isLt]

theorem be64_append (x y : BitVec 32) : be64 (x ++ y : BitVec (32 + 32)) = (be32 y ++ be32 x : BitVec (32 + 32)) := by
  apply BitVec.eq_of_getLsbD_eq
  intro i hi
  simp only [be32, be64, BitVec.getLsbD_or, BitVec.getLsbD_and, BitVec.getLsbD_shiftLeft, BitVec.getLsbD_ushiftRight,
    BitVec.getLsbD_append]
  match i, hi with
  | 0, _ | 1, _ | 2, _ | 3, _ | 4, _ | 5, _ | 6, _ | 7, _ | 8, _ | 9, _ | 10, _ | 11, _ | 12, _ | 13, _ | 14, _ | 15, _
  | 16, _ | 17, _ | 18, _ | 19, _ | 20, _ | 21, _ | 22, _ | 23, _ | 24, _ | 25, _ | 26, _ | 27, _ | 28, _ | 29, _
  | 30, _ | 31, _ | 32, _ | 33, _ | 34, _ | 35, _ | 36, _ | 37, _ | 38, _ | 39, _ | 40, _ | 41, _ | 42, _ | 43, _
  | 44, _ | 45, _ | 46, _ | 47, _ | 48, _ | 49, _ | 50, _ | 51, _ | 52, _ | 53, _ | 54, _ | 55, _ | 56, _ | 57, _
  | 58, _ | 59, _ | 60, _ | 61, _ | 62, _ | 63, _ => simp
  | n + 64, h => omega

theorem be64_ld64 (b : List Byte) (i : Nat) (h : 8 * i + 8 ≤ b.length) :
    be64 (ld64 b i) = BitVec.ofNat 64 (Spec.beNum (Spec.slice 8 i b)) := by
  rw [ld64, be64_append, be32_ld32 _ _ (by omega), be32_ld32 _ _ (by omega), slice8, beNum_append,
    slice_length _ _ _ (by omega)]
  apply BitVec.eq_of_toNat_eq
  rw [append32_toNat]
  simp only [BitVec.toNat_ofNat]
  have h1 : Spec.beNum (Spec.slice 4 (2 * i) b) < 4294967296 := by
    rw [slice4 _ _ (by omega)]
    simp only [Spec.beNum, List.foldl_cons, List.foldl_nil]
    have := (b.getD (4 * (2 * i)) 0).isLt
    have := (b.getD (4 * (2 * i) + 1) 0).isLt
    have := (b.getD (4 * (2 * i) + 2) 0).isLt
    have := (b.getD (4 * (2 * i) + 3) 0).isLt
    omega
  have h2 : Spec.beNum (Spec.slice 4 (2 * i + 1) b) < 4294967296 := by
    rw [slice4 _ _ (by omega)]
    simp only [Spec.beNum, List.foldl_cons, List.foldl_nil]
    have := (b.getD (4 * (2 * i + 1)) 0).isLt
    have := (b.getD (4 * (2 * i + 1) + 1) 0).isLt
    have := (b.getD (4 * (2 * i + 1) + 2) 0).isLt
    have := (b.getD (4 * (2 * i + 1) + 3) 0).isLt
    omega
  generalize Spec.beNum (Spec.slice 4 (2 * i) b) = u at *
  generalize Spec.beNum (Spec.slice 4 (2 * i + 1) b) = v at *
  omega

theorem slice_take (k i n : Nat) (b : List Byte) (h : k * i + k ≤ n) : Spec.slice k i (b.take n) = Spec.slice k i b := by
  simp only [Spec.slice, List.drop_take, List.take_take]
  rw [Nat.min_eq_left (by omega)]

end Fio.Hash
