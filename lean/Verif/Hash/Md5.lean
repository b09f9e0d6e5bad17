import Verif.Hash.Words

/-! # The block function of MD5 -/

namespace Fio.Hash
open Spec (Regs4 word5 step5 steps5 fmd5 xmd5 smd5 tmd5)

theorem f1_eq (x y z : BitVec 32) : f1 x y z = (x &&& y) ||| (~~~x &&& z) := by
  ext i hi
  simp only [f1, BitVec.getElem_xor, BitVec.getElem_and, BitVec.getElem_not, BitVec.getElem_or]
  cases x[i] <;> cases y[i] <;> cases z[i] <;> rfl

theorem f2_eq (x y z : BitVec 32) : f2 x y z = (x &&& z) ||| (y &&& ~~~z) := by
  ext i hi
  simp only [f1, f2, BitVec.getElem_xor, BitVec.getElem_and, BitVec.getElem_not, BitVec.getElem_or]
  cases x[i] <;> cases y[i] <;> cases z[i] <;> rfl

/-- A line is step `t`. -/
def GoodStep (t : Nat) (f : BitVec 32 → BitVec 32 → BitVec 32 → BitVec 32) (q : Nat × BitVec 32 × Nat) : Prop :=
  (∀ x y z, f x y z = fmd5 t x y z) ∧ q.1 = xmd5 t ∧ q.2.1 = BitVec.ofNat 32 (tmd5 (t + 1)) ∧ q.2.2 = smd5 t ∧ q.2.2 < 32

theorem md5step_eq {t : Nat} {f : BitVec 32 → BitVec 32 → BitVec 32 → BitVec 32} {q : Nat × BitVec 32 × Nat}
    (h : GoodStep t f q) (x : Nat → BitVec 32) (a b c d : BitVec 32) :
    md5step f a b c d (x q.1 + q.2.1) q.2.2 = (step5 tmd5 x t ⟨a, b, c, d⟩).b := by
  obtain ⟨hf, h1, h2, h3, h4⟩ := h
  rw [show md5step f a b c d (x q.1 + q.2.1) q.2.2 = rol (a + (f b c d + (x q.1 + q.2.1))) q.2.2 + b from rfl,
    rol_eq _ _ h4, hf, h1, h2, h3]
  simp only [step5]
  rw [BitVec.add_comm, ← BitVec.add_assoc, ← BitVec.add_assoc]

theorem quad_eq {t : Nat} {f : BitVec 32 → BitVec 32 → BitVec 32 → BitVec 32} {q0 q1 q2 q3 : Nat × BitVec 32 × Nat}
    (h0 : GoodStep t f q0) (h1 : GoodStep (t + 1) f q1) (h2 : GoodStep (t + 2) f q2) (h3 : GoodStep (t + 3) f q3)
    (x : Nat → BitVec 32) (r : Regs4) : quad f x q0 q1 q2 q3 r = steps5 tmd5 x t 4 r := by
  obtain ⟨a, b, c, d⟩ := r
  simp only [quad, md5step_eq h0, md5step_eq h1, md5step_eq h2, md5step_eq h3]
  rfl

theorem steps5_add (ts : Nat → Nat) (x : Nat → BitVec 32) (n m : Nat) : ∀ (t : Nat) (r : Regs4),
    steps5 ts x t (n + m) r = steps5 ts x (t + n) m (steps5 ts x t n r) := by
  induction n with
  | zero => intro t r; rw [Nat.zero_add]; rfl
  | succ n ih =>
    intro t r
    rw [Nat.add_right_comm, steps5, ih, steps5, show t + 1 + n = t + (n + 1) by omega]

/-- The functions of the four rounds. -/
theorem fmd5_1 (t : Nat) (h : t < 16) (x y z : BitVec 32) : f1 x y z = fmd5 t x y z := by
  rw [fmd5, if_pos h, f1_eq]
theorem fmd5_2 (t : Nat) (h : 16 ≤ t) (h' : t < 32) (x y z : BitVec 32) : f2 x y z = fmd5 t x y z := by
  rw [fmd5, if_neg (by omega), if_pos h', f2_eq]
theorem fmd5_3 (t : Nat) (h : 32 ≤ t) (h' : t < 48) (x y z : BitVec 32) : f3 x y z = fmd5 t x y z := by
  rw [fmd5, if_neg (by omega), if_neg (by omega), if_pos h']; rfl
theorem fmd5_4 (t : Nat) (h : 48 ≤ t) (x y z : BitVec 32) : f4 x y z = fmd5 t x y z := by
  rw [fmd5, if_neg (by omega), if_neg (by omega), if_neg (by omega)]; rfl

theorem quad_chain (x : Nat → BitVec 32) (t n : Nat) (r0 r : Regs4) (h : r = steps5 tmd5 x 0 t r0)
    {f : BitVec 32 → BitVec 32 → BitVec 32 → BitVec 32} {q0 q1 q2 q3 : Nat × BitVec 32 × Nat}
    (h0 : GoodStep t f q0) (h1 : GoodStep (t + 1) f q1) (h2 : GoodStep (t + 2) f q2) (h3 : GoodStep (t + 3) f q3)
    (hn : n = t + 4) : quad f x q0 q1 q2 q3 r = steps5 tmd5 x 0 n r0 := by
  rw [quad_eq h0 h1 h2 h3, h, hn, steps5_add, Nat.zero_add]

theorem rounds5_eq (x : Nat → BitVec 32) (r0 : Regs4) : rounds5 x r0 = steps5 tmd5 x 0 64 r0 := by
  have h := quad_chain x 0 4 r0 r0 rfl
    (f := f1) (q0 := (0, 0xd76aa478#32, 7)) (q1 := (1, 0xe8c7b756#32, 12))
    (q2 := (2, 0x242070db#32, 17)) (q3 := (3, 0xc1bdceee#32, 22))
    ⟨fmd5_1 _ (by omega), by decide +kernel⟩ ⟨fmd5_1 _ (by omega), by decide +kernel⟩
    ⟨fmd5_1 _ (by omega), by decide +kernel⟩ ⟨fmd5_1 _ (by omega), by decide +kernel⟩ rfl
  have h := quad_chain x 4 8 r0 _ h
    (f := f1) (q0 := (4, 0xf57c0faf#32, 7)) (q1 := (5, 0x4787c62a#32, 12))
    (q2 := (6, 0xa8304613#32, 17)) (q3 := (7, 0xfd469501#32, 22))
    ⟨fmd5_1 _ (by omega), by decide +kernel⟩ ⟨fmd5_1 _ (by omega), by decide +kernel⟩
    ⟨fmd5_1 _ (by omega), by decide +kernel⟩ ⟨fmd5_1 _ (by omega), by decide +kernel⟩ rfl
  have h := quad_chain x 8 12 r0 _ h
    (f := f1) (q0 := (8, 0x698098d8#32, 7)) (q1 := (9, 0x8b44f7af#32, 12))
    (q2 := (10, 0xffff5bb1#32, 17)) (q3 := (11, 0x895cd7be#32, 22))
    ⟨fmd5_1 _ (by omega), by decide +kernel⟩ ⟨fmd5_1 _ (by omega), by decide +kernel⟩
    ⟨fmd5_1 _ (by omega), by decide +kernel⟩ ⟨fmd5_1 _ (by omega), by decide +kernel⟩ rfl
  have h := quad_chain x 12 16 r0 _ h
    (f := f1) (q0 := (12, 0x6b901122#32, 7)) (q1 := (13, 0xfd987193#32, 12))
    (q2 := (14, 0xa679438e#32, 17)) (q3 := (15, 0x49b40821#32, 22))
    ⟨fmd5_1 _ (by omega), by decide +kernel⟩ ⟨fmd5_1 _ (by omega), by decide +kernel⟩
    ⟨fmd5_1 _ (by omega), by decide +kernel⟩ ⟨fmd5_1 _ (by omega), by decide +kernel⟩ rfl
  have h := quad_chain x 16 20 r0 _ h
    (f := f2) (q0 := (1, 0xf61e2562#32, 5)) (q1 := (6, 0xc040b340#32, 9))
    (q2 := (11, 0x265e5a51#32, 14)) (q3 := (0, 0xe9b6c7aa#32, 20))
    ⟨fmd5_2 _ (by omega) (by omega), by decide +kernel⟩ ⟨fmd5_2 _ (by omega) (by omega), by decide +kernel⟩
    ⟨fmd5_2 _ (by omega) (by omega), by decide +kernel⟩ ⟨fmd5_2 _ (by omega) (by omega), by decide +kernel⟩ rfl
  have h := quad_chain x 20 24 r0 _ h
    (f := f2) (q0 := (5, 0xd62f105d#32, 5)) (q1 := (10, 0x02441453#32, 9))
    (q2 := (15, 0xd8a1e681#32, 14)) (q3 := (4, 0xe7d3fbc8#32, 20))
    ⟨fmd5_2 _ (by omega) (by omega), by decide +kernel⟩ ⟨fmd5_2 _ (by omega) (by omega), by decide +kernel⟩
    ⟨fmd5_2 _ (by omega) (by omega), by decide +kernel⟩ ⟨fmd5_2 _ (by omega) (by omega), by decide +kernel⟩ rfl
  have h := quad_chain x 24 28 r0 _ h
    (f := f2) (q0 := (9, 0x21e1cde6#32, 5)) (q1 := (14, 0xc33707d6#32, 9))
    (q2 := (3, 0xf4d50d87#32, 14)) (q3 := (8, 0x455a14ed#32, 20))
    ⟨fmd5_2 _ (by omega) (by omega), by decide +kernel⟩ ⟨fmd5_2 _ (by omega) (by omega), by decide +kernel⟩
    ⟨fmd5_2 _ (by omega) (by omega), by decide +kernel⟩ ⟨fmd5_2 _ (by omega) (by omega), by decide +kernel⟩ rfl
  have h := quad_chain x 28 32 r0 _ h
    (f := f2) (q0 := (13, 0xa9e3e905#32, 5)) (q1 := (2, 0xfcefa3f8#32, 9))
    (q2 := (7, 0x676f02d9#32, 14)) (q3 := (12, 0x8d2a4c8a#32, 20))
    ⟨fmd5_2 _ (by omega) (by omega), by decide +kernel⟩ ⟨fmd5_2 _ (by omega) (by omega), by decide +kernel⟩
    ⟨fmd5_2 _ (by omega) (by omega), by decide +kernel⟩ ⟨fmd5_2 _ (by omega) (by omega), by decide +kernel⟩ rfl
  have h := quad_chain x 32 36 r0 _ h
    (f := f3) (q0 := (5, 0xfffa3942#32, 4)) (q1 := (8, 0x8771f681#32, 11))
    (q2 := (11, 0x6d9d6122#32, 16)) (q3 := (14, 0xfde5380c#32, 23))
    ⟨fmd5_3 _ (by omega) (by omega), by decide +kernel⟩ ⟨fmd5_3 _ (by omega) (by omega), by decide +kernel⟩
    ⟨fmd5_3 _ (by omega) (by omega), by decide +kernel⟩ ⟨fmd5_3 _ (by omega) (by omega), by decide +kernel⟩ rfl
  have h := quad_chain x 36 40 r0 _ h
    (f := f3) (q0 := (1, 0xa4beea44#32, 4)) (q1 := (4, 0x4bdecfa9#32, 11))
    (q2 := (7, 0xf6bb4b60#32, 16)) (q3 := (10, 0xbebfbc70#32, 23))
    ⟨fmd5_3 _ (by omega) (by omega), by decide +kernel⟩ ⟨fmd5_3 _ (by omega) (by omega), by decide +kernel⟩
    ⟨fmd5_3 _ (by omega) (by omega), by decide +kernel⟩ ⟨fmd5_3 _ (by omega) (by omega), by decide +kernel⟩ rfl
  have h := quad_chain x 40 44 r0 _ h
    (f := f3) (q0 := (13, 0x289b7ec6#32, 4)) (q1 := (0, 0xeaa127fa#32, 11))
    (q2 := (3, 0xd4ef3085#32, 16)) (q3 := (6, 0x04881d05#32, 23))
    ⟨fmd5_3 _ (by omega) (by omega), by decide +kernel⟩ ⟨fmd5_3 _ (by omega) (by omega), by decide +kernel⟩
    ⟨fmd5_3 _ (by omega) (by omega), by decide +kernel⟩ ⟨fmd5_3 _ (by omega) (by omega), by decide +kernel⟩ rfl
  have h := quad_chain x 44 48 r0 _ h
    (f := f3) (q0 := (9, 0xd9d4d039#32, 4)) (q1 := (12, 0xe6db99e5#32, 11))
    (q2 := (15, 0x1fa27cf8#32, 16)) (q3 := (2, 0xc4ac5665#32, 23))
    ⟨fmd5_3 _ (by omega) (by omega), by decide +kernel⟩ ⟨fmd5_3 _ (by omega) (by omega), by decide +kernel⟩
    ⟨fmd5_3 _ (by omega) (by omega), by decide +kernel⟩ ⟨fmd5_3 _ (by omega) (by omega), by decide +kernel⟩ rfl
  have h := quad_chain x 48 52 r0 _ h
    (f := f4) (q0 := (0, 0xf4292244#32, 6)) (q1 := (7, 0x432aff97#32, 10))
    (q2 := (14, 0xab9423a7#32, 15)) (q3 := (5, 0xfc93a039#32, 21))
    ⟨fmd5_4 _ (by omega), by decide +kernel⟩ ⟨fmd5_4 _ (by omega), by decide +kernel⟩
    ⟨fmd5_4 _ (by omega), by decide +kernel⟩ ⟨fmd5_4 _ (by omega), by decide +kernel⟩ rfl
  have h := quad_chain x 52 56 r0 _ h
    (f := f4) (q0 := (12, 0x655b59c3#32, 6)) (q1 := (3, 0x8f0ccc92#32, 10))
    (q2 := (10, 0xffeff47d#32, 15)) (q3 := (1, 0x85845dd1#32, 21))
    ⟨fmd5_4 _ (by omega), by decide +kernel⟩ ⟨fmd5_4 _ (by omega), by decide +kernel⟩
    ⟨fmd5_4 _ (by omega), by decide +kernel⟩ ⟨fmd5_4 _ (by omega), by decide +kernel⟩ rfl
  have h := quad_chain x 56 60 r0 _ h
    (f := f4) (q0 := (8, 0x6fa87e4f#32, 6)) (q1 := (15, 0xfe2ce6e0#32, 10))
    (q2 := (6, 0xa3014314#32, 15)) (q3 := (13, 0x4e0811a1#32, 21))
    ⟨fmd5_4 _ (by omega), by decide +kernel⟩ ⟨fmd5_4 _ (by omega), by decide +kernel⟩
    ⟨fmd5_4 _ (by omega), by decide +kernel⟩ ⟨fmd5_4 _ (by omega), by decide +kernel⟩ rfl
  have h := quad_chain x 60 64 r0 _ h
    (f := f4) (q0 := (4, 0xf7537e82#32, 6)) (q1 := (11, 0xbd3af235#32, 10))
    (q2 := (2, 0x2ad7d2bb#32, 15)) (q3 := (9, 0xeb86d391#32, 21))
    ⟨fmd5_4 _ (by omega), by decide +kernel⟩ ⟨fmd5_4 _ (by omega), by decide +kernel⟩
    ⟨fmd5_4 _ (by omega), by decide +kernel⟩ ⟨fmd5_4 _ (by omega), by decide +kernel⟩ rfl
  exact h

theorem transform5_eq (h : Regs4) (inp : List Byte) (hl : 64 ≤ inp.length) :
    transform5 h inp = some (Spec.comp5 h (inp.take 64)) := by
  have h1 : rd inp 0 64 = some ((inp.drop 0).take 64) := by rw [rd, if_pos (by omega)]
  have hx : ∀ (n t : Nat) (r : Regs4), t + n ≤ 64 →
      steps5 tmd5 (ld32 inp) t n r = steps5 tmd5 (word5 (inp.take 64)) t n r := by
    intro n
    induction n with
    | zero => intros; rfl
    | succ n ih =>
      intro t r ht
      have hk : xmd5 t < 16 := by unfold xmd5; split <;> (try split) <;> (try split) <;> omega
      have e : ld32 inp (xmd5 t) = word5 (inp.take 64) (xmd5 t) := by
        rw [word5, slice_take _ _ _ _ (by omega), ld32_eq _ _ (by omega)]
      rw [steps5, steps5, ih _ _ (by omega)]
      simp only [step5, e]
  simp only [transform5, h1, Option.bind_eq_bind, Option.bind_some, Spec.comp5, rounds5_eq, hx 64 0 h (by omega),
    BitVec.add_comm]

end Fio.Hash
