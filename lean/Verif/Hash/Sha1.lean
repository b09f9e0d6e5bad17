import Verif.Hash.Words

/-! # The block function of SHA-1 -/

namespace Fio.Hash
open Spec (Regs5 sched1 word1 round1)

theorem sched1_lt (m : Nat → BitVec 32) (t : Nat) (h : t < 16) : sched1 m t = m t := by
  rw [sched1, if_pos h]

theorem sched1_ge (m : Nat → BitVec 32) (t : Nat) (h : 16 ≤ t) :
    sched1 m t = (sched1 m (t - 3) ^^^ sched1 m (t - 8) ^^^ sched1 m (t - 14) ^^^ sched1 m (t - 16)).rotateLeft 1 := by
  rw [sched1, if_neg (by omega)]

theorem sched1_congr (m m' : Nat → BitVec 32) (h : ∀ i < 16, m i = m' i) (t : Nat) : sched1 m t = sched1 m' t := by
  induction t using Nat.strongRecOn with
  | _ t ih =>
    by_cases ht : t < 16
    · rw [sched1_lt _ _ ht, sched1_lt _ _ ht, h t ht]
    · rw [sched1_ge m _ (by omega), sched1_ge m' _ (by omega), ih _ (by omega), ih _ (by omega), ih _ (by omega),
        ih _ (by omega)]

/-- The circular array holds the last sixteen words before `t`. -/
def Ring (ws : Nat → BitVec 32) (t : Nat) (a : List (BitVec 32)) : Prop :=
  a.length = 16 ∧ ∀ s, s < t → t ≤ s + 16 → a.getD (s % 16) 0 = ws s

theorem Ring.step {ws : Nat → BitVec 32} {t : Nat} {a : List (BitVec 32)} (h : Ring ws t a) :
    Ring ws (t + 1) (a.set (t % 16) (ws t)) := by
  refine ⟨by rw [List.length_set]; exact h.1, fun s h1 h2 => ?_⟩
  rw [List.getD_eq_getElem?_getD, List.getElem?_set]
  by_cases hs : s = t
  · rw [if_pos (by rw [hs]), if_pos (by rw [h.1]; omega), hs]; rfl
  · rw [if_neg (by omega), ← List.getD_eq_getElem?_getD, h.2 s (by omega) (by omega)]

/-- What a line does, if the array is right. -/
def Good (T : TMacro) (data : List Byte) (t : Nat) : Prop :=
  ∀ a A B C D E, Ring (sched1 (word1 data)) t a →
    T data a t A B C D E = (a.set (t % 16) (sched1 (word1 data) t),
      (round1 t (sched1 (word1 data) t) ⟨A, B, C, D, E⟩).a, B.rotateLeft 30)

theorem ror_rotl (x : BitVec 32) : ror x 2 = x.rotateLeft 30 := by
  show x >>> 2 ||| x <<< 30 = x <<< 30 ||| x >>> 2
  exact BitVec.or_comm _ _

theorem src_eq (data : List Byte) (a : List (BitVec 32)) (t : Nat) (h : 64 ≤ data.length) (ht : t < 16) :
    shaSrc data a t = sched1 (word1 data) t := by
  rw [sched1_lt _ _ ht, shaSrc, be32_ld32 _ _ (by omega)]; rfl

theorem mix_eq (data : List Byte) (a : List (BitVec 32)) (t : Nat) (ht : 16 ≤ t)
    (hr : Ring (sched1 (word1 data)) t a) : shaMix data a t = sched1 (word1 data) t := by
  have h3 := hr.2 (t - 3) (by omega) (by omega)
  have h8 := hr.2 (t - 8) (by omega) (by omega)
  have h14 := hr.2 (t - 14) (by omega) (by omega)
  have h16 := hr.2 (t - 16) (by omega) (by omega)
  rw [sched1_ge _ _ ht, shaMix, rol_eq _ _ (by omega), ← h3, ← h8, ← h14, ← h16,
    show (t - 3) % 16 = (t + 13) % 16 by omega, show (t - 8) % 16 = (t + 8) % 16 by omega,
    show (t - 14) % 16 = (t + 2) % 16 by omega, show (t - 16) % 16 = t % 16 by omega]

theorem fch (x y z : BitVec 32) : ((y ^^^ z) &&& x) ^^^ z = Spec.ch x y z := by
  ext i hi
  simp only [Spec.ch, BitVec.getElem_xor, BitVec.getElem_and, BitVec.getElem_not]
  cases x[i] <;> cases y[i] <;> cases z[i] <;> rfl

theorem fmaj (x y z : BitVec 32) : (x &&& y) + (z &&& (x ^^^ y)) = Spec.maj x y z := by
  rw [BitVec.add_eq_or_of_and_eq_zero]
  · ext i hi
    simp only [Spec.maj, BitVec.getElem_xor, BitVec.getElem_and, BitVec.getElem_or]
    cases x[i] <;> cases y[i] <;> cases z[i] <;> rfl
  · ext i hi
    simp only [BitVec.getElem_xor, BitVec.getElem_and, BitVec.getElem_zero]
    cases x[i] <;> cases y[i] <;> cases z[i] <;> rfl

theorem round_val (A E x k f : BitVec 32) : E + (x + rol A 5 + f + k) = A.rotateLeft 5 + f + E + k + x := by
  rw [rol_eq _ _ (by omega)]
  ac_rfl

theorem good_0_15 (data : List Byte) (t : Nat) (h : 64 ≤ data.length) (ht : t < 16) : Good t_0_15 data t := by
  intro a A B C D E hr
  simp only [t_0_15, shaRound, src_eq data a t h ht, round1, Spec.f1, Spec.k1, if_pos (show t < 20 by omega), fch,
    round_val, ror_rotl]

theorem good_16_19 (data : List Byte) (t : Nat) (h : 16 ≤ t) (ht : t < 20) : Good t_16_19 data t := by
  intro a A B C D E hr
  simp only [t_16_19, shaRound, mix_eq data a t h hr, round1, Spec.f1, Spec.k1, if_pos ht, fch, round_val, ror_rotl]

theorem good_20_39 (data : List Byte) (t : Nat) (h : 20 ≤ t) (ht : t < 40) : Good t_20_39 data t := by
  intro a A B C D E hr
  simp only [t_20_39, shaRound, mix_eq data a t (by omega) hr, round1, Spec.f1, Spec.k1,
    if_neg (show ¬t < 20 by omega), if_pos ht, round_val, ror_rotl]

theorem good_40_59 (data : List Byte) (t : Nat) (h : 40 ≤ t) (ht : t < 60) : Good t_40_59 data t := by
  intro a A B C D E hr
  simp only [t_40_59, shaRound, mix_eq data a t (by omega) hr, round1, Spec.f1, Spec.k1,
    if_neg (show ¬t < 20 by omega), if_neg (show ¬t < 40 by omega), if_pos ht, fmaj, round_val, ror_rotl]

theorem good_60_79 (data : List Byte) (t : Nat) (h : 60 ≤ t) : Good t_60_79 data t := by
  intro a A B C D E hr
  simp only [t_60_79, shaRound, mix_eq data a t (by omega) hr, round1, Spec.f1, Spec.k1,
    if_neg (show ¬t < 20 by omega), if_neg (show ¬t < 40 by omega), if_neg (show ¬t < 60 by omega), round_val, ror_rotl]

/-- The registers. -/
def Loc1.regs (r : Loc1) : Regs5 := ⟨r.A, r.B, r.C, r.D, r.E⟩

/-- After `t` rounds. -/
def At (data : List Byte) (h : Regs5) (t : Nat) (r : Loc1) : Prop :=
  Ring (sched1 (word1 data)) t r.array ∧ r.regs = Spec.rounds1 (sched1 (word1 data)) 0 t h

theorem rounds1_succ (ws : Nat → BitVec 32) (n : Nat) : ∀ (t : Nat) (r : Regs5),
    Spec.rounds1 ws t (n + 1) r = round1 (t + n) (ws (t + n)) (Spec.rounds1 ws t n r) := by
  induction n with
  | zero => intro t r; rfl
  | succ n ih =>
    intro t r
    rw [Spec.rounds1, ih, Spec.rounds1, show t + 1 + n = t + (n + 1) by omega]

theorem quint_at {data : List Byte} {h : Regs5} {t : Nat} {r : Loc1} (T0 T1 T2 T3 T4 : TMacro)
    (g0 : Good T0 data t) (g1 : Good T1 data (t + 1)) (g2 : Good T2 data (t + 2)) (g3 : Good T3 data (t + 3))
    (g4 : Good T4 data (t + 4)) (ha : At data h t r) : At data h (t + 5) (quint T0 T1 T2 T3 T4 data t r) := by
  obtain ⟨a, A, B, C, D, E⟩ := r
  obtain ⟨hr, hg⟩ := ha
  simp only at hr
  have r1 := hr.step
  have r2 := r1.step
  have r3 := r2.step
  have r4 := r3.step
  have r5 := r4.step
  simp only [quint, g0 _ _ _ _ _ _ hr, g1 _ _ _ _ _ _ r1, g2 _ _ _ _ _ _ r2, g3 _ _ _ _ _ _ r3, g4 _ _ _ _ _ _ r4]
  refine ⟨r5, ?_⟩
  simp only [rounds1_succ, Nat.zero_add, ← hg]
  rfl

theorem rounds1_at (data : List Byte) (hl : 64 ≤ data.length) (h : Regs5) (r : Loc1) (h0 : At data h 0 r) :
    At data h 80 (rounds1 data r) := by
  have g0 := fun t => good_0_15 data t hl
  have g1 := good_16_19 data
  have g2 := good_20_39 data
  have g3 := good_40_59 data
  have g4 := good_60_79 data
  unfold rounds1
  have a := quint_at _ _ _ _ _ (g0 _ (by omega)) (g0 _ (by omega)) (g0 _ (by omega)) (g0 _ (by omega)) (g0 _ (by omega)) h0
  have a := quint_at _ _ _ _ _ (g0 _ (by omega)) (g0 _ (by omega)) (g0 _ (by omega)) (g0 _ (by omega)) (g0 _ (by omega)) a
  have a := quint_at _ _ _ _ _ (g0 _ (by omega)) (g0 _ (by omega)) (g0 _ (by omega)) (g0 _ (by omega)) (g0 _ (by omega)) a
  have a := quint_at _ _ _ _ _ (g0 _ (by omega)) (g1 _ (by omega) (by omega)) (g1 _ (by omega) (by omega))
    (g1 _ (by omega) (by omega)) (g1 _ (by omega) (by omega)) a
  have a := quint_at _ _ _ _ _ (g2 _ (by omega) (by omega)) (g2 _ (by omega) (by omega)) (g2 _ (by omega) (by omega))
    (g2 _ (by omega) (by omega)) (g2 _ (by omega) (by omega)) a
  have a := quint_at _ _ _ _ _ (g2 _ (by omega) (by omega)) (g2 _ (by omega) (by omega)) (g2 _ (by omega) (by omega))
    (g2 _ (by omega) (by omega)) (g2 _ (by omega) (by omega)) a
  have a := quint_at _ _ _ _ _ (g2 _ (by omega) (by omega)) (g2 _ (by omega) (by omega)) (g2 _ (by omega) (by omega))
    (g2 _ (by omega) (by omega)) (g2 _ (by omega) (by omega)) a
  have a := quint_at _ _ _ _ _ (g2 _ (by omega) (by omega)) (g2 _ (by omega) (by omega)) (g2 _ (by omega) (by omega))
    (g2 _ (by omega) (by omega)) (g2 _ (by omega) (by omega)) a
  have a := quint_at _ _ _ _ _ (g3 _ (by omega) (by omega)) (g3 _ (by omega) (by omega)) (g3 _ (by omega) (by omega))
    (g3 _ (by omega) (by omega)) (g3 _ (by omega) (by omega)) a
  have a := quint_at _ _ _ _ _ (g3 _ (by omega) (by omega)) (g3 _ (by omega) (by omega)) (g3 _ (by omega) (by omega))
    (g3 _ (by omega) (by omega)) (g3 _ (by omega) (by omega)) a
  have a := quint_at _ _ _ _ _ (g3 _ (by omega) (by omega)) (g3 _ (by omega) (by omega)) (g3 _ (by omega) (by omega))
    (g3 _ (by omega) (by omega)) (g3 _ (by omega) (by omega)) a
  have a := quint_at _ _ _ _ _ (g3 _ (by omega) (by omega)) (g3 _ (by omega) (by omega)) (g3 _ (by omega) (by omega))
    (g3 _ (by omega) (by omega)) (g3 _ (by omega) (by omega)) a
  have a := quint_at _ _ _ _ _ (g4 _ (by omega)) (g4 _ (by omega)) (g4 _ (by omega)) (g4 _ (by omega)) (g4 _ (by omega)) a
  have a := quint_at _ _ _ _ _ (g4 _ (by omega)) (g4 _ (by omega)) (g4 _ (by omega)) (g4 _ (by omega)) (g4 _ (by omega)) a
  have a := quint_at _ _ _ _ _ (g4 _ (by omega)) (g4 _ (by omega)) (g4 _ (by omega)) (g4 _ (by omega)) (g4 _ (by omega)) a
  have a := quint_at _ _ _ _ _ (g4 _ (by omega)) (g4 _ (by omega)) (g4 _ (by omega)) (g4 _ (by omega)) (g4 _ (by omega)) a
  exact a

theorem block1_eq (junk : List (BitVec 32)) (hj : junk.length = 16) (h : Regs5) (data : List Byte)
    (hl : 64 ≤ data.length) : block1 junk h data = some (Spec.comp1 h (data.take 64)) := by
  have h1 : rd data 0 64 = some ((data.drop 0).take 64) := by rw [rd, if_pos (by omega)]
  have h0 : At data h 0 ⟨junk, h.a, h.b, h.c, h.d, h.e⟩ := ⟨⟨hj, fun s h => by omega⟩, rfl⟩
  obtain ⟨_, hg⟩ := rounds1_at data hl h _ h0
  have hw : sched1 (word1 data) = sched1 (word1 (data.take 64)) := by
    funext t
    apply sched1_congr
    intro i hi
    rw [word1, word1, slice_take _ _ _ _ (by omega)]
  rw [hw] at hg
  simp only [block1, h1, Option.bind_eq_bind, Option.bind_some, Spec.comp1, ← hg, Loc1.regs, BitVec.add_comm]

end Fio.Hash
