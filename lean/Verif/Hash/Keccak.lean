import Verif.Hash.Words

/-! # The permutation of SHA-3 -/

namespace Fio.Hash
set_option linter.unusedSimpArgs false
open Spec (Lanes)

/-- The lanes of a list. -/
def lanes (st : List (BitVec 64)) : Lanes := fun x y => ln st (5 * y + x)

/-- Equal lanes. -/
def Same (a b : Lanes) : Prop := ∀ x < 5, ∀ y < 5, a x y = b x y

theorem Same.theta {a b : Lanes} (h : Same a b) : Same (Spec.theta a) (Spec.theta b) := by
  intro x hx y hy
  have h1 : (x + 4) % 5 < 5 := Nat.mod_lt _ (by omega)
  have h2 : (x + 1) % 5 < 5 := Nat.mod_lt _ (by omega)
  simp only [Spec.theta, h x hx y hy, h _ h1 0 (by omega), h _ h1 1 (by omega), h _ h1 2 (by omega),
    h _ h1 3 (by omega), h _ h1 4 (by omega), h _ h2 0 (by omega), h _ h2 1 (by omega), h _ h2 2 (by omega),
    h _ h2 3 (by omega), h _ h2 4 (by omega)]

theorem Same.rho {a b : Lanes} (h : Same a b) : Same (Spec.rho a) (Spec.rho b) := by
  intro x hx y hy
  simp only [Spec.rho, h x hx y hy]

theorem Same.pi {a b : Lanes} (h : Same a b) : Same (Spec.pi a) (Spec.pi b) := by
  intro x hx y hy
  simp only [Spec.pi, h _ (Nat.mod_lt (x + 3 * y) (by omega : 5 > 0)) x hx]

theorem Same.chi {a b : Lanes} (h : Same a b) : Same (Spec.chi a) (Spec.chi b) := by
  intro x hx y hy
  simp only [Spec.chi, h x hx y hy, h _ (Nat.mod_lt (x + 1) (by omega : 5 > 0)) y hy,
    h _ (Nat.mod_lt (x + 2) (by omega : 5 > 0)) y hy]

theorem Same.iota {a b : Lanes} (i : Nat) (h : Same a b) : Same (Spec.iota i a) (Spec.iota i b) := by
  intro x hx y hy
  simp only [Spec.iota, h x hx y hy]

theorem Same.trans {a b c : Lanes} (h : Same a b) (h' : Same b c) : Same a c :=
  fun x hx y hy => (h x hx y hy).trans (h' x hx y hy)

theorem Same.round {a b : Lanes} (i : Nat) (h : Same a b) : Same (Spec.keccakRound i a) (Spec.keccakRound i b) :=
  (h.theta.rho.pi.chi).iota i

theorem Same.rounds (n : Nat) : ∀ (i : Nat) {a b : Lanes}, Same a b →
    Same (Spec.keccakRounds i n a) (Spec.keccakRounds i n b) := by
  induction n with
  | zero => intro i a b h; exact h
  | succ n ih => intro i a b h; exact ih (i + 1) (h.round i)

theorem forall5 {P : Nat → Prop} (h0 : P 0) (h1 : P 1) (h2 : P 2) (h3 : P 3) (h4 : P 4) : ∀ x < 5, P x
  | 0, _ => h0
  | 1, _ => h1
  | 2, _ => h2
  | 3, _ => h3
  | 4, _ => h4
  | n + 5, h => absurd h (by omega)

theorem range5 : List.range 5 = [0, 1, 2, 3, 4] := rfl

theorem range24 : List.range 24 = [0, 1, 2, 3, 4, 5, 6, 7, 8, 9, 10, 11, 12, 13, 14, 15, 16, 17, 18, 19, 20, 21, 22, 23] := rfl

/-- A list of twenty-five. -/
theorem list25 (st : List (BitVec 64)) (h : st.length = 25) : ∃ a0 a1 a2 a3 a4 a5 a6 a7 a8 a9 a10 a11 a12 a13 a14 a15
    a16 a17 a18 a19 a20 a21 a22 a23 a24, st = [a0, a1, a2, a3, a4, a5, a6, a7, a8, a9, a10, a11, a12, a13, a14, a15,
      a16, a17, a18, a19, a20, a21, a22, a23, a24] := by
  match st, h with
  | [a0, a1, a2, a3, a4, a5, a6, a7, a8, a9, a10, a11, a12, a13, a14, a15, a16, a17, a18, a19, a20, a21, a22, a23,
      a24], _ => exact ⟨_, _, _, _, _, _, _, _, _, _, _, _, _, _, _, _, _, _, _, _, _, _, _, _, _, rfl⟩

theorem theta_len (st : List (BitVec 64)) (h : st.length = 25) : (theta st).length = 25 := by
  obtain ⟨a0, a1, a2, a3, a4, a5, a6, a7, a8, a9, a10, a11, a12, a13, a14, a15, a16, a17, a18, a19, a20, a21, a22, a23,
    a24, rfl⟩ := list25 st h
  simp only [theta, range5, range24, ln, List.foldl_cons, List.foldl_nil, List.map_cons, List.map_nil, Nat.reduceAdd,
    Nat.reduceMul, Nat.reduceMod, List.getD_cons_zero, List.getD_cons_succ, List.set_cons_zero, List.set_cons_succ]
  rfl

theorem rhoPi_len (st : List (BitVec 64)) (h : st.length = 25) : (rhoPi st).length = 25 := by
  obtain ⟨a0, a1, a2, a3, a4, a5, a6, a7, a8, a9, a10, a11, a12, a13, a14, a15, a16, a17, a18, a19, a20, a21, a22, a23,
    a24, rfl⟩ := list25 st h
  simp only [rhoPi, range5, range24, ln, List.foldl_cons, List.foldl_nil, List.map_cons, List.map_nil, Nat.reduceAdd,
    Nat.reduceMul, Nat.reduceMod, List.getD_cons_zero, List.getD_cons_succ, List.set_cons_zero, List.set_cons_succ, piln, rotc]
  rfl

theorem chi_len (st : List (BitVec 64)) (h : st.length = 25) : (chi st).length = 25 := by
  obtain ⟨a0, a1, a2, a3, a4, a5, a6, a7, a8, a9, a10, a11, a12, a13, a14, a15, a16, a17, a18, a19, a20, a21, a22, a23,
    a24, rfl⟩ := list25 st h
  simp only [chi, range5, range24, ln, List.foldl_cons, List.foldl_nil, List.map_cons, List.map_nil, Nat.reduceAdd,
    Nat.reduceMul, Nat.reduceMod, List.getD_cons_zero, List.getD_cons_succ, List.set_cons_zero, List.set_cons_succ]
  rfl

theorem theta_same (st : List (BitVec 64)) (h : st.length = 25) : Same (lanes (theta st)) (Spec.theta (lanes st)) := by
  obtain ⟨a0, a1, a2, a3, a4, a5, a6, a7, a8, a9, a10, a11, a12, a13, a14, a15, a16, a17, a18, a19, a20, a21, a22, a23,
    a24, rfl⟩ := list25 st h
  simp only [theta, range5, range24, ln, List.foldl_cons, List.foldl_nil, List.map_cons, List.map_nil, Nat.reduceAdd,
    Nat.reduceMul, Nat.reduceMod, List.getD_cons_zero, List.getD_cons_succ, List.set_cons_zero, List.set_cons_succ]
  apply forall5 <;> apply forall5 <;> rfl

theorem rot0 (x : BitVec 64) : x = x.rotateLeft 0 := by
  show x = x <<< 0 ||| x >>> 64
  rw [show x >>> 64 = 0#64 from BitVec.ushiftRight_eq_zero (by omega)]
  simp

theorem rhoPi_same (st : List (BitVec 64)) (h : st.length = 25) :
    Same (lanes (rhoPi st)) (Spec.pi (Spec.rho (lanes st))) := by
  obtain ⟨a0, a1, a2, a3, a4, a5, a6, a7, a8, a9, a10, a11, a12, a13, a14, a15, a16, a17, a18, a19, a20, a21, a22, a23,
    a24, rfl⟩ := list25 st h
  simp only [rhoPi, range5, range24, ln, List.foldl_cons, List.foldl_nil, List.map_cons, List.map_nil, Nat.reduceAdd,
    Nat.reduceMul, Nat.reduceMod, List.getD_cons_zero, List.getD_cons_succ, List.set_cons_zero, List.set_cons_succ, piln, rotc]
  apply forall5 <;> apply forall5 <;> first | rfl | exact rot0 a0

theorem chi_same (st : List (BitVec 64)) (h : st.length = 25) : Same (lanes (chi st)) (Spec.chi (lanes st)) := by
  obtain ⟨a0, a1, a2, a3, a4, a5, a6, a7, a8, a9, a10, a11, a12, a13, a14, a15, a16, a17, a18, a19, a20, a21, a22, a23,
    a24, rfl⟩ := list25 st h
  simp only [chi, range5, range24, ln, List.foldl_cons, List.foldl_nil, List.map_cons, List.map_nil, Nat.reduceAdd,
    Nat.reduceMul, Nat.reduceMod, List.getD_cons_zero, List.getD_cons_succ, List.set_cons_zero, List.set_cons_succ]
  apply forall5 <;> apply forall5 <;> rfl

theorem rndc_eq : ∀ i < 24, rndc.getD i 0 = Spec.roundConst i := by decide +kernel

theorem round_same (st : List (BitVec 64)) (h : st.length = 25) (i : Nat) (hi : i < 24) :
    (keccakRound st i).length = 25 ∧ Same (lanes (keccakRound st i)) (Spec.keccakRound i (lanes st)) := by
  have l1 := theta_len st h
  have l2 := rhoPi_len _ l1
  have l3 := chi_len _ l2
  refine ⟨by simp [keccakRound, l3], ?_⟩
  have s : Same (lanes (chi (rhoPi (theta st)))) (Spec.chi (Spec.pi (Spec.rho (Spec.theta (lanes st))))) :=
    (chi_same _ l2).trans ((rhoPi_same _ l1).trans ((theta_same st h).rho.pi)).chi
  refine Same.trans ?_ (s.iota i)
  intro x hx y hy
  simp only [keccakRound, lanes, Spec.iota, ln, rndc_eq i hi]
  rw [List.getD_eq_getElem?_getD, List.getElem?_set]
  by_cases hz : x = 0 ∧ y = 0
  · obtain ⟨rfl, rfl⟩ := hz
    rw [if_pos rfl, if_pos (by omega), if_pos ⟨rfl, rfl⟩]
    rfl
  · rw [if_neg (by omega), if_neg hz, ← List.getD_eq_getElem?_getD]

theorem keccakRounds_succ (n : Nat) : ∀ (i : Nat) (a : Lanes),
    Spec.keccakRounds i (n + 1) a = Spec.keccakRound (i + n) (Spec.keccakRounds i n a) := by
  induction n with
  | zero => intros; rfl
  | succ n ih =>
    intro i a
    rw [Spec.keccakRounds, ih, Spec.keccakRounds, show i + 1 + n = i + (n + 1) by omega]

theorem keccakf_fold (st : List (BitVec 64)) (h : st.length = 25) (n : Nat) (hn : n ≤ 24) :
    ((List.range n).foldl keccakRound st).length = 25 ∧
      Same (lanes ((List.range n).foldl keccakRound st)) (Spec.keccakRounds 0 n (lanes st)) := by
  induction n with
  | zero => exact ⟨h, fun _ _ _ _ => rfl⟩
  | succ n ih =>
    obtain ⟨h1, h2⟩ := ih (by omega)
    rw [List.range_succ, List.foldl_append, keccakRounds_succ, Nat.zero_add, List.foldl_cons, List.foldl_nil]
    obtain ⟨h3, h4⟩ := round_same _ h1 n (by omega)
    exact ⟨h3, Same.trans h4 (h2.round n)⟩

theorem keccakf_same (st : List (BitVec 64)) (h : st.length = 25) :
    (keccakf st).length = 25 ∧ Same (lanes (keccakf st)) (Spec.keccakF (lanes st)) := by
  rw [keccakf, Spec.keccakF]
  exact keccakf_fold st h 24 (by omega)

theorem xor_fold (src : List Byte) (st : List (BitVec 64)) (n : Nat) :
    let r := (List.range n).foldl (fun st i => st.set i (ln st i ^^^ ld64 src i)) st
    r.length = st.length ∧ ∀ i < st.length, ln r i = if i < n then ln st i ^^^ ld64 src i else ln st i := by
  induction n with
  | zero => exact ⟨rfl, fun i _ => rfl⟩
  | succ n ih =>
    simp only [List.range_succ, List.foldl_append, List.foldl_cons, List.foldl_nil] at ih ⊢
    obtain ⟨h1, h2⟩ := ih
    generalize List.foldl _ _ _ = r at *
    refine ⟨by rw [List.length_set, h1], fun i hi => ?_⟩
    rw [ln, List.getD_eq_getElem?_getD, List.getElem?_set]
    by_cases hn : n = i
    · subst hn
      rw [if_pos rfl, if_pos (by omega), h2 n hi, if_neg (by omega), if_pos (by omega)]; rfl
    · rw [if_neg hn, ← List.getD_eq_getElem?_getD, show r.getD i 0 = ln r i from rfl, h2 i hi]
      by_cases h : i < n
      · rw [if_pos h, if_pos (by omega)]
      · rw [if_neg h, if_neg (by omega)]

theorem Same.absorb {a b : Lanes} (k : Nat) (m : List Byte) (h : Same a b) :
    Same (Spec.absorb k a m) (Spec.absorb k b m) := by
  refine Same.rounds 24 0 ?_
  intro x hx y hy
  simp only [h x hx y hy]

theorem absorb3_same (k : Nat) (st : List (BitVec 64)) (h : st.length = 25) (src : List Byte)
    (hs : 8 * k ≤ src.length) : ∃ st', absorb3 k st src = some st' ∧ st'.length = 25 ∧
      Same (lanes st') (Spec.absorb k (lanes st) (src.take (8 * k))) := by
  have h1 : rd src 0 (8 * k) = some ((src.drop 0).take (8 * k)) := by rw [rd, if_pos (by omega)]
  obtain ⟨x1, x2⟩ := xor_fold src st k
  obtain ⟨k1, k2⟩ := keccakf_same _ (x1.trans h)
  refine ⟨_, by simp only [absorb3, h1, Option.bind_eq_bind, Option.bind_some], k1, k2.trans ?_⟩
  refine Same.rounds 24 0 ?_
  intro x hx y hy
  simp only [lanes]
  rw [x2 _ (by omega)]
  by_cases hl : 5 * y + x < k
  · rw [if_pos hl, if_pos hl, slice_take _ _ _ _ (by omega), ld64_eq _ _ (by omega)]
  · rw [if_neg hl, if_neg hl]

end Fio.Hash
