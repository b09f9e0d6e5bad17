import Verif.Split.Model
import Verif.Split.Spec
import Verif.IoGen.Props
import Mathlib.Tactic.Ring

namespace Fio.Split

open IoGen

/-- Percentages of the entries with size `s`. -/
def wsum (l : List (Nat × Nat)) (s : Nat) : Nat := ((l.filter fun x => x.1 = s).map (·.2)).sum

def psum (l : List (Nat × Nat)) : Nat := (l.map (·.2)).sum

theorem wsum_cons (b p : Nat) (l : List (Nat × Nat)) (s : Nat) :
    wsum ((b, p) :: l) s = (if b = s then p else 0) + wsum l s := by
  unfold wsum
  by_cases h : b = s
  · simp [h]
  · simp [h]

theorem psum_cons (b p : Nat) (l : List (Nat × Nat)) : psum ((b, p) :: l) = p + psum l := by
  simp [psum]

theorem wsum_le : ∀ (l : List (Nat × Nat)) (s : Nat), wsum l s ≤ psum l
  | [], s => by simp [wsum, psum]
  | (b, p) :: l, s => by
    rw [wsum_cons, psum_cons]
    have := wsum_le l s
    split <;> omega

theorem div_le_iff {r P M : Nat} (hP : 0 < P) : r / P ≤ M ↔ r < P * (M + 1) := by
  rw [← Nat.lt_succ_iff, Nat.div_lt_iff_lt_mul hP, Nat.mul_comm]

theorem pick_hit {f : File} {off r M b p P : Nat} {l : List (Nat × Nat)} {prev : Nat}
    (hp : p ≠ 0) (hf : fits f off b = true) (h : r < (P + p) * (M / 100 + 1)) :
    splitPick f off r M ((b, p) :: l) prev P = b := by
  unfold splitPick
  rw [if_neg hp]
  simp only
  rw [if_pos ⟨(div_le_iff (by omega)).2 h, hf⟩]

theorem pick_miss {f : File} {off r M b p P : Nat} {l : List (Nat × Nat)} {prev : Nat}
    (hp : p ≠ 0) (h : (P + p) * (M / 100 + 1) ≤ r) :
    splitPick f off r M ((b, p) :: l) prev P = splitPick f off r M l b (P + p) := by
  rw [splitPick]
  rw [if_neg hp]
  simp only
  rw [if_neg (fun h' => by have := (div_le_iff (by omega)).1 h'.1; omega)]

/-- Numbers in `[a, b)` for which the split gives `s`. -/
def num (f : File) (off M : Nat) (l : List (Nat × Nat)) (prev P s a b : Nat) : Nat :=
  ((Finset.Ico a b).filter fun r => splitPick f off r M l prev P = s).card

theorem num_le (f : File) (off M : Nat) (l : List (Nat × Nat)) (prev P s a b : Nat) :
    num f off M l prev P s a b ≤ b - a := by
  unfold num
  exact Nat.le_trans (Finset.card_filter_le _ _) (by simp)

theorem num_split (f : File) (off M : Nat) (l : List (Nat × Nat)) (prev P s : Nat) {a b c : Nat}
    (h1 : a ≤ b) (h2 : b ≤ c) :
    num f off M l prev P s a c = num f off M l prev P s a b + num f off M l prev P s b c := by
  unfold num
  rw [← Finset.Ico_union_Ico_eq_Ico h1 h2, Finset.filter_union, Finset.card_union_of_disjoint]
  exact Finset.disjoint_filter_filter (Finset.Ico_disjoint_Ico_consecutive a b c)

theorem num_const {f : File} {off M : Nat} {l : List (Nat × Nat)} {prev P s a b v : Nat}
    (h : ∀ r, a ≤ r → r < b → splitPick f off r M l prev P = v) :
    num f off M l prev P s a b = if v = s then b - a else 0 := by
  unfold num
  have : (Finset.Ico a b).filter (fun r => splitPick f off r M l prev P = s) =
      (Finset.Ico a b).filter (fun _ => v = s) := by
    apply Finset.filter_congr
    intro r hr
    rw [Finset.mem_Ico] at hr
    rw [h r hr.1 hr.2]
  rw [this]
  split
  · rename_i h; simp [h]
  · rename_i h; simp [h]

theorem num_congr {f : File} {off M : Nat} {l m : List (Nat × Nat)} {prev P prev' P' s a b : Nat}
    (h : ∀ r, a ≤ r → r < b → splitPick f off r M l prev P = splitPick f off r M m prev' P') :
    num f off M l prev P s a b = num f off M m prev' P' s a b := by
  unfold num
  congr 1
  apply Finset.filter_congr
  intro r hr
  rw [Finset.mem_Ico] at hr
  rw [h r hr.1 hr.2]

theorem num_bounds {f : File} {off M N s : Nat} (hN1 : N ≤ 100 * (M / 100 + 1))
    (hN2 : 100 * (M / 100 + 1) ≤ N + 84) (hK : 84 < M / 100 + 1) :
    ∀ (l : List (Nat × Nat)) (prev P : Nat), (∀ x ∈ l, fits f off x.1 = true) → P + psum l ≤ 100 →
    wsum l s * (M / 100 + 1) ≤ num f off M l prev P s (P * (M / 100 + 1)) N + 84 ∧
    num f off M l prev P s (P * (M / 100 + 1)) N ≤ (wsum l s + (100 - P - psum l)) * (M / 100 + 1)
  | [], prev, P, _, hP => by
    refine ⟨by simp [wsum], ?_⟩
    have h1 := num_le f off M [] prev P s (P * (M / 100 + 1)) N
    have : (wsum [] s + (100 - P - psum [])) = 100 - P := by simp [wsum, psum]
    rw [this, Nat.sub_mul]
    omega
  | (b, p) :: l, prev, P, hf, hP => by
    rw [psum_cons] at hP ⊢
    rw [wsum_cons]
    by_cases hp : p = 0
    · subst hp
      have := num_bounds (s := s) hN1 hN2 hK l prev P (fun x hx => hf x (List.mem_cons_of_mem _ hx)) (by omega)
      have e : num f off M ((b, 0) :: l) prev P s (P * (M / 100 + 1)) N =
          num f off M l prev P s (P * (M / 100 + 1)) N :=
        num_congr fun r _ _ => by rw [splitPick, if_pos rfl]
      rw [e]
      simpa using this
    have ih := num_bounds (s := s) hN1 hN2 hK l b (P + p) (fun x hx => hf x (List.mem_cons_of_mem _ hx)) (by omega)
    have hb := hf (b, p) List.mem_cons_self
    simp only at hb
    generalize hKe : M / 100 + 1 = K at *
    have hw := wsum_le l s
    have exp : (P + p) * K = P * K + p * K := Nat.add_mul _ _ _
    by_cases hle : (P + p) * K ≤ N
    · rw [num_split _ _ _ _ _ _ _ (a := P * K) (b := (P + p) * K) (by omega) hle]
      rw [num_const (v := b) (fun r _ h2 => pick_hit hp hb (by rw [hKe]; exact h2))]
      rw [num_congr (m := l) (prev' := b) (P' := P + p) (a := (P + p) * K)
        (fun r h1 _ => pick_miss hp (by rw [hKe]; exact h1))]
      have e2 : 100 - P - (p + psum l) = 100 - (P + p) - psum l := by omega
      rw [e2]
      generalize 100 - (P + p) - psum l = R at *
      generalize num f off M l b (P + p) s ((P + p) * K) N = n at *
      split
      · simp only [Nat.add_mul] at ih ⊢
        omega
      · simp only [Nat.zero_add]; exact ih
    · have h100 : P + p = 100 := by
        apply Nat.le_antisymm (by omega)
        apply Nat.le_of_not_lt
        intro h
        have : (P + p) * K ≤ 99 * K := Nat.mul_le_mul_right _ (by omega)
        omega
      have hps : psum l = 0 := by omega
      have hws : wsum l s = 0 := by omega
      have hPK : 100 * K = P * K + p * K := by rw [← h100]; exact exp
      have hKp : K ≤ p * K := Nat.le_mul_of_pos_left _ (by omega)
      rw [num_const (v := b) (fun r _ h2 => pick_hit hp hb (by rw [hKe]; omega)), hps, hws]
      have e2 : 100 - P - (p + 0) = 0 := by omega
      rw [e2]
      split
      · simp only [Nat.add_zero]; omega
      · simp

end Fio.Split
