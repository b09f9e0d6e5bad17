import Verif.ZDist.Spec
import Verif.IoGen.Props
namespace Fio.ZDist

theorem fillIdx_ok (x : Idx) : ∀ (n j : Nat) (t : List (Option Idx)), j + n ≤ t.length →
    ∃ t', fillIdx x n j t = some t' ∧ t'.length = t.length ∧
      ∀ k, t'[k]? = if j ≤ k ∧ k < j + n then some (some x) else t[k]?
  | 0, j, t, _ => ⟨t, rfl, rfl, fun k => by rw [if_neg (by omega)]⟩
  | n + 1, j, t, h => by
    obtain ⟨t', h1, h2, h3⟩ := fillIdx_ok x n (j + 1) (t.set j (some x)) (by simp; omega)
    refine ⟨t', ?_, by simpa using h2, fun k => ?_⟩
    · simp only [fillIdx]; rw [if_pos (by omega)]; exact h1
    · rw [h3, List.getElem?_set]
      by_cases hk : j = k
      · subst hk
        rw [if_neg (by omega), if_pos rfl, if_pos (by omega), if_pos (by omega)]
      · rw [if_neg hk]
        by_cases hc : j + 1 ≤ k ∧ k < j + 1 + n
        · rw [if_pos hc, if_pos (by omega)]
        · rw [if_neg hc, if_neg (by omega)]

theorem before_zero (f : Zone → Nat) (zs : List Zone) : before f zs 0 = 0 := by simp [before]

theorem before_cons (f : Zone → Nat) (z : Zone) (l : List Zone) (i : Nat) :
    before f (z :: l) (i + 1) = f z + before f l i := by simp [before]

theorem all_cons (f : Zone → Nat) (z : Zone) (l : List Zone) : all f (z :: l) = f z + all f l := by
  simp [all]

theorem before_le_all (f : Zone → Nat) : ∀ (zs : List Zone) (i : Nat) (z : Zone), zs[i]? = some z →
    before f zs i + f z ≤ all f zs
  | [], i, z, h => by simp at h
  | w :: l, 0, z, h => by
    obtain rfl : w = z := by simpa using h
    rw [before_zero, all_cons]; omega
  | w :: l, i + 1, z, h => by
    rw [before_cons, all_cons]
    have := before_le_all f l i z (by simpa using h)
    omega

theorem genLoop_ok : ∀ (l : List Zone) (ap sp ss : Nat) (t : List (Option Idx)),
    ap + all Zone.acc l ≤ t.length → sp + all Zone.szp l ≤ 255 → ss + all Zone.size l < 2 ^ 64 →
    ∃ t', genLoop l ap sp ss t = some t' ∧ t'.length = t.length ∧ (∀ k, k < ap → t'[k]? = t[k]?) ∧
      ∀ i z k, l[i]? = some z → ap + before Zone.acc l i ≤ k →
        k < ap + before Zone.acc l i + z.acc →
        t'[k]? = some (some ⟨sp + before Zone.szp l i + z.szp, sp + before Zone.szp l i,
          ss + before Zone.size l i + z.size, ss + before Zone.size l i⟩)
  | [], ap, sp, ss, t, _, _, _ => ⟨t, rfl, rfl, fun _ _ => rfl, fun i z k h => by simp at h⟩
  | z :: l, ap, sp, ss, t, ha, hs, hz => by
    rw [all_cons] at ha hs hz
    have e1 : (sp + z.szp) % 256 = sp + z.szp := Nat.mod_eq_of_lt (by omega)
    have e2 : sp % 256 = sp := Nat.mod_eq_of_lt (by omega)
    have e3 : (ss + z.size) % 2 ^ 64 = ss + z.size := Nat.mod_eq_of_lt (by omega)
    obtain ⟨t1, f1, f2, f3⟩ := fillIdx_ok ⟨sp + z.szp, sp, ss + z.size, ss⟩ z.acc ap t (by omega)
    obtain ⟨t', g1, g2, g3, g4⟩ := genLoop_ok l (ap + z.acc) (sp + z.szp) (ss + z.size) t1
      (by omega) (by omega) (by omega)
    refine ⟨t', ?_, by omega, ?_, ?_⟩
    · simp only [genLoop, e1, e2, e3, f1]; exact g1
    · intro k hk
      rw [g3 k (by omega), f3, if_neg (by omega)]
    · intro i y k hi h1 h2
      cases i with
      | zero =>
        obtain rfl : z = y := by simpa using hi
        rw [before_zero] at h1 h2
        rw [g3 k (by omega), f3, if_pos (by omega)]
        simp [before_zero]
      | succ i =>
        rw [before_cons] at h1 h2
        rw [g4 i y k (by simpa using hi) (by omega) (by omega)]
        simp only [before_cons]
        congr 2
        simp only [Idx.mk.injEq]
        omega

theorem selects_exists : ∀ (zs : List Zone) (v : Nat), 0 < v → v ≤ all Zone.acc zs →
    ∃ i, Selects zs v i
  | [], v, h0, h => by simp [all] at h; omega
  | z :: l, v, h0, h => by
    rw [all_cons] at h
    by_cases hv : v ≤ z.acc
    · exact ⟨0, z, rfl, by rw [before_zero]; omega, by rw [before_zero]; omega⟩
    · obtain ⟨i, y, h1, h2, h3⟩ := selects_exists l (v - z.acc) (by omega) (by omega)
      exact ⟨i + 1, y, by simpa using h1, by rw [before_cons]; omega, by rw [before_cons]; omega⟩

theorem before_mono (f : Zone → Nat) : ∀ (zs : List Zone) (i j : Nat) (z : Zone), i < j →
    zs[i]? = some z → before f zs i + f z ≤ before f zs j
  | [], i, j, z, _, h => by simp at h
  | w :: l, 0, j + 1, z, _, h => by
    obtain rfl : w = z := by simpa using h
    rw [before_zero, before_cons]; omega
  | w :: l, i + 1, j + 1, z, hij, h => by
    rw [before_cons, before_cons]
    have := before_mono f l i j z (by omega) (by simpa using h)
    omega

/-! Reading the option. -/

theorem tally_spec (f : Zone → Nat) : ∀ (l : List Zone),
    (tally f l).1 = ((l.filter fun z => f z ≠ 255).map f).sum ∧
    (tally f l).2 = (l.filter fun z => f z = 255).length
  | [] => by simp [tally]
  | z :: l => by
    obtain ⟨h1, h2⟩ := tally_spec f l
    simp only [tally]
    by_cases h : f z = 255
    · simp [h, h1, h2]
    · simp [h, h1, h2]; omega

/-- Replacing the missing values by `q`. -/
theorem fill_sum (f : Zone → Nat) (q : Nat) (g : Zone → Zone)
    (hg : ∀ z, f (g z) = if f z = 255 then q else f z) : ∀ (l : List Zone),
    all f (l.map g) = (tally f l).1 + q * (tally f l).2
  | [] => by simp [tally, all]
  | z :: l => by
    have ih := fill_sum f q g hg l
    rw [List.map_cons, all_cons, hg, ih]
    simp only [tally]
    split
    · simp [Nat.mul_add]; omega
    · simp; omega

end Fio.ZDist
