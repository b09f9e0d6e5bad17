import Verif.ListSort.Model
import Mathlib.Logic.Function.Basic
/-
C32: flist_sort is a stable sort.
-/
namespace Fio.ListSort

variable {α : Type}

/-- What it means to be a comparison function for sorting: total and transitive. -/
structure IsOrder (cmp : α → α → Int) : Prop where
  total : ∀ a b, cmp a b ≤ 0 ∨ cmp b a ≤ 0
  trans : ∀ a b c, cmp a b ≤ 0 → cmp b c ≤ 0 → cmp a c ≤ 0

/-- `r` is the stable sort of `s`: a permutation of it, in order, and every subsequence of `s`
that was already in order (in particular every pair of equal elements) keeps its relative
order. -/
structure StableSort (cmp : α → α → Int) (s r : List α) : Prop where
  perm : r.Perm s
  sorted : r.Pairwise fun a b => cmp a b ≤ 0
  stable : ∀ c : List α, (c.Pairwise fun a b => cmp a b ≤ 0) → c.Sublist s → c.Sublist r

theorem merge_nil (cmp : α → α → Int) (a : List α) : merge cmp a [] = a := by
  cases a <;> simp [merge]

theorem merge_perm (cmp : α → α → Int) : ∀ a b : List α, (merge cmp a b).Perm (a ++ b) := by
  intro a b
  fun_induction merge cmp a b with
  | case1 b => simp
  | case2 a h => simp
  | case3 x a y b h ih => simpa using ih
  | case4 x a y b h ih =>
    refine (List.Perm.cons y ih).trans ?_
    exact (List.perm_middle).symm

theorem merge_sorted {cmp : α → α → Int} (ho : IsOrder cmp) : ∀ a b : List α,
    (a.Pairwise fun a b => cmp a b ≤ 0) → (b.Pairwise fun a b => cmp a b ≤ 0) →
    (merge cmp a b).Pairwise fun a b => cmp a b ≤ 0 := by
  intro a b
  fun_induction merge cmp a b with
  | case1 b => intro _ h; exact h
  | case2 a h => intro h _; exact h
  | case3 x a y b h ih =>
    intro ha hb
    obtain ⟨ha1, ha2⟩ := List.pairwise_cons.1 ha
    obtain ⟨hb1, hb2⟩ := List.pairwise_cons.1 hb
    refine List.pairwise_cons.2 ⟨?_, ih ha2 hb⟩
    intro z hz
    rcases List.mem_append.1 ((merge_perm cmp a (y :: b)).mem_iff.1 hz) with hz | hz
    · exact ha1 z hz
    · rcases List.mem_cons.1 hz with rfl | hz
      · exact h
      · exact ho.trans _ _ _ h (hb1 z hz)
  | case4 x a y b h ih =>
    intro ha hb
    obtain ⟨ha1, ha2⟩ := List.pairwise_cons.1 ha
    obtain ⟨hb1, hb2⟩ := List.pairwise_cons.1 hb
    have hyx : cmp y x ≤ 0 := (ho.total y x).resolve_right h
    refine List.pairwise_cons.2 ⟨?_, ih ha hb2⟩
    intro z hz
    rcases List.mem_append.1 ((merge_perm cmp (x :: a) b).mem_iff.1 hz) with hz | hz
    · rcases List.mem_cons.1 hz with rfl | hz
      · exact hyx
      · exact ho.trans _ _ _ hyx (ha1 z hz)
    · exact hb1 z hz

theorem merge_stable {cmp : α → α → Int} (ho : IsOrder cmp) : ∀ a b : List α,
    (a.Pairwise fun a b => cmp a b ≤ 0) →
    ∀ c1 c2 : List α, c1.Sublist a → c2.Sublist b → ((c1 ++ c2).Pairwise fun a b => cmp a b ≤ 0) →
    (c1 ++ c2).Sublist (merge cmp a b) := by
  intro a b
  fun_induction merge cmp a b with
  | case1 b => intro _ c1 c2 h1 h2 _; simp only [List.sublist_nil] at h1; subst h1; simpa using h2
  | case2 a h => intro _ c1 c2 h1 h2 _; simp only [List.sublist_nil] at h2; subst h2; simpa using h1
  | case3 x a y b h ih =>
    intro ha c1 c2 h1 h2 hc
    obtain ⟨ha1, ha2⟩ := List.pairwise_cons.1 ha
    cases h1 with
    | cons _ h1 => exact List.Sublist.cons _ (ih ha2 c1 c2 h1 h2 hc)
    | cons_cons _ h1 =>
      rename_i c1
      rw [List.cons_append] at hc ⊢
      exact List.Sublist.cons_cons _ (ih ha2 c1 c2 h1 h2 (List.pairwise_cons.1 hc).2)
  | case4 x a y b h ih =>
    intro ha c1 c2 h1 h2 hc
    obtain ⟨ha1, ha2⟩ := List.pairwise_cons.1 ha
    cases h2 with
    | cons _ h2 => exact List.Sublist.cons _ (ih ha c1 c2 h1 h2 hc)
    | cons_cons _ h2 =>
      rename_i c2
      cases c1 with
      | nil => exact List.Sublist.cons_cons _ (ih ha [] c2 h1 h2 (List.pairwise_cons.1 hc).2)
      | cons z c1 =>
        exfalso
        apply h
        have hzy : cmp z y ≤ 0 := by
          rw [List.cons_append] at hc
          exact (List.pairwise_cons.1 hc).1 y (by simp)
        have hz : z ∈ x :: a := h1.subset (by simp)
        rcases List.mem_cons.1 hz with rfl | hz
        · exact hzy
        · exact ho.trans _ _ _ (ha1 z hz) hzy

theorem StableSort.merge {cmp : α → α → Int} (ho : IsOrder cmp) {s1 s2 r1 r2 : List α}
    (h1 : StableSort cmp s1 r1) (h2 : StableSort cmp s2 r2) :
    StableSort cmp (s1 ++ s2) (Fio.ListSort.merge cmp r1 r2) where
  perm := (merge_perm cmp r1 r2).trans (h1.perm.append h2.perm)
  sorted := merge_sorted ho r1 r2 h1.sorted h2.sorted
  stable := by
    intro c hc hs
    obtain ⟨c1, c2, rfl, hs1, hs2⟩ := List.sublist_append_iff.1 hs
    have hp := List.pairwise_append.1 hc
    exact merge_stable ho r1 r2 h1.sorted c1 c2 (h1.stable c1 hp.1 hs1) (h2.stable c2 hp.2.1 hs2) hc

theorem stable_nil (cmp : α → α → Int) : StableSort cmp [] [] := ⟨by simp, by simp, by simp⟩

theorem stable_single (cmp : α → α → Int) (x : α) : StableSort cmp [x] [x] :=
  ⟨by simp, by simp, fun _ _ h => h⟩

/-- The concatenation of the sources of levels `n-1, ..., 0`. -/
def cat (src : Nat → List α) : Nat → List α
  | 0 => []
  | n + 1 => src n ++ cat src n

theorem cat_congr {s1 s2 : Nat → List α} : ∀ n, (∀ i, i < n → s1 i = s2 i) → cat s1 n = cat s2 n := by
  intro n
  induction n with
  | zero => intro _; rfl
  | succ n ih => intro h; simp only [cat]; rw [h n (by omega), ih (fun i hi => h i (by omega))]

theorem cat_empty {s : Nat → List α} : ∀ n, (∀ i, i < n → s i = []) → cat s n = [] := by
  intro n
  induction n with
  | zero => intro _; rfl
  | succ n ih => intro h; simp only [cat]; rw [h n (by omega), ih (fun i hi => h i (by omega))]; rfl

theorem cat_update (src : Nat → List α) (lev : Nat) (c : List α) (h : ∀ i, i ≤ lev → src i = []) :
    ∀ n, lev < n → cat (Function.update src lev c) n = cat src n ++ c := by
  intro n
  induction n with
  | zero => intro h; omega
  | succ n ih =>
    intro hn
    by_cases hl : lev = n
    · subst hl
      have e1 : cat (Function.update src lev c) lev = [] :=
        cat_empty _ (fun i hi => by rw [Function.update_of_ne (by omega)]; exact h i (by omega))
      have e2 : cat src lev = [] := cat_empty _ (fun i hi => h i (by omega))
      simp [cat, e1, e2, h lev (by omega)]
    · rw [cat, cat, ih (by omega), Function.update_of_ne (by omega), List.append_assoc]

/-- The partial lists are stable sorts of the sources `src`. -/
structure Parts (cmp : α → α → Int) (part : List (List α)) (src : Nat → List α) : Prop where
  len : part.length = maxBits + 1
  st : ∀ i, i ≤ maxBits → ∃ p, part[i]? = some p ∧ StableSort cmp (src i) p
  top : src maxBits = []

theorem Parts.set {cmp : α → α → Int} {part src} (h : Parts cmp part src) {lev : Nat} (hl : lev < maxBits)
    {s r : List α} (hs : StableSort cmp s r) : Parts cmp (part.set lev r) (Function.update src lev s) where
  len := by rw [List.length_set]; exact h.len
  st := by
    intro i hi
    by_cases hil : i = lev
    · subst hil
      refine ⟨r, ?_, by rw [Function.update_self]; exact hs⟩
      rw [List.getElem?_set_self (by rw [h.len]; omega)]
    · obtain ⟨p, h1, h2⟩ := h.st i hi
      refine ⟨p, by rw [List.getElem?_set_ne (by omega)]; exact h1, ?_⟩
      rw [Function.update_of_ne hil]; exact h2
  top := by rw [Function.update_of_ne (by omega)]; exact h.top

theorem carry_spec {cmp : α → α → Int} (ho : IsOrder cmp) : ∀ (fuel lev : Nat) (part : List (List α))
    (src : Nat → List α) (cur csrc : List α), Parts cmp part src → StableSort cmp csrc cur →
    lev ≤ maxBits → maxBits + 1 - lev < fuel → (∀ i, i < lev → src i = []) →
    ∃ part' lev' cur' src' csrc', carry cmp part fuel lev cur = some (part', lev', cur') ∧
      Parts cmp part' src' ∧ StableSort cmp csrc' cur' ∧ lev' ≤ maxBits ∧
      (∀ i, i ≤ lev' → src' i = []) ∧ (∀ i, src i = [] → src' i = []) ∧
      (∀ j, lev ≤ j → src j = [] → lev' ≤ j) ∧
      cat src (maxBits + 1) ++ csrc = cat src' (maxBits + 1) ++ csrc' := by
  intro fuel
  induction fuel with
  | zero => intro lev part src cur csrc _ _ _ h; omega
  | succ fuel ih =>
    intro lev part src cur csrc hp hc hl hf he
    obtain ⟨p, h1, h2⟩ := hp.st lev hl
    unfold carry
    rw [h1]
    cases p with
    | nil =>
      have hsl : src lev = [] := h2.perm.symm.eq_nil
      refine ⟨part, lev, cur, src, csrc, rfl, hp, hc, hl, ?_, fun _ h => h, fun j hj _ => hj, rfl⟩
      intro i hi
      by_cases hil : i = lev
      · rw [hil]; exact hsl
      · exact he i (by omega)
    | cons x p =>
      have hsne : src lev ≠ [] := by
        intro h0; rw [h0] at h2; exact absurd h2.perm.eq_nil (by simp)
      have hlt : lev < maxBits := by
        rcases Nat.lt_or_ge lev maxBits with h | h
        · exact h
        · have : lev = maxBits := by omega
          rw [this] at hsne; exact absurd hp.top hsne
      have hp' := hp.set hlt (stable_nil cmp)
      have he' : ∀ i, i < lev + 1 → Function.update src lev [] i = [] := by
        intro i hi
        by_cases hil : i = lev
        · rw [hil, Function.update_self]
        · rw [Function.update_of_ne hil]; exact he i (by omega)
      obtain ⟨part', lev', cur', src', csrc', g1, g2, g3, g4, g5, g6, g7, g8⟩ :=
        ih (lev + 1) (part.set lev []) (Function.update src lev []) (merge cmp (x :: p) cur)
          (src lev ++ csrc) hp' (h2.merge ho hc) (by omega) (by omega) he'
      refine ⟨part', lev', cur', src', csrc', g1, g2, g3, g4, g5, ?_, ?_, ?_⟩
      · intro i hi
        apply g6
        by_cases hil : i = lev
        · rw [hil, Function.update_self]
        · rw [Function.update_of_ne hil]; exact hi
      · intro j hj hs
        have hjl : j ≠ lev := by intro h; rw [h] at hs; exact hsne hs
        exact g7 j (by omega) (by rw [Function.update_of_ne hjl]; exact hs)
      · rw [← g8, ← List.append_assoc]
        congr 1
        rw [← cat_update (Function.update src lev []) lev (src lev) (fun i hi => he' i (by omega)) _ (by omega)]
        simp

theorem mainLoop_spec {cmp : α → α → Int} (ho : IsOrder cmp) : ∀ (l : List α) (part : List (List α))
    (src : Nat → List α) (maxLev : Nat), Parts cmp part src → maxLev < maxBits →
    (∀ i, maxLev < i → i ≤ maxBits → src i = []) →
    ∃ part' src' maxLev', mainLoop cmp l part maxLev = some (part', maxLev') ∧ Parts cmp part' src' ∧
      maxLev' < maxBits ∧ (∀ i, maxLev' < i → i ≤ maxBits → src' i = []) ∧
      cat src' (maxBits + 1) = cat src (maxBits + 1) ++ l := by
  intro l
  induction l with
  | nil => intro part src maxLev h1 h2 h3; exact ⟨part, src, maxLev, rfl, h1, h2, h3, by simp⟩
  | cons x l ih =>
    intro part src maxLev h1 h2 h3
    obtain ⟨part1, lev1, cur1, src1, csrc1, g1, g2, g3, g4, g5, g6, g7, g8⟩ :=
      carry_spec ho (maxBits + 2) 0 part src [x] [x] h1 (stable_single cmp x) (by omega) (by omega)
        (by intro i hi; omega)
    have hl1 : lev1 ≤ maxLev + 1 := g7 (maxLev + 1) (by omega) (h3 _ (by omega) (by omega))
    unfold mainLoop
    rw [g1]
    simp only
    generalize hlev' : (if lev1 > maxLev ∧ lev1 ≥ maxBits then lev1 - 1 else lev1) = lev'
    have hb : lev' ≤ lev1 ∧ lev' < maxBits := by split at hlev' <;> omega
    rw [if_pos (by rw [g2.len]; omega)]
    have hcat : cat (Function.update src1 lev' csrc1) (maxBits + 1) = cat src1 (maxBits + 1) ++ csrc1 :=
      cat_update src1 lev' csrc1 (fun i hi => g5 i (by omega)) _ (by omega)
    obtain ⟨part', src', maxLev', e1, e2, e3, e4, e5⟩ := ih (part1.set lev' cur1)
      (Function.update src1 lev' csrc1) (if lev1 > maxLev then lev' else maxLev) (g2.set hb.2 g3)
      (by split <;> omega) (by
        intro i hi1 hi2
        by_cases hc : lev1 > maxLev
        · rw [if_pos hc] at hi1
          rw [Function.update_of_ne (by omega)]
          by_cases hi3 : i ≤ lev1
          · exact g5 i hi3
          · exact g6 i (h3 i (by omega) hi2)
        · rw [if_neg hc] at hi1
          rw [Function.update_of_ne (by omega)]
          exact g6 i (h3 i hi1 hi2))
    refine ⟨part', src', maxLev', e1, e2, e3, e4, ?_⟩
    rw [e5, hcat, ← g8]
    simp

/-- The sources of levels `lev+k-1, ..., lev`. -/
def seg (src : Nat → List α) : (lev k : Nat) → List α
  | _, 0 => []
  | lev, k + 1 => seg src (lev + 1) k ++ src lev

theorem seg_succ (src : Nat → List α) : ∀ k lev, seg src lev (k + 1) = src (lev + k) ++ seg src lev k := by
  intro k
  induction k with
  | zero => intro lev; simp [seg]
  | succ k ih =>
    intro lev
    rw [seg, ih (lev + 1), List.append_assoc]
    congr 1
    congr 1; omega

theorem seg_cat (src : Nat → List α) : ∀ k, seg src 0 k = cat src k := by
  intro k
  induction k with
  | zero => rfl
  | succ k ih => rw [seg_succ, ih, cat, Nat.zero_add]

theorem finish_spec {cmp : α → α → Int} (ho : IsOrder cmp) {part src} (hp : Parts cmp part src) :
    ∀ (k lev : Nat) (list lsrc : List α), lev + k ≤ maxBits + 1 → StableSort cmp lsrc list →
    StableSort cmp (seg src lev k ++ lsrc) (finish cmp part k lev list) := by
  intro k
  induction k with
  | zero => intro lev list lsrc _ h; simpa [finish, seg] using h
  | succ k ih =>
    intro lev list lsrc hk h
    obtain ⟨p, h1, h2⟩ := hp.st lev (by omega)
    unfold finish
    rw [h1, seg, List.append_assoc]
    cases p with
    | nil =>
      have hsl : src lev = [] := h2.perm.symm.eq_nil
      rw [hsl]
      exact ih (lev + 1) list lsrc (by omega) h
    | cons x p => exact ih (lev + 1) _ _ (by omega) (h2.merge ho h)

theorem cat_trim (src : Nat → List α) (m : Nat) : ∀ n, m ≤ n → (∀ i, m ≤ i → i < n → src i = []) →
    cat src n = cat src m := by
  intro n
  induction n with
  | zero => intro h _; have : m = 0 := by omega
            rw [this]
  | succ n ih =>
    intro h he
    by_cases hm : m = n + 1
    · rw [hm]
    · rw [cat, he n (by omega) (by omega), ih (by omega) (fun i h1 h2 => he i h1 (by omega))]; rfl

/-- **C32.** For every total and transitive comparison function and every list, of whatever
length, `flist_sort` stays inside its table of partial lists, and its result is the stable sort of
the input. -/
theorem C32_flist_sort {cmp : α → α → Int} (ho : IsOrder cmp) (l : List α) :
    ∃ r, flistSort cmp l = some r ∧ StableSort cmp l r := by
  unfold flistSort
  cases l with
  | nil => exact ⟨[], rfl, stable_nil cmp⟩
  | cons x l =>
    have h0 : Parts cmp (List.replicate (maxBits + 1) []) (fun _ => []) := by
      refine ⟨by simp, ?_, rfl⟩
      intro i hi
      exact ⟨[], by rw [List.getElem?_replicate, if_pos (by omega)], stable_nil cmp⟩
    obtain ⟨part, src, maxLev, e1, e2, e3, e4, e5⟩ := mainLoop_spec ho (x :: l) _ _ 0 h0
      (by decide) (fun _ _ _ => rfl)
    simp only [e1]
    obtain ⟨a, h1, h2⟩ := e2.st maxLev (by omega)
    have hf := finish_spec ho e2 maxLev 0 [] [] (by omega) (stable_nil cmp)
    rw [List.append_nil, seg_cat] at hf
    have hm := h2.merge ho hf
    have hsrc : src maxLev ++ cat src maxLev = x :: l := by
      rw [← cat, ← cat_trim src (maxLev + 1) (maxBits + 1) (by omega) (fun i hi1 hi2 => e4 i hi1 (by omega)), e5,
        cat_empty _ (fun _ _ => rfl)]
      rfl
    rw [hsrc] at hm
    simp only [h1]
    cases hr : merge cmp a (finish cmp part maxLev 0 []) with
    | nil =>
      rw [hr] at hm
      exact absurd hm.perm.symm.eq_nil (by simp)
    | cons y r => rw [hr] at hm; exact ⟨y :: r, rfl, hm⟩

/-- In particular two equal elements keep their order. -/
theorem C32_equal_elements_keep_order {cmp : α → α → Int} (ho : IsOrder cmp) (l : List α) (a b : α)
    (hab : cmp a b = 0) (h : [a, b].Sublist l) :
    ∃ r, flistSort cmp l = some r ∧ [a, b].Sublist r := by
  obtain ⟨r, h1, h2⟩ := C32_flist_sort ho l
  exact ⟨r, h1, h2.stable _ (by simp [hab]) h⟩

/-- The comparison of first components is such an order, and a run shows stability. -/
example : IsOrder (fun a b : Nat × Nat => (a.1 : Int) - b.1) ∧
    flistSort (fun a b : Nat × Nat => (a.1 : Int) - b.1) [(3, 0), (1, 0), (3, 1), (2, 0), (1, 1)] =
      some [(1, 0), (1, 1), (2, 0), (3, 0), (3, 1)] := by
  refine ⟨⟨by intro a b; omega, by intro a b c; omega⟩, ?_⟩
  simp [flistSort, mainLoop, carry, merge, finish, maxBits]

end Fio.ListSort
