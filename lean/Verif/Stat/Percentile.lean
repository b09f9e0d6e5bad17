import Verif.Stat.Plat
import Mathlib.Algebra.Order.Floor.Semiring
import Mathlib.Algebra.Order.Archimedean.Basic
import Mathlib.Data.List.Sort
import Mathlib.Tactic.Positivity
/-
C14: reported percentiles are order statistics.
-/
namespace Fio.Stat

/-! ## Specification -/

/-- Number of samples in buckets 0..i. -/
def cum (hist : List Nat) (i : Nat) : Nat := (hist.take (i + 1)).sum

/-- `i` is the first bucket at which the accumulated count reaches `t`. -/
def IsFirst (hist : List Nat) (t : ℚ) (i : Nat) : Prop :=
  i < hist.length ∧ t ≤ (cum hist i : ℚ) ∧ ∀ k < i, (cum hist k : ℚ) < t

/-! ## The loops -/

theorem inner_spec (ld : LongDouble) (nr i sum v : Nat) (hv : idxToVal i = some v) :
    ∀ (ps : List ℚ) (acc : List Nat), ps ≠ [] → ps.Pairwise (· ≤ ·) → (∀ p ∈ ps, p ≤ 100) →
      (∀ p ∈ ps, ∀ p' ∈ ps, p ≤ p' → threshold ld p nr ≤ threshold ld p' nr) →
      ∃ n, n ≤ ps.length ∧
        inner ld nr i sum ps acc = some (ps.drop n, acc ++ List.replicate n v, decide (ps.drop n = [])) ∧
        (∀ p ∈ ps.take n, threshold ld p nr ≤ (sum : ℚ)) ∧ (∀ p ∈ ps.drop n, (sum : ℚ) < threshold ld p nr)
  | [], _, h, _, _, _ => absurd rfl h
  | p :: ps, acc, _, hs, h100, hm => by
    unfold inner
    by_cases ht : threshold ld p nr ≤ (sum : ℚ)
    · rw [if_pos ht, if_pos (h100 p (by simp)), hv]
      by_cases hps : ps = []
      · subst hps
        exact ⟨1, by simp, by simp, by simpa using ht, by simp⟩
      · simp only [if_neg hps]
        obtain ⟨n, h1, h2, h3, h4⟩ := inner_spec ld nr i sum v hv ps (acc ++ [v]) hps
          (List.Pairwise.of_cons hs) (fun q hq => h100 q (by simp [hq]))
          (fun q hq q' hq' => hm q (by simp [hq]) q' (by simp [hq']))
        refine ⟨n + 1, by simpa using h1, ?_, ?_, ?_⟩
        · rw [h2]; simp [List.replicate_succ]
        · intro q hq
          simp only [List.take_succ_cons, List.mem_cons] at hq
          rcases hq with rfl | hq
          · exact ht
          · exact h3 q hq
        · intro q hq; simp only [List.drop_succ_cons] at hq; exact h4 q hq
    · rw [if_neg ht]
      refine ⟨0, by simp, by simp, by simp, ?_⟩
      intro q hq
      have hq : q ∈ p :: ps := by simpa using hq
      have hpq : p ≤ q := by
        rcases List.mem_cons.1 hq with rfl | hq'
        · exact le_refl _
        · exact (List.pairwise_cons.1 hs).1 q hq'
      exact lt_of_lt_of_le (not_le.1 ht) (hm p (by simp) q hq hpq)

theorem sum_take_le (l : List Nat) (n : Nat) : (l.take n).sum ≤ l.sum := by
  conv_rhs => rw [← List.take_append_drop n l, List.sum_append]
  omega

theorem outer_spec (ld : LongDouble) (nr : Nat) (hist : List Nat) (hlen : hist.length = platNr)
    (hsum : hist.sum < 2 ^ 64) :
    ∀ (hs pre : List Nat) (ps : List ℚ) (acc : List Nat), hist = pre ++ hs → ps ≠ [] →
      ps.Pairwise (· ≤ ·) → (∀ p ∈ ps, p ≤ 100) → (∀ p ∈ ps, threshold ld p nr ≤ (hist.sum : ℚ)) →
      (∀ p ∈ ps, ∀ p' ∈ ps, p ≤ p' → threshold ld p nr ≤ threshold ld p' nr) →
      (∀ p ∈ ps, ∀ k < pre.length, (cum hist k : ℚ) < threshold ld p nr) →
      ∃ vals, outer ld nr hs pre.length pre.sum ps acc = some (acc ++ vals) ∧
        List.Forall₂ (fun p v => ∃ i, IsFirst hist (threshold ld p nr) i ∧ idxToVal i = some v) ps vals
  | [], pre, ps, acc, hh, hne, _, _, htot, _, hlow => by
    exfalso
    obtain ⟨p, hp⟩ := List.exists_mem_of_ne_nil ps hne
    have h1 := htot p hp
    have hpl : pre.length = platNr := by rw [← hlen, hh]; simp
    have h2 := hlow p hp (pre.length - 1) (by rw [hpl]; decide)
    have : cum hist (pre.length - 1) = hist.sum := by
      unfold cum
      rw [List.take_of_length_le]
      rw [hlen, hpl]; decide
    rw [this] at h2
    linarith
  | h :: hs, pre, ps, acc, hh, hne, hsort, h100, htot, hm, hlow => by
    have hi : pre.length < platNr := by rw [← hlen, hh]; simp
    obtain ⟨v, hv, _, _⟩ := C13_representatives pre.length hi
    have hcum : (pre.sum + h) % 2 ^ 64 = cum hist pre.length := by
      have : cum hist pre.length = pre.sum + h := by
        unfold cum; rw [hh]
        rw [List.take_append, List.take_of_length_le (by omega)]
        simp
      rw [this]
      apply Nat.mod_eq_of_lt
      rw [← this]
      exact Nat.lt_of_le_of_lt (sum_take_le _ _) hsum
    have hcum' : cum hist pre.length = (pre ++ [h]).sum := by
      unfold cum; rw [hh]
      rw [List.take_append, List.take_of_length_le (by omega)]
      simp
    obtain ⟨n, hn, hin, h3, h4⟩ := inner_spec ld nr pre.length (cum hist pre.length) v hv ps acc hne hsort h100 hm
    unfold outer
    simp only [hcum, hin]
    have hfirst : List.Forall₂ (fun p v => ∃ i, IsFirst hist (threshold ld p nr) i ∧ idxToVal i = some v)
        (ps.take n) (List.replicate n v) := by
      have hlenn : (ps.take n).length = n := by simp [hn]
      rw [List.forall₂_iff_get]
      refine ⟨by simp [hn], ?_⟩
      intro j hj1 hj2
      refine ⟨pre.length, ⟨?_, ?_, ?_⟩, ?_⟩
      · rw [hlen]; exact hi
      · exact h3 _ (List.get_mem _ _)
      · exact hlow _ (List.mem_of_mem_take (List.get_mem _ _))
      · simpa using hv
    by_cases hlast : ps.drop n = []
    · simp only [hlast, decide_true, if_true]
      refine ⟨List.replicate n v, rfl, ?_⟩
      have : ps.take n = ps := by
        have := List.take_append_drop n ps
        rw [hlast, List.append_nil] at this; exact this
      rw [this] at hfirst; exact hfirst
    · simp only [hlast, decide_false, Bool.false_eq_true, if_false]
      have hsub : ∀ p ∈ ps.drop n, p ∈ ps := fun p hp => List.mem_of_mem_drop hp
      obtain ⟨vals, hv1, hv2⟩ := outer_spec ld nr hist hlen hsum hs (pre ++ [h]) (ps.drop n)
        (acc ++ List.replicate n v) (by simp [hh]) hlast (hsort.drop) (fun p hp => h100 p (hsub p hp))
        (fun p hp => htot p (hsub p hp)) (fun p hp p' hp' => hm p (hsub p hp) p' (hsub p' hp'))
        (by
          intro p hp k hk
          simp only [List.length_append, List.length_singleton] at hk
          rcases Nat.lt_or_ge k pre.length with h5 | h5
          · exact hlow p (hsub p hp) k h5
          · have : k = pre.length := by omega
            subst this; exact h4 p hp)
      have e1 : (pre ++ [h]).length = pre.length + 1 := by simp
      rw [e1, ← hcum'] at hv1
      refine ⟨List.replicate n v ++ vals, by rw [hv1, List.append_assoc], ?_⟩
      have := List.rel_append hfirst hv2
      dsimp only at this
      rwa [List.take_append_drop] at this

theorem threshold_mono (ld : LongDouble) (nr : Nat) {p q : ℚ} (h : p ≤ q) :
    threshold ld p nr ≤ threshold ld q nr := by
  unfold threshold
  apply ld.mono
  apply mul_le_mul_of_nonneg_right
  · apply ld.mono; linarith
  · exact_mod_cast Nat.zero_le nr

theorem threshold_100 (ld : LongDouble) (nr : Nat) (h : nr < 2 ^ 64) : threshold ld 100 nr = nr := by
  unfold threshold
  have := ld.nat 1 (by decide)
  norm_num at this ⊢
  rw [this, one_mul]
  exact ld.nat nr h

/-- The threshold the loop compares with is p percent of the samples up to long double rounding. -/
theorem C14_threshold (ld : LongDouble) (nr : Nat) (p : ℚ) (hp : 0 ≤ p) :
    p / 100 * nr * (1 - 1 / 2 ^ 64) ^ 2 ≤ threshold ld p nr ∧
    threshold ld p nr ≤ p / 100 * nr * (1 + 1 / 2 ^ 64) ^ 2 := by
  have hnr : (0 : ℚ) ≤ nr := by exact_mod_cast Nat.zero_le nr
  have h0 : (0 : ℚ) ≤ p / 100 := by positivity
  have a1 := ld.err_lo _ h0
  have a2 := ld.err_hi _ h0
  have hpos : 0 ≤ ld.rnd (p / 100) := le_trans (mul_nonneg h0 (by norm_num)) a1
  have b0 : 0 ≤ ld.rnd (p / 100) * nr := mul_nonneg hpos hnr
  have b1 := ld.err_lo _ b0
  have b2 := ld.err_hi _ b0
  unfold threshold
  constructor
  · calc p / 100 * nr * (1 - 1 / 2 ^ 64) ^ 2 = (p / 100 * (1 - 1 / 2 ^ 64)) * nr * (1 - 1 / 2 ^ 64) := by ring
      _ ≤ ld.rnd (p / 100) * nr * (1 - 1 / 2 ^ 64) := by
        apply mul_le_mul_of_nonneg_right _ (by norm_num)
        exact mul_le_mul_of_nonneg_right a1 hnr
      _ ≤ _ := b1
  · calc _ ≤ ld.rnd (p / 100) * nr * (1 + 1 / 2 ^ 64) := b2
      _ ≤ (p / 100 * (1 + 1 / 2 ^ 64)) * nr * (1 + 1 / 2 ^ 64) := by
        apply mul_le_mul_of_nonneg_right _ (by norm_num)
        exact mul_le_mul_of_nonneg_right a2 hnr
      _ = _ := by ring

theorem threshold_pos (ld : LongDouble) (nr : Nat) (p : ℚ) (hp : 0 < p) (hn : 0 < nr) : 0 < threshold ld p nr := by
  have h := (C14_threshold ld nr p (le_of_lt hp)).1
  have hnr : (0 : ℚ) < nr := by exact_mod_cast hn
  refine lt_of_lt_of_le ?_ h
  have : (0 : ℚ) < (1 - 1 / 2 ^ 64) ^ 2 := by norm_num
  positivity

theorem isFirst_mono {hist : List Nat} {t t' : ℚ} {i i' : Nat} (h : IsFirst hist t i) (h' : IsFirst hist t' i')
    (htt : t ≤ t') : i ≤ i' := by
  by_contra hc
  have := h.2.2 i' (by omega)
  have := h'.2.1
  linarith

theorem idxToVal_mono {i i' v v' : Nat} (h : idxToVal i = some v) (h' : idxToVal i' = some v') (hii : i ≤ i') :
    v ≤ v' := by
  have hb : ∀ {i v}, idxToVal i = some v → i < platNr := by
    intro i v h; unfold idxToVal at h; split at h <;> simp_all
  obtain ⟨w, h1, _, h2⟩ := C13_representatives i (hb h)
  obtain ⟨w', h1', _, h2'⟩ := C13_representatives i' (hb h')
  rw [h] at h1; rw [h'] at h1'
  injection h1 with h1; injection h1' with h1'
  subst h1; subst h1'
  by_contra hc
  have := valToIdx_mono (Nat.le_of_lt (not_le.1 hc))
  have : i = i' := by omega
  subst this
  rw [h] at h'; injection h' with h'; omega

/-! ## The histogram -/

/-- `hist` counts the samples `l` per bucket. -/
def Counts (hist : List Nat) (l : List Nat) : Prop :=
  hist.length = platNr ∧ ∀ i < platNr, hist[i]? = some ((l.map valToIdx).count i)

theorem counts_sum {hist l : List Nat} (h : Counts hist l) (i : Nat) (hi : i < platNr) :
    cum hist i = (l.map valToIdx).countP (fun k => decide (k ≤ i)) := by
  unfold cum
  induction i with
  | zero =>
    have h0 := h.2 0 hi
    obtain ⟨a, t, rfl⟩ : ∃ a t, hist = a :: t := by
      cases hist with
      | nil => simp at h0
      | cons a t => exact ⟨a, t, rfl⟩
    simp at h0
    simp only [Nat.zero_add, List.take_succ_cons, List.take_zero, List.sum_cons, List.sum_nil, Nat.add_zero, h0]
    rw [List.count]
    apply List.countP_congr
    intro x _
    simp
  | succ i ih =>
    have hlt : i + 1 < hist.length := by rw [h.1]; exact hi
    rw [List.take_add_one, List.sum_append, ih (by omega), h.2 (i + 1) hi]
    simp only [Option.toList_some, List.sum_cons, List.sum_nil, Nat.add_zero]
    generalize l.map valToIdx = m
    induction m with
    | nil => simp
    | cons x m ihm =>
      simp only [List.countP_cons, List.count_cons]
      by_cases hx : x = i + 1
      · subst hx; simp; omega
      · have : (x ≤ i + 1) ↔ (x ≤ i) := by omega
        simp [hx, this]; omega

theorem counts_total {hist l : List Nat} (h : Counts hist l) : hist.sum = l.length := by
  have h1 := counts_sum h (platNr - 1) (by decide)
  unfold cum at h1
  rw [List.take_of_length_le (by rw [h.1]; decide)] at h1
  rw [h1, List.countP_eq_length.2]
  · simp
  · intro a ha
    rw [List.mem_map] at ha
    obtain ⟨x, _, rfl⟩ := ha
    have := valToIdx_lt x
    have hp : 0 < platNr := by decide
    simp; omega

theorem addPlat_counts {hist l : List Nat} (h : Counts hist l) (x : Nat) (hl : l.length + 1 < 2 ^ 64) :
    ∃ hist', addPlat hist x = some hist' ∧ Counts hist' (l ++ [x]) := by
  have hi := valToIdx_lt x
  unfold addPlat
  simp only [if_pos hi, h.2 _ hi]
  refine ⟨_, rfl, by simp [h.1], ?_⟩
  intro i hi'
  rw [List.getElem?_set]
  have hc : (l.map valToIdx).count (valToIdx x) ≤ l.length := by
    have := List.count_le_length (a := valToIdx x) (l := l.map valToIdx); simpa using this
  by_cases hx : valToIdx x = i
  · subst hx
    rw [if_pos rfl, if_pos (by rw [h.1]; exact hi)]
    rw [Nat.mod_eq_of_lt (by omega)]
    simp
  · rw [if_neg hx, h.2 i hi']
    simp [hx]

theorem counts_init : Counts (List.replicate platNr 0) [] := by
  refine ⟨by simp, ?_⟩
  intro i hi
  rw [List.getElem?_replicate, if_pos hi]; simp

theorem record_counts (l : List Nat) (hl : l.length < 2 ^ 64) : ∃ hist, record l = some hist ∧ Counts hist l := by
  have gen : ∀ (m pre : List Nat) (h : List Nat), Counts h pre → pre.length + m.length < 2 ^ 64 →
      ∃ hist, m.foldlM addPlat h = some hist ∧ Counts hist (pre ++ m) := by
    intro m
    induction m with
    | nil => intro pre h hc _; exact ⟨h, rfl, by simpa using hc⟩
    | cons x m ih =>
      intro pre h hc hb
      simp only [List.length_cons] at hb
      obtain ⟨h', h1, h2⟩ := addPlat_counts hc x (by omega)
      obtain ⟨hist, h3, h4⟩ := ih (pre ++ [x]) h' h2 (by simp; omega)
      refine ⟨hist, ?_, by simpa using h4⟩
      rw [List.foldlM_cons, h1]; exact h3
  exact gen l [] _ counts_init (by simpa using hl)

/-- In a sorted list at least `r` elements satisfy `f · ≤ i` iff the `r`-th does. -/
theorem rank_iff (f : Nat → Nat) (hf : ∀ a b, a ≤ b → f a ≤ f b) (L : List Nat) (hs : L.Pairwise (· ≤ ·))
    (r i x : Nat) (hr : 1 ≤ r) (hx : L[r - 1]? = some x) :
    r ≤ (L.map f).countP (fun k => decide (k ≤ i)) ↔ f x ≤ i := by
  induction L generalizing r with
  | nil => simp at hx
  | cons a L ih =>
    have hs' := List.pairwise_cons.1 hs
    by_cases h1 : r = 1
    · subst h1
      simp at hx
      subst hx
      simp only [List.map_cons, List.countP_cons]
      by_cases ha : f a ≤ i
      · simp [ha]
      · have : (L.map f).countP (fun k => decide (k ≤ i)) = 0 := by
          rw [List.countP_eq_zero]
          intro k hk
          rw [List.mem_map] at hk
          obtain ⟨b, hb, rfl⟩ := hk
          have := hf a b (hs'.1 b hb)
          simp; omega
        simp [ha, this]
    · obtain ⟨r', rfl⟩ : ∃ r', r = r' + 2 := ⟨r - 2, by omega⟩
      have hx' : L[r' + 1 - 1]? = some x := by simpa using hx
      have := ih hs'.2 (r' + 1) (by omega) hx'
      simp only [List.map_cons, List.countP_cons]
      have hax : f a ≤ f x := hf a x (hs'.1 x (List.mem_of_getElem? hx'))
      by_cases ha : f a ≤ i
      · simp only [ha, decide_true, if_true]; omega
      · simp only [ha, decide_false, Bool.false_eq_true, if_false, Nat.add_zero]
        constructor
        · intro h; exact this.1 (by omega)
        · intro h; omega

theorem first_is_rank {hist l L : List Nat} (hc : Counts hist l) (hL : L.Perm l) (hs : L.Pairwise (· ≤ ·))
    {t : ℚ} (ht : 0 < t) (htl : t ≤ l.length) {i : Nat} (hi : IsFirst hist t i) :
    ∃ x, L[⌈t⌉₊ - 1]? = some x ∧ valToIdx x = i := by
  have hr1 : 1 ≤ ⌈t⌉₊ := Nat.one_le_ceil_iff.2 ht
  have hr2 : ⌈t⌉₊ ≤ L.length := by rw [hL.length_eq]; exact Nat.ceil_le.2 htl
  obtain ⟨x, hx⟩ : ∃ x, L[⌈t⌉₊ - 1]? = some x := ⟨_, List.getElem?_eq_getElem (by omega)⟩
  refine ⟨x, hx, ?_⟩
  have hcum : ∀ k < platNr, (t ≤ (cum hist k : ℚ) ↔ valToIdx x ≤ k) := by
    intro k hk
    rw [← rank_iff valToIdx (fun _ _ => valToIdx_mono) L hs ⌈t⌉₊ k x hr1 hx, ← Nat.ceil_le, counts_sum hc k hk,
      (hL.map valToIdx).countP_eq]
  have h1 := (hcum i (by rw [← hc.1]; exact hi.1)).1 hi.2.1
  by_contra hne
  have hlt : valToIdx x < i := by omega
  have h2 := hi.2.2 _ hlt
  have h3 := (hcum (valToIdx x) (valToIdx_lt x)).2 (Nat.le_refl _)
  linarith

theorem foldl_min_le (l : List Nat) (a : Nat) : l.foldl min a ≤ a ∧ ∀ v ∈ l, l.foldl min a ≤ v := by
  induction l generalizing a with
  | nil => simp
  | cons x l ih =>
    obtain ⟨h1, h2⟩ := ih (min a x)
    simp only [List.foldl_cons, List.mem_cons]
    refine ⟨by omega, ?_⟩
    rintro v (rfl | hv)
    · omega
    · exact h2 v hv

theorem le_foldl_max (l : List Nat) (a : Nat) : a ≤ l.foldl max a ∧ ∀ v ∈ l, v ≤ l.foldl max a := by
  induction l generalizing a with
  | nil => simp
  | cons x l ih =>
    obtain ⟨h1, h2⟩ := ih (max a x)
    simp only [List.foldl_cons, List.mem_cons]
    refine ⟨by omega, ?_⟩
    rintro v (rfl | hv)
    · omega
    · exact h2 v hv

theorem foldl_min_mem (l : List Nat) (a : Nat) : l.foldl min a = a ∨ l.foldl min a ∈ l := by
  induction l generalizing a with
  | nil => simp
  | cons x l ih =>
    simp only [List.foldl_cons, List.mem_cons]
    rcases ih (min a x) with h | h
    · rw [h]; rcases Nat.le_total a x with h' | h'
      · left; omega
      · right; left; omega
    · right; right; exact h

theorem foldl_max_mem (l : List Nat) (a : Nat) : l.foldl max a = a ∨ l.foldl max a ∈ l := by
  induction l generalizing a with
  | nil => simp
  | cons x l ih =>
    simp only [List.foldl_cons, List.mem_cons]
    rcases ih (max a x) with h | h
    · rw [h]; rcases Nat.le_total a x with h' | h'
      · right; left; omega
      · left; omega
    · right; right; exact h

/-- **C14.**  Record any non-empty list of samples and ask for any list of percentiles in (0, 100].
Then every requested value is stored; the value for percentile p is the representative of the first
bucket at which the accumulated count reaches the threshold for p, and this is the bucket of the
⌈threshold⌉-th smallest sample; the values are non-decreasing in p; min and max are the smallest and
largest of them. -/
theorem C14_percentiles (ld : LongDouble) (l : List Nat) (hl : l ≠ []) (hlen : l.length < 2 ^ 64)
    (plist : List ℚ) (hp : ∀ p ∈ plistUsed plist, 0 < p ∧ p ≤ 100) (hne : plistUsed plist ≠ []) :
    ∃ hist r vals, record l = some hist ∧ calcPercentiles ld hist l.length plist = some r ∧
      r.plist.Perm (plistUsed plist) ∧ r.plist.Pairwise (· ≤ ·) ∧ r.ovals = vals.map some ∧
      List.Forall₂ (fun p v =>
        (∃ i, IsFirst hist (threshold ld p l.length) i ∧ idxToVal i = some v) ∧
        (∀ L : List Nat, L.Perm l → L.Pairwise (· ≤ ·) →
          ∃ x, L[⌈threshold ld p l.length⌉₊ - 1]? = some x ∧ idxToVal (valToIdx x) = some v)) r.plist vals ∧
      vals.Pairwise (· ≤ ·) ∧
      r.minv ∈ vals ∧ r.maxv ∈ vals ∧ ∀ v ∈ vals, r.minv ≤ v ∧ v ≤ r.maxv := by
  obtain ⟨hist, hrec, hc⟩ := record_counts l hlen
  have hsum := counts_total hc
  have hlpos : 0 < l.length := List.length_pos_of_ne_nil hl
  set ps := (plistUsed plist).mergeSort (fun a b => decide (a ≤ b)) with hps
  have hperm : ps.Perm (plistUsed plist) := List.mergeSort_perm _ _
  have hsorted : ps.Pairwise (· ≤ ·) := by
    have := List.pairwise_mergeSort (le := fun (a b : ℚ) => decide (a ≤ b))
      (by intro a b c h1 h2; simp at *; exact le_trans h1 h2)
      (by intro a b; simp; exact le_total a b) (plistUsed plist)
    rw [← hps] at this
    exact this.imp (by intro a b h; simpa using h)
  have hpsne : ps ≠ [] := by
    intro h0; rw [h0] at hperm; exact hne (List.Perm.nil_eq hperm).symm
  have hpsp : ∀ p ∈ ps, 0 < p ∧ p ≤ 100 := fun p h => hp p (hperm.mem_iff.1 h)
  have hle : ∀ p ∈ ps, threshold ld p l.length ≤ (hist.sum : ℚ) := by
    intro p h
    rw [hsum, ← threshold_100 ld l.length hlen]
    exact threshold_mono ld _ (hpsp p h).2
  obtain ⟨vals, hv1, hv2⟩ := outer_spec ld l.length hist hc.1 (by rw [hsum]; exact hlen) hist [] ps [] rfl hpsne hsorted
    (fun p h => (hpsp p h).2) hle (fun p _ p' _ h => threshold_mono ld _ h) (by simp)
  simp only [List.length_nil, List.sum_nil, List.nil_append] at hv1
  have hvlen : vals.length = ps.length := hv2.length_eq.symm
  have hvne : vals ≠ [] := by
    intro h; rw [h] at hvlen; simp at hvlen
    exact hpsne (List.length_eq_zero_iff.1 hvlen.symm)
  have hvb : ∀ v ∈ vals, v < 2 ^ 34 := by
    intro v hv
    obtain ⟨j, hj, hjv⟩ := List.getElem_of_mem hv
    have := (List.forall₂_iff_get.1 hv2).2 j (by omega) hj
    obtain ⟨i, hi, hiv⟩ := this
    obtain ⟨w, h1, h2, _⟩ := C13_representatives i (by rw [← hc.1]; exact hi.1)
    simp only [List.get_eq_getElem, hjv] at hiv
    rw [hiv] at h1; injection h1 with h1; omega
  refine ⟨hist, ⟨ps, vals.map some ++ List.replicate (ps.length - vals.length) none, vals.foldl min (2 ^ 64 - 1),
    vals.foldl max 0⟩, vals, hrec, ?_, hperm, hsorted, ?_, ?_, ?_, ?_, ?_, ?_⟩
  · unfold calcPercentiles
    simp only [← hps, if_neg hpsne, hv1, Option.map_some]
  · simp [hvlen]
  · rw [List.forall₂_iff_get] at hv2 ⊢
    refine ⟨hv2.1, fun j h1 h2 => ?_⟩
    have hj := hv2.2 j h1 h2
    refine ⟨hj, fun L hL hs => ?_⟩
    obtain ⟨i, hi, hiv⟩ := hj
    have hmem := hpsp _ (List.get_mem ps ⟨j, h1⟩)
    obtain ⟨x, hx1, hx2⟩ := first_is_rank hc hL hs (threshold_pos ld l.length _ hmem.1 hlpos)
      (by have := hle _ (List.get_mem ps ⟨j, h1⟩); rwa [hsum] at this) hi
    exact ⟨x, hx1, by rw [hx2]; exact hiv⟩
  · rw [List.pairwise_iff_getElem]
    intro a b ha hb hab
    obtain ⟨i, hi, hiv⟩ := (List.forall₂_iff_get.1 hv2).2 a (by omega) ha
    obtain ⟨i', hi', hiv'⟩ := (List.forall₂_iff_get.1 hv2).2 b (by omega) hb
    have hpp := (List.pairwise_iff_getElem.1 hsorted) a b (by omega) (by omega) hab
    exact idxToVal_mono hiv hiv' (isFirst_mono hi hi' (threshold_mono ld _ hpp))
  · dsimp only
    rcases foldl_min_mem vals (2 ^ 64 - 1) with h | h
    · exfalso
      obtain ⟨v, hv⟩ := List.exists_mem_of_ne_nil _ hvne
      have := (foldl_min_le vals (2 ^ 64 - 1)).2 v hv
      have := hvb v hv
      omega
    · exact h
  · dsimp only
    rcases foldl_max_mem vals 0 with h | h
    · obtain ⟨v, hv⟩ := List.exists_mem_of_ne_nil _ hvne
      have := (le_foldl_max vals 0).2 v hv
      rw [h] at this ⊢
      have : v = 0 := by omega
      subst this; exact hv
    · exact h
  · intro v hv
    exact ⟨(foldl_min_le vals _).2 v hv, (le_foldl_max vals _).2 v hv⟩

/-- The hypotheses are met by fio's default list of percentiles, and by four samples. -/
example : plistUsed [1, 50, 99, 100, 0, 0] = [1, 50, 99, 100] ∧
    (∀ p ∈ ([1, 50, 99, 100] : List ℚ), 0 < p ∧ p ≤ 100) ∧ ([5, 900, 1000, 3000000] : List Nat) ≠ [] := by
  refine ⟨by decide +kernel, ?_, by decide⟩
  intro p hp; simp at hp; rcases hp with rfl | rfl | rfl | rfl <;> norm_num

/-! ## The sync statistics after a statistics reset -/

theorem outer_none (ld : LongDouble) (nr : Nat) (p : ℚ) (t : Nat) (ht : t < 2 ^ 64) (hthr : (t : ℚ) < threshold ld p nr) :
    ∀ (hs : List Nat) (i sum : Nat) (acc : List Nat), sum + hs.sum ≤ t → outer ld nr hs i sum [p] acc = some acc
  | [], _, _, _, _ => rfl
  | h :: hs, i, sum, acc, hle => by
    simp only [List.sum_cons] at hle
    have hm : (sum + h) % 2 ^ 64 = sum + h := Nat.mod_eq_of_lt (by omega)
    have hlt : ¬ threshold ld p nr ≤ ((sum + h : Nat) : ℚ) := by
      apply not_le.2
      refine lt_of_le_of_lt ?_ hthr
      exact_mod_cast (by omega : sum + h ≤ t)
    unfold outer
    simp only [hm]
    unfold inner
    rw [if_neg hlt]
    simp only [Bool.false_eq_true, if_false]
    exact outer_none ld nr p t ht hthr hs (i + 1) (sum + h) acc (by omega)

theorem addSample_samples (l : List Nat) (is : IoStat) (h : is.samples + l.length < 2 ^ 64) :
    (l.foldl addSample is).samples = is.samples + l.length := by
  induction l generalizing is with
  | nil => simp
  | cons x l ih =>
    simp only [List.length_cons] at h
    have e : (addSample is x).samples = is.samples + 1 := by
      show (is.samples + 1) % 2 ^ 64 = _
      exact Nat.mod_eq_of_lt (by omega)
    rw [List.foldl_cons, ih _ (by rw [e]; omega), e, List.length_cons]
    omega

theorem foldlM_sync (l pre : List Nat) (s : SyncStat) (hc : Counts s.plat pre) (hb : pre.length + l.length < 2 ^ 64) :
    ∃ p, l.foldlM addSync s = some ⟨l.foldl addSample s.stat, p⟩ ∧ Counts p (pre ++ l) := by
  induction l generalizing s pre with
  | nil => exact ⟨s.plat, rfl, by simpa using hc⟩
  | cons x l ih =>
    simp only [List.length_cons] at hb
    obtain ⟨h', h1, h2⟩ := addPlat_counts hc x (by omega)
    obtain ⟨p, h3, h4⟩ := ih (pre ++ [x]) ⟨addSample s.stat x, h'⟩ h2 (by simp; omega)
    refine ⟨p, ?_, by simpa using h4⟩
    rw [List.foldlM_cons]
    show (addSync s x >>= _) = _
    unfold addSync
    rw [h1]
    exact h3

/-- **Counterexample to C14 for sync latencies.**  Whenever syncs were recorded before the statistics
are reset at the end of the ramp time, the 100th percentile of the sync latencies reported afterwards
is uninitialised memory: reset_io_stats clears the histogram but not the sample count. -/
theorem C14_sync_counterexample (ld : LongDouble) (before after : List Nat) (hb : before ≠ [])
    (hlen : before.length + after.length < 2 ^ 64) :
    ∃ s s' r, before.foldlM addSync ⟨IoStat.reset, List.replicate platNr 0⟩ = some s ∧
      after.foldlM addSync (resetSync s) = some s' ∧
      calcPercentiles ld s'.plat s'.stat.samples [100, 0] = some r ∧ r.ovals = [none] := by
  obtain ⟨p, h1, _⟩ := foldlM_sync before [] ⟨IoStat.reset, List.replicate platNr 0⟩ counts_init (by simp; omega)
  obtain ⟨p', h2, hc'⟩ := foldlM_sync after [] (resetSync ⟨before.foldl addSample IoStat.reset, p⟩) counts_init
    (by simp; omega)
  have hbl : 0 < before.length := List.length_pos_of_ne_nil hb
  have hs : (after.foldl addSample (before.foldl addSample IoStat.reset)).samples = before.length + after.length := by
    have e : (before.foldl addSample IoStat.reset).samples = before.length := by
      rw [addSample_samples _ _ (by show 0 + before.length < _; omega)]
      show 0 + before.length = _; omega
    rw [addSample_samples _ _ (by rw [e]; exact hlen), e]
  have hused : plistUsed [100, 0] = [100] := by decide +kernel
  refine ⟨_, _, ⟨[100], [none], 2 ^ 64 - 1, 0⟩, h1, h2, ?_, rfl⟩
  have hout : outer ld (before.length + after.length) p' 0 0 [100] [] = some [] := by
    apply outer_none ld _ 100 after.length (by omega)
    · rw [threshold_100 ld _ hlen]; exact_mod_cast (by omega : after.length < before.length + after.length)
    · rw [counts_total hc']; simp
  unfold calcPercentiles
  simp only [hused, List.mergeSort_singleton, resetSync, hs, hout]
  simp

end Fio.Stat
