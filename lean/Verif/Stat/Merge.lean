import Verif.Stat.Model
import Mathlib.Tactic.Ring
import Mathlib.Tactic.FieldSimp
import Mathlib.Tactic.LinearCombination
import Mathlib.Algebra.BigOperators.Group.List.Basic
/-
C15: merging running statistics equals the statistics of the pooled samples.
-/
namespace Fio.Stat

/-! ## Specification: statistics of a list of samples -/

def sumQ (l : List Nat) : ℚ := (l.map (fun x : Nat => (x : ℚ))).sum
def mean (l : List Nat) : ℚ := sumQ l / l.length
/-- Sum of squared deviations from the mean. -/
def sqDev (l : List Nat) : ℚ := (l.map (fun x : Nat => ((x : ℚ) - mean l) ^ 2)).sum

/-- The statistics of a list of samples: for the empty list those of reset_io_stat. -/
def statsOf (l : List Nat) : IoStat where
  max := l.foldr Nat.max 0
  min := l.foldr Nat.min (2 ^ 64 - 1)
  samples := l.length
  mean := mean l
  S := sqDev l

/-! ## Lemmas -/

def sumSq (l : List Nat) : ℚ := (l.map (fun x : Nat => (x : ℚ) ^ 2)).sum

theorem sqDev_about (l : List Nat) (c : ℚ) :
    (l.map (fun x : Nat => ((x : ℚ) - c) ^ 2)).sum = sumSq l - 2 * c * sumQ l + l.length * c ^ 2 := by
  unfold sumSq sumQ
  induction l with
  | nil => simp
  | cons x l ih => simp only [List.map_cons, List.sum_cons, ih, List.length_cons]; push_cast; ring

theorem sqDev_eq (l : List Nat) (h : l ≠ []) : sqDev l = sumSq l - sumQ l ^ 2 / l.length := by
  have hn : (l.length : ℚ) ≠ 0 := by
    have := List.length_pos_of_ne_nil h
    exact_mod_cast (by omega : l.length ≠ 0)
  unfold sqDev
  rw [sqDev_about]
  unfold mean
  field_simp
  ring

theorem sumQ_append (a b : List Nat) : sumQ (a ++ b) = sumQ a + sumQ b := by simp [sumQ]
theorem sumSq_append (a b : List Nat) : sumSq (a ++ b) = sumSq a + sumSq b := by simp [sumSq]

theorem foldr_min_append (a b : List Nat) :
    (a ++ b).foldr Nat.min (2 ^ 64 - 1) = Nat.min (a.foldr Nat.min (2 ^ 64 - 1)) (b.foldr Nat.min (2 ^ 64 - 1)) := by
  induction a with
  | nil =>
    simp only [List.nil_append, List.foldr_nil]
    have : b.foldr Nat.min (2 ^ 64 - 1) ≤ 2 ^ 64 - 1 := by
      induction b with
      | nil => simp
      | cons x b ih => exact Nat.le_trans (Nat.min_le_right _ _) ih
    exact (Nat.min_eq_right this).symm
  | cons x a ih => simp only [List.cons_append, List.foldr_cons, ih]; exact (Nat.min_assoc _ _ _).symm

theorem foldr_max_append (a b : List Nat) :
    (a ++ b).foldr Nat.max 0 = Nat.max (a.foldr Nat.max 0) (b.foldr Nat.max 0) := by
  induction a with
  | nil => simp only [List.nil_append, List.foldr_nil]; exact (Nat.zero_max _).symm
  | cons x a ih => simp only [List.cons_append, List.foldr_cons, ih]; exact (Nat.max_assoc _ _ _).symm

theorem ext' {a b : IoStat} (h1 : a.max = b.max) (h2 : a.min = b.min) (h3 : a.samples = b.samples)
    (h4 : a.mean = b.mean) (h5 : a.S = b.S) : a = b := by
  cases a; cases b; simp_all

theorem addSample_stats (l : List Nat) (x : Nat) (hl : l.length + 1 < 2 ^ 64) (hx : x < 2 ^ 64) :
    addSample (statsOf l) x = statsOf (l ++ [x]) := by
  have hmean : (addSample (statsOf l) x).mean = mean (l ++ [x]) := by
    have e : (addSample (statsOf l) x).mean = mean l + ((x : ℚ) - mean l) / (l.length + 1) := by
      unfold addSample statsOf
      dsimp only
      split
      · rfl
      · next h => rw [not_not.1 h]; simp
    rw [e]
    unfold mean
    rw [sumQ_append]
    simp only [List.length_append, List.length_singleton]
    push_cast
    have h1 : ((l.length : ℚ) + 1) ≠ 0 := by positivity
    have hx : sumQ [x] = x := by simp [sumQ]
    rw [hx]
    rcases Nat.eq_zero_or_pos l.length with h0 | h0
    · have : l = [] := List.length_eq_zero_iff.1 h0
      subst this; simp [sumQ]
    · have h2 : (l.length : ℚ) ≠ 0 := by exact_mod_cast (by omega : l.length ≠ 0)
      field_simp
      ring
  apply ext'
  · unfold addSample statsOf
    dsimp only
    rw [foldr_max_append]
    show (if x > _ then _ else _) = max _ (max x 0)
    split <;> omega
  · unfold addSample statsOf
    dsimp only
    rw [foldr_min_append]
    show (if x < _ then _ else _) = min _ (min x (2 ^ 64 - 1))
    split <;> omega
  · show (l.length + 1) % 2 ^ 64 = _
    rw [Nat.mod_eq_of_lt hl]; simp [statsOf]
  · exact hmean
  · have e : (addSample (statsOf l) x).S = sqDev l + ((x : ℚ) - mean l) * ((x : ℚ) - mean (l ++ [x])) := by
      rw [← hmean]
      unfold addSample statsOf
      dsimp only
      split
      · rfl
      · next h => rw [not_not.1 h]; simp
    rw [e]
    show _ = sqDev (l ++ [x])
    rcases Nat.eq_zero_or_pos l.length with h0 | h0
    · have : l = [] := List.length_eq_zero_iff.1 h0
      subst this
      simp [sqDev, mean, sumQ]
    · have h2 : (l.length : ℚ) ≠ 0 := by exact_mod_cast (by omega : l.length ≠ 0)
      have h1 : ((l.length : ℚ) + 1) ≠ 0 := by positivity
      rw [sqDev_eq l (by intro h; simp [h] at h0), sqDev_eq (l ++ [x]) (by simp)]
      unfold mean
      rw [sumQ_append, sumSq_append]
      have hx : sumQ [x] = x := by simp [sumQ]
      have hx2 : sumSq [x] = x ^ 2 := by simp [sumSq]
      rw [hx, hx2]
      simp only [List.length_append, List.length_singleton]
      push_cast
      field_simp
      ring

/-- Recording samples one by one gives their statistics. -/
theorem C15_record (l : List Nat) (hl : l.length < 2 ^ 64) (hx : ∀ x ∈ l, x < 2 ^ 64) :
    l.foldl addSample IoStat.reset = statsOf l := by
  have hreset : IoStat.reset = statsOf [] := by
    apply ext' <;> simp [IoStat.reset, statsOf, mean, sqDev, sumQ]
  have gen : ∀ (m pre : List Nat), pre.length + m.length < 2 ^ 64 → (∀ x ∈ m, x < 2 ^ 64) →
      m.foldl addSample (statsOf pre) = statsOf (pre ++ m) := by
    intro m
    induction m with
    | nil => intro pre _ _; simp
    | cons x m ih =>
      intro pre h1 h2
      simp only [List.length_cons] at h1
      rw [List.foldl_cons, addSample_stats pre x (by omega) (h2 x (by simp)),
        ih (pre ++ [x]) (by simp; omega) (fun y hy => h2 y (by simp [hy]))]
      simp
  rw [hreset, gen l [] (by simpa using hl) hx]
  simp

/-- Merging the statistics of two lists of samples gives the statistics of both together, as long as
the product of the counts does not wrap. -/
theorem C15_merge (a b : List Nat) (hsum : a.length + b.length < 2 ^ 64) (hprod : a.length * b.length < 2 ^ 64) :
    sumStat (statsOf a) (statsOf b) = statsOf (a ++ b) := by
  unfold sumStat
  by_cases hb : b = []
  · subst hb; simp [statsOf]
  have hb0 : 0 < b.length := List.length_pos_of_ne_nil hb
  rw [if_neg (by show ¬ b.length = 0; omega)]
  have hmod : (a.length + b.length) % 2 ^ 64 = a.length + b.length := Nat.mod_eq_of_lt hsum
  have hmodp : (a.length * b.length) % 2 ^ 64 = a.length * b.length := Nat.mod_eq_of_lt hprod
  have hbq : (b.length : ℚ) ≠ 0 := by exact_mod_cast (by omega : b.length ≠ 0)
  by_cases ha : a = []
  · subst ha
    apply ext' <;> simp only [statsOf, List.nil_append, List.length_nil, Nat.zero_add, List.foldr_nil]
    · exact Nat.zero_max _
    · have := foldr_min_append [] b; simp only [List.nil_append, List.foldr_nil] at this; exact this.symm
    · exact Nat.mod_eq_of_lt (by simpa using hsum)
    · simp
    · simp
  have ha0 : 0 < a.length := List.length_pos_of_ne_nil ha
  have haq : (a.length : ℚ) ≠ 0 := by exact_mod_cast (by omega : a.length ≠ 0)
  have habq : (a.length : ℚ) + b.length ≠ 0 := by
    have : (0 : ℚ) < a.length := by exact_mod_cast ha0
    have : (0 : ℚ) < b.length := by exact_mod_cast hb0
    positivity
  have hd : decide ((statsOf a).samples = 0) = false := by simp [statsOf, ha]
  simp only [hd, Bool.false_eq_true, if_false]
  apply ext'
  · exact (foldr_max_append a b).symm
  · exact (foldr_min_append a b).symm
  · simp only [statsOf, hmod]; simp
  · simp only [statsOf, hmod]
    unfold mean
    rw [sumQ_append]
    simp only [List.length_append]
    push_cast
    field_simp
    ring
  · simp only [statsOf, hmod, hmodp]
    rw [sqDev_eq a ha, sqDev_eq b hb, sqDev_eq (a ++ b) (by simp [ha])]
    unfold mean
    rw [sumQ_append, sumSq_append]
    simp only [List.length_append]
    push_cast
    field_simp
    ring

/-! ## Any grouping and order -/

/-- A way of combining per-thread sample lists. -/
inductive Grouping
  | thread : List Nat → Grouping
  | merge : Grouping → Grouping → Grouping

/-- What fio computes: add_stat_sample per thread, sum_stat to combine. -/
def Grouping.compute : Grouping → IoStat
  | .thread l => l.foldl addSample IoStat.reset
  | .merge x y => sumStat x.compute y.compute

def Grouping.pooled : Grouping → List Nat
  | .thread l => l
  | .merge x y => x.pooled ++ y.pooled

theorem statsOf_perm {a b : List Nat} (h : a.Perm b) : statsOf a = statsOf b := by
  have hs : sumQ a = sumQ b := (h.map _).sum_eq
  have hm : mean a = mean b := by unfold mean; rw [hs, h.length_eq]
  apply ext'
  · simp only [statsOf]
    apply List.Perm.foldr_eq' h
    intro x _ y _ z
    show max y (max x z) = max x (max y z); omega
  · simp only [statsOf]
    apply List.Perm.foldr_eq' h
    intro x _ y _ z
    show min y (min x z) = min x (min y z); omega
  · exact h.length_eq
  · exact hm
  · simp only [statsOf]
    unfold sqDev
    rw [hm]
    exact (h.map _).sum_eq

/-- **C15.**  Combine the samples of any number of threads in any grouping: the result is the
statistics of any ordering of all samples, provided there are fewer than 2^33 of them. -/
theorem C15_merge_any_partial (g : Grouping) (l : List Nat) (hperm : g.pooled.Perm l) (hl : l.length ≤ 2 ^ 33 - 1)
    (hx : ∀ x ∈ l, x < 2 ^ 64) : g.compute = statsOf l := by
  have key : ∀ g : Grouping, g.pooled.length ≤ 2 ^ 33 - 1 → (∀ x ∈ g.pooled, x < 2 ^ 64) → g.compute = statsOf g.pooled := by
    intro g
    induction g with
    | thread l => intro h1 h2; exact C15_record l (by simp only [Grouping.pooled] at h1; omega) h2
    | merge x y ihx ihy =>
      intro h1 h2
      simp only [Grouping.pooled, List.length_append] at h1
      simp only [Grouping.pooled, List.mem_append] at h2
      have hx := ihx (by omega) (fun z hz => h2 z (Or.inl hz))
      have hy := ihy (by omega) (fun z hz => h2 z (Or.inr hz))
      simp only [Grouping.compute, Grouping.pooled, hx, hy]
      apply C15_merge _ _ (by omega)
      -- m n ≤ ((m + n) / 2)^2
      generalize x.pooled.length = m at *
      generalize y.pooled.length = n at *
      have h4 : (2 * m) * (2 * n) ≤ (m + n) * (m + n) := by
        rcases Nat.le_total m n with h | h
        · obtain ⟨d, rfl⟩ := Nat.exists_eq_add_of_le h; nlinarith
        · obtain ⟨d, rfl⟩ := Nat.exists_eq_add_of_le h; nlinarith
      have h5 : (m + n) * (m + n) ≤ (2 ^ 33 - 1) * (2 ^ 33 - 1) := Nat.mul_le_mul h1 h1
      have h6 : (2 ^ 33 - 1) * (2 ^ 33 - 1) < 4 * 2 ^ 64 := by decide
      have h7 : (2 * m) * (2 * n) = 4 * (m * n) := by ring
      omega
  rw [key g (by rw [hperm.length_eq]; exact hl) (fun x hxm => hx x (hperm.mem_iff.1 hxm))]
  exact statsOf_perm hperm

theorem overflow_aux (n : Nat) (hn : n ≠ 0) (hw : (n * n) % 2 ^ 64 = 0) :
    (sumStat (statsOf (List.replicate n 0)) (statsOf (List.replicate n 2))).S = 0 ∧
    (statsOf (List.replicate n 0 ++ List.replicate n 2)).S = 2 * n := by
  have sq : ∀ n c : Nat, sumQ (List.replicate n c) = n * c := by
    intro n c; simp [sumQ]
  have ssq : ∀ n c : Nat, sumSq (List.replicate n c) = n * (c : ℚ) ^ 2 := by
    intro n c; simp [sumSq]
  have hnq : (n : ℚ) ≠ 0 := by exact_mod_cast hn
  have dev0 : ∀ c : Nat, sqDev (List.replicate n c) = 0 := by
    intro c
    rw [sqDev_eq _ (by simp [hn]), sq, ssq]
    simp only [List.length_replicate]
    field_simp
    ring
  constructor
  · unfold sumStat statsOf
    simp only [List.length_replicate]
    rw [if_neg hn]
    simp only [hn, decide_false, Bool.false_eq_true, if_false]
    rw [dev0, dev0, hw]
    simp
  · unfold statsOf
    dsimp only
    rw [sqDev_eq _ (by simp [hn]), sumQ_append, sumSq_append, sq, sq, ssq, ssq]
    simp only [List.length_append, List.length_replicate]
    push_cast
    field_simp
    ring

/-- **C15 fails without the bound**: two threads with 2^32 samples each, one all 0 and the other all 2.
The product of the counts wraps to 0, and the merged sum of squared deviations is 0 instead of 2^33. -/
theorem C15_counterexample : ∃ a b : List Nat, a.length = 2 ^ 32 ∧ b.length = 2 ^ 32 ∧
    (sumStat (statsOf a) (statsOf b)).S = 0 ∧ (statsOf (a ++ b)).S = 2 ^ 33 := by
  obtain ⟨n, hn⟩ : ∃ n : Nat, n = 2 ^ 32 := ⟨_, rfl⟩
  obtain ⟨h1, h2⟩ := overflow_aux n (by omega) (by rw [hn]; decide)
  refine ⟨List.replicate n 0, List.replicate n 2, by rw [List.length_replicate, hn], by rw [List.length_replicate, hn], h1, ?_⟩
  rw [h2, hn]; norm_num

example : (Grouping.merge (.merge (.thread [3, 5]) (.thread [])) (.thread [10])).pooled = [3, 5, 10] := rfl
example : (Grouping.merge (.merge (.thread [3, 5]) (.thread [])) (.thread [10])).compute.mean = 6 := by
  decide +kernel

end Fio.Stat
