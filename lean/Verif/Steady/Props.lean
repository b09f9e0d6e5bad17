import Verif.Steady.Model
import Mathlib.Data.BitVec
import Mathlib.Tactic.Ring
import Mathlib.Tactic.LinearCombination
import Mathlib.Tactic.Linarith
import Mathlib.Tactic.FieldSimp
import Mathlib.Algebra.BigOperators.Intervals
import Mathlib.Algebra.BigOperators.Ring.Finset
import Mathlib.Algebra.BigOperators.GroupWithZero.Finset
import Mathlib.Tactic.Positivity
import Mathlib.Algebra.Order.BigOperators.Group.Finset
/-
C29: the steady-state sums equal the sums over the current window.
-/
namespace Fio.Steady

/-! ## Specification: sums over the window `f a, ..., f (a + n - 1)`, oldest first -/

def winY (y : Nat → U64) (a : Nat) : Nat → U64
  | 0 => 0
  | n + 1 => winY y a n + y (a + n)

def winXY (y : Nat → U64) (a : Nat) : Nat → U64
  | 0 => 0
  | n + 1 => winXY y a n + BitVec.ofNat 64 n * y (a + n)

theorem winY_shift (y : Nat → U64) (a : Nat) : ∀ n, winY y (a + 1) n + y a = winY y a n + y (a + n)
  | 0 => by simp [winY]
  | n + 1 => by
    have := winY_shift y a n
    have e : a + 1 + n = a + (n + 1) := by omega
    simp only [winY, e]
    linear_combination this

theorem winXY_shift (y : Nat → U64) (a : Nat) : ∀ n,
    winXY y (a + 1) n + winY y (a + 1) n = winXY y a n + BitVec.ofNat 64 n * y (a + n)
  | 0 => by simp [winXY, winY]
  | n + 1 => by
    have h := winXY_shift y a n
    have e : a + 1 + n = a + (n + 1) := by omega
    have e2 : BitVec.ofNat 64 (n + 1) = BitVec.ofNat 64 n + 1 := BitVec.ofNat_add n 1
    simp only [winXY, winY, e, e2]
    linear_combination h

/-! ## Invariant -/

structure Inv (m : Metric) (n : Nat) (f : Nat → Sample) (withXY : Bool) (k : Nat) (ss : SS) : Prop where
  metric : ss.metric = m
  len : ss.data.length = n
  data : ∀ i, i < k → k ≤ i + n → ss.data[i % n]? = some (f i)
  early : k < n → ss.full = false ∧ ss.head = 0 ∧ ss.tail = k ∧ ss.sumXY = 0
  late : n ≤ k → ss.full = true ∧ ss.tail = k % n ∧ ss.head = (k + 1) % n ∧
    ss.oldestY = m.sel (f (k - n)) ∧ ss.sumY = winY (m.sel ∘ f) (k - n) n ∧
    (withXY = true → ss.sumXY = winXY (m.sel ∘ f) (k - n) n)

theorem firstSums_spec {ss : SS} {n : Nat} {f : Nat → Sample} (hd : ∀ i, i < n → ss.data[i]? = some (f i))
    (hh : ss.head = 0) : ∀ (k : Nat), k ≤ n → ∀ sy sxy,
    sy = winY (ss.metric.sel ∘ f) 0 (n - k) → sxy = winXY (ss.metric.sel ∘ f) 0 (n - k) →
    firstSums ss n k sy sxy = some (winY (ss.metric.sel ∘ f) 0 n, winXY (ss.metric.sel ∘ f) 0 n)
  | 0, _, sy, sxy, h1, h2 => by simp [firstSums, h1, h2]
  | k + 1, hk, sy, sxy, h1, h2 => by
    have hi : n - (k + 1) < n := by omega
    unfold firstSums
    simp only [hh, Nat.zero_add, Nat.mod_eq_of_lt hi, SS.at?, hd _ hi, Option.map_some]
    have e : n - k = (n - (k + 1)) + 1 := by omega
    apply firstSums_spec hd hh k (by omega)
    · rw [e, winY, h1]; simp
    · rw [e, winXY, h2]; simp

theorem firstSumY_spec {ss : SS} {n : Nat} {f : Nat → Sample} (hd : ∀ i, i < n → ss.data[i]? = some (f i)) :
    ∀ (k : Nat), k ≤ n → ∀ sy, sy = winY (ss.metric.sel ∘ f) 0 (n - k) →
    firstSumY ss n k sy = some (winY (ss.metric.sel ∘ f) 0 n)
  | 0, _, sy, h1 => by simp [firstSumY, h1]
  | k + 1, hk, sy, h1 => by
    have hi : n - (k + 1) < n := by omega
    unfold firstSumY
    simp only [SS.at?, hd _ hi, Option.map_some]
    have e : n - k = (n - (k + 1)) + 1 := by omega
    apply firstSumY_spec hd k (by omega)
    · rw [e, winY, h1]; simp

/-- Two different indices of a window of `n` samples have different slots. -/
theorem slot_ne {n i k : Nat} (h1 : i < k) (h2 : k < i + n) : i % n ≠ k % n := by
  intro h
  have hn : 0 < n := by omega
  have e1 := Nat.div_add_mod i n
  have e2 := Nat.div_add_mod k n
  rw [h] at e1
  have h3 : n * (k / n) - n * (i / n) = k - i := by omega
  rw [← Nat.mul_sub] at h3
  have : n ∣ k - i := ⟨_, h3.symm⟩
  have := Nat.le_of_dvd (by omega) this
  omega

/-- The stored samples after writing sample `k` at slot `k % n`. -/
theorem data_write {ss : SS} {n k : Nat} {f : Nat → Sample} (hn : 0 < n) (hlen : ss.data.length = n)
    (hd : ∀ i, i < k → k ≤ i + n → ss.data[i % n]? = some (f i)) :
    ∀ i, i < k + 1 → k + 1 ≤ i + n → (ss.data.set (k % n) (f k))[i % n]? = some (f i) := by
  intro i h1 h2
  rw [List.getElem?_set]
  by_cases hik : i = k
  · subst hik
    rw [if_pos rfl, if_pos (by rw [hlen]; exact Nat.mod_lt _ hn)]
  · rw [if_neg (Ne.symm (slot_ne (by omega) (by omega)))]
    exact hd i (by omega) (by omega)

theorem step_slope {m : Metric} {n : Nat} {f : Nat → Sample} {k : Nat} {ss : SS} (hn : 0 < n)
    (hi : Inv m n f true k ss) (att : Bool) :
    ∃ ss' b, slope ss n (f k) att = some (ss', b) ∧ (att = false → Inv m n f true (k + 1) ss') ∧
      (n ≤ k + 1 → b = att ∧ ss'.sumY = winY (m.sel ∘ f) (k + 1 - n) n ∧
        ss'.sumXY = winXY (m.sel ∘ f) (k + 1 - n) n) ∧ (k + 1 < n → b = false) := by
  obtain ⟨hm, hlen, hdata, hearly, hlate⟩ := hi
  subst hm
  have htail : ss.tail = k % n := by
    rcases Nat.lt_or_ge k n with h | h
    · rw [(hearly h).2.2.1, Nat.mod_eq_of_lt h]
    · exact (hlate h).2.1
  have hw := data_write hn hlen hdata
  have htl : ss.tail < ss.data.length := by rw [htail, hlen]; exact Nat.mod_lt _ hn
  have hmod1 : (k % n + 1) % n = (k + 1) % n := by
    rw [Nat.add_mod (k % n) 1, Nat.mod_mod, ← Nat.add_mod]
  unfold slope
  rw [if_pos htl]
  rcases Nat.lt_or_ge k n with hk | hk
  · obtain ⟨h1, h2, h3, h4⟩ := hearly hk
    rcases Nat.lt_or_ge (k + 1) n with hk1 | hk1
    · -- buffer not yet full
      simp only [h1, h2, h3]
      rw [if_neg (by simp; omega)]
      refine ⟨_, _, rfl, fun _ => ?_, fun h => absurd h (by omega), fun _ => rfl⟩
      refine ⟨rfl, by simp [hlen], ?_, ?_, fun h => absurd h (by omega)⟩
      · have := hw; rw [Nat.mod_eq_of_lt hk] at this; exact this
      · intro _
        refine ⟨rfl, ?_, Nat.mod_eq_of_lt hk1, h4⟩
        simp only [Nat.mod_eq_of_lt hk1]
        rw [if_neg (by omega)]
    · -- first time full: k + 1 = n
      have hkn : k + 1 = n := by omega
      simp only [h1, h2, h3]
      rw [if_pos (by simp; omega)]
      have hd0 : ∀ i, i < n → (ss.data.set k (f k))[i]? = some (f i) := by
        intro i hin
        have := hw i (by omega) (by omega)
        rwa [Nat.mod_eq_of_lt hin, Nat.mod_eq_of_lt hk] at this
      have hfs := firstSums_spec (ss := { ss with full := false, head := 0, tail := k, data := ss.data.set k (f k) })
        (n := n) (f := f) hd0 rfl n (Nat.le_refl _) 0 0 (by simp [winY]) (by simp [winXY])
      simp only [h4, Bool.false_eq_true, not_false_eq_true, if_true] at hfs ⊢
      rw [hfs]
      simp only [Option.map_some, SS.at?, hd0 0 hn]
      have hz : k + 1 - n = 0 := by omega
      cases att
      · refine ⟨_, _, rfl, fun _ => ?_, fun _ => ⟨rfl, by rw [hz], by rw [hz]⟩, fun _ => rfl⟩
        refine ⟨rfl, by simp [hlen], ?_, fun h => absurd h (by omega), fun _ => ?_⟩
        · have := hw; rw [Nat.mod_eq_of_lt hk] at this; exact this
        · have ht0 : (k + 1) % n = 0 := by rw [hkn]; exact Nat.mod_self n
          dsimp only
          simp only [ht0, hz]
          rw [if_pos (Nat.le_refl _), Nat.add_mod (k+1) 1, ht0]
          simp
      · exact ⟨_, _, rfl, fun h => by simp at h, fun _ => ⟨rfl, by rw [hz], by rw [hz]⟩, fun h => absurd h (by omega)⟩
  · obtain ⟨h1, h2, h3, h4, h5, h6⟩ := hlate hk
    have h6 := h6 rfl
    simp only [h1, h2, h3]
    rw [if_pos (by simp)]
    have hslot : (k + 1) % n = (k + 1 - n) % n := by
      conv_lhs => rw [show k + 1 = (k + 1 - n) + n by omega]
      rw [Nat.add_mod_right]
    have hhead : (ss.data.set (k % n) (f k))[(k + 1) % n]? = some (f (k + 1 - n)) := by
      rw [hslot]; exact hw _ (by omega) (by omega)
    have ek : k + 1 - n = k - n + 1 := by omega
    have ek2 : k - n + n = k := by omega
    have hy := winY_shift (ss.metric.sel ∘ f) (k - n) n
    have hxy := winXY_shift (ss.metric.sel ∘ f) (k - n) n
    rw [ek2] at hy hxy
    simp only [Function.comp_apply] at hy hxy
    have sumY' : ss.sumY - ss.oldestY + ss.metric.sel (f k) = winY (ss.metric.sel ∘ f) (k - n + 1) n := by
      rw [h5, h4]; linear_combination -hy
    have sumXY' : ss.sumXY - winY (ss.metric.sel ∘ f) (k - n + 1) n + BitVec.ofNat 64 n * ss.metric.sel (f k) =
        winXY (ss.metric.sel ∘ f) (k - n + 1) n := by
      rw [h6]; linear_combination -hxy
    simp only [not_true_eq_false, if_false, SS.at?, hhead, Option.map_some, sumY', sumXY']
    cases att
    · refine ⟨_, _, rfl, fun _ => ?_, fun _ => ⟨rfl, by rw [ek], by rw [ek]⟩, fun _ => rfl⟩
      refine ⟨rfl, by simp [hlen], ?_, fun h => absurd h (by omega), fun _ => ?_⟩
      · exact hw
      · dsimp only
        simp only [hmod1, ek]
        rw [if_pos (Nat.le_refl _)]
        refine ⟨trivial, trivial, ?_, trivial, trivial, fun _ => trivial⟩
        rw [Nat.add_mod ((k + 1) % n) 1, Nat.mod_mod, ← Nat.add_mod]
    · exact ⟨_, _, rfl, fun h => by simp at h, fun _ => ⟨rfl, by rw [ek], by rw [ek]⟩, fun h => absurd h (by omega)⟩

theorem step_deviation {m : Metric} {n : Nat} {f : Nat → Sample} {k : Nat} {ss : SS} (hn : 0 < n)
    (hi : Inv m n f false k ss) (att : Bool) :
    ∃ ss' b, deviation ss n (f k) att = some (ss', b) ∧ (att = false → Inv m n f false (k + 1) ss') ∧
      (n ≤ k + 1 → b = att ∧ ss'.sumY = winY (m.sel ∘ f) (k + 1 - n) n ∧
        (∀ i < n, ss'.data[(k + 1 - n + i) % n]? = some (f (k + 1 - n + i)))) ∧ (k + 1 < n → b = false) := by
  obtain ⟨hm, hlen, hdata, hearly, hlate⟩ := hi
  subst hm
  have htail : ss.tail = k % n := by
    rcases Nat.lt_or_ge k n with h | h
    · rw [(hearly h).2.2.1, Nat.mod_eq_of_lt h]
    · exact (hlate h).2.1
  have hw := data_write hn hlen hdata
  have htl : ss.tail < ss.data.length := by rw [htail, hlen]; exact Nat.mod_lt _ hn
  have hmod1 : (k % n + 1) % n = (k + 1) % n := by
    rw [Nat.add_mod (k % n) 1, Nat.mod_mod, ← Nat.add_mod]
  unfold deviation
  rw [if_pos htl]
  rcases Nat.lt_or_ge k n with hk | hk
  · obtain ⟨h1, h2, h3, h4⟩ := hearly hk
    rcases Nat.lt_or_ge (k + 1) n with hk1 | hk1
    · simp only [h1, h2, h3]
      rw [if_neg (by simp; omega)]
      refine ⟨_, _, rfl, fun _ => ?_, fun h => absurd h (by omega), fun _ => rfl⟩
      refine ⟨rfl, by simp [hlen], ?_, ?_, fun h => absurd h (by omega)⟩
      · have := hw; rw [Nat.mod_eq_of_lt hk] at this; exact this
      · intro _
        refine ⟨rfl, ?_, Nat.mod_eq_of_lt hk1, h4⟩
        simp only [Nat.mod_eq_of_lt hk1]
        rw [if_neg (by omega)]
    · have hkn : k + 1 = n := by omega
      simp only [h1, h2, h3]
      rw [if_pos (by simp; omega)]
      have hd0 : ∀ i, i < n → (ss.data.set k (f k))[i]? = some (f i) := by
        intro i hin
        have := hw i (by omega) (by omega)
        rwa [Nat.mod_eq_of_lt hin, Nat.mod_eq_of_lt hk] at this
      have hfs := firstSumY_spec (ss := { ss with full := false, head := 0, tail := k, data := ss.data.set k (f k) })
        (n := n) (f := f) hd0 n (Nat.le_refl _) 0 (by simp [winY])
      simp only [Bool.false_eq_true, not_false_eq_true, if_true] at hfs ⊢
      rw [hfs]
      simp only [Option.map_some, SS.at?, hd0 0 hn]
      have hz : k + 1 - n = 0 := by omega
      have hdat : ∀ i < n, (ss.data.set k (f k))[(k + 1 - n + i) % n]? = some (f (k + 1 - n + i)) := by
        intro i hin
        rw [hz, Nat.zero_add, Nat.mod_eq_of_lt hin]; exact hd0 i hin
      cases att
      · refine ⟨_, _, rfl, fun _ => ?_, fun _ => ⟨rfl, by rw [hz], hdat⟩, fun _ => rfl⟩
        refine ⟨rfl, by simp [hlen], ?_, fun h => absurd h (by omega), fun _ => ?_⟩
        · have := hw; rw [Nat.mod_eq_of_lt hk] at this; exact this
        · have ht0 : (k + 1) % n = 0 := by rw [hkn]; exact Nat.mod_self n
          dsimp only
          simp only [ht0, hz]
          rw [if_pos trivial, Nat.add_mod (k+1) 1, ht0]
          simp
      · exact ⟨_, _, rfl, fun h => by simp at h, fun _ => ⟨rfl, by rw [hz], hdat⟩, fun h => absurd h (by omega)⟩
  · obtain ⟨h1, h2, h3, h4, h5, _⟩ := hlate hk
    simp only [h1, h2, h3]
    rw [if_pos (by simp)]
    have hslot : (k + 1) % n = (k + 1 - n) % n := by
      conv_lhs => rw [show k + 1 = (k + 1 - n) + n by omega]
      rw [Nat.add_mod_right]
    have hhead : (ss.data.set (k % n) (f k))[(k + 1) % n]? = some (f (k + 1 - n)) := by
      rw [hslot]; exact hw _ (by omega) (by omega)
    have htl' : (ss.data.set (k % n) (f k))[k % n]? = some (f k) := hw k (by omega) (by omega)
    have ek : k + 1 - n = k - n + 1 := by omega
    have ek2 : k - n + n = k := by omega
    have hy := winY_shift (ss.metric.sel ∘ f) (k - n) n
    rw [ek2] at hy
    simp only [Function.comp_apply] at hy
    have sumY' : ss.sumY - ss.oldestY + ss.metric.sel (f k) = winY (ss.metric.sel ∘ f) (k - n + 1) n := by
      rw [h5, h4]; linear_combination -hy
    have hdat : ∀ i < n, (ss.data.set (k % n) (f k))[(k + 1 - n + i) % n]? = some (f (k + 1 - n + i)) :=
      fun i hin => hw _ (by omega) (by omega)
    simp only [not_true_eq_false, if_false, SS.at?, hhead, htl', Option.map_some, sumY']
    cases att
    · refine ⟨_, _, rfl, fun _ => ?_, fun _ => ⟨rfl, by rw [ek], hdat⟩, fun _ => rfl⟩
      refine ⟨rfl, by simp [hlen], ?_, fun h => absurd h (by omega), fun _ => ?_⟩
      · exact hw
      · dsimp only
        simp only [hmod1, ek]
        rw [if_pos trivial]
        refine ⟨trivial, trivial, ?_, trivial, trivial, fun h => by simp at h⟩
        rw [Nat.add_mod ((k + 1) % n) 1, Nat.mod_mod, ← Nat.add_mod]
    · exact ⟨_, _, rfl, fun h => by simp at h, fun _ => ⟨rfl, by rw [ek], hdat⟩, fun h => absurd h (by omega)⟩

theorem inv_init (m : Metric) (n : Nat) (f : Nat → Sample) (b : Bool) (hn : 0 < n) : Inv m n f b 0 (init m n) where
  metric := rfl
  len := by simp [init]
  data := by intro i h; omega
  early := by intro _; simp [init]
  late := by intro h; omega

/-- **C29, slope.**  For every metric, window length and sequence of samples: no check accesses
memory outside the window buffers; before the window is full nothing is decided; from then on, at
every check, the sums the slope is computed from are those of the most recent `n` samples in time
order (modulo 2^64), whatever was decided. -/
theorem C29_slope_sums (m : Metric) (n : Nat) (hn : 0 < n) (f : Nat → Sample) (k : Nat) (att : Bool) :
    ∃ ss ss' b, run slope m n f k = some ss ∧ slope ss n (f k) att = some (ss', b) ∧
      (k + 1 < n → b = false) ∧
      (n ≤ k + 1 → b = att ∧ ss'.sumY = winY (m.sel ∘ f) (k + 1 - n) n ∧
        ss'.sumXY = winXY (m.sel ∘ f) (k + 1 - n) n) := by
  have hinv : ∀ k, ∃ ss, run slope m n f k = some ss ∧ Inv m n f true k ss := by
    intro k
    induction k with
    | zero => exact ⟨_, rfl, inv_init m n f true hn⟩
    | succ k ih =>
      obtain ⟨ss, h1, h2⟩ := ih
      obtain ⟨ss', b, h3, h4, _⟩ := step_slope hn h2 false
      refine ⟨ss', ?_, h4 rfl⟩
      unfold run
      rw [h1]
      simp only [h3, Option.map_some]
  obtain ⟨ss, h1, h2⟩ := hinv k
  obtain ⟨ss', b, h3, _, h5, h6⟩ := step_slope hn h2 att
  exact ⟨ss, ss', b, h1, h3, h6, h5⟩

/-- **C29, deviation.**  The same for the mean; and the buffers the deviation is taken over hold
exactly the samples of the window. -/
theorem C29_deviation_sums (m : Metric) (n : Nat) (hn : 0 < n) (f : Nat → Sample) (k : Nat) (att : Bool) :
    ∃ ss ss' b, run deviation m n f k = some ss ∧ deviation ss n (f k) att = some (ss', b) ∧
      (k + 1 < n → b = false) ∧
      (n ≤ k + 1 → b = att ∧ ss'.sumY = winY (m.sel ∘ f) (k + 1 - n) n ∧
        (∀ i < n, ss'.data[(k + 1 - n + i) % n]? = some (f (k + 1 - n + i)))) := by
  have hinv : ∀ k, ∃ ss, run deviation m n f k = some ss ∧ Inv m n f false k ss := by
    intro k
    induction k with
    | zero => exact ⟨_, rfl, inv_init m n f false hn⟩
    | succ k ih =>
      obtain ⟨ss, h1, h2⟩ := ih
      obtain ⟨ss', b, h3, h4, _⟩ := step_deviation hn h2 false
      refine ⟨ss', ?_, h4 rfl⟩
      unfold run
      rw [h1]
      simp only [h3, Option.map_some]
  obtain ⟨ss, h1, h2⟩ := hinv k
  obtain ⟨ss', b, h3, _, h5, h6⟩ := step_deviation hn h2 att
  exact ⟨ss, ss', b, h1, h3, h6, h5⟩

/-! ## The constants of the regression -/

theorem sum_id (n : Nat) : 2 * (∑ i ∈ Finset.range n, (i : Int)) = n * (n - 1) := by
  induction n with
  | zero => simp
  | succ n ih => rw [Finset.sum_range_succ, mul_add, ih]; push_cast; ring

theorem sum_sq (n : Nat) : 6 * (∑ i ∈ Finset.range n, (i : Int) * i) = (n - 1) * n * (2 * n - 1) := by
  induction n with
  | zero => simp
  | succ n ih => rw [Finset.sum_range_succ, mul_add, ih]; push_cast; ring

/-- **C29, constants.**  For windows of up to 1024 samples sum_x and sum_x_sq are the sums of
0..n-1 and of their squares. -/
theorem C29_constants (n : Nat) (h1 : 1 ≤ n) (h2 : n ≤ 1024) :
    sumX n = some (∑ i ∈ Finset.range n, (i : Int)) ∧
    sumXSq n = some (∑ i ∈ Finset.range n, (i : Int) * i) := by
  have e1 := sum_id n
  have e2 := sum_sq n
  have b1 : ((n : Int) - 1) * n ≤ 1023 * 1024 := by
    apply mul_le_mul <;> omega
  have b2 : ((n : Int) - 1) * n * (2 * n - 1) ≤ 1023 * 1024 * 2047 := by
    apply mul_le_mul b1 <;> omega
  have b0 : 0 ≤ ((n : Int) - 1) * n := by apply mul_nonneg <;> omega
  have b3 : 0 ≤ ((n : Int) - 1) * n * (2 * n - 1) := by apply mul_nonneg b0; omega
  have i0 : int32 ((n : Int) - 1) = some ((n : Int) - 1) := if_pos (by omega)
  have i1 : int32 ((n : Int) * (n - 1)) = some ((n : Int) * (n - 1)) := by
    rw [mul_comm]; exact if_pos (by omega)
  have i2 : int32 (((n : Int) - 1) * n) = some (((n : Int) - 1) * n) := if_pos (by omega)
  have i3 : int32 (2 * (n : Int)) = some (2 * (n : Int)) := if_pos (by omega)
  have i4 : int32 (2 * (n : Int) - 1) = some (2 * (n : Int) - 1) := if_pos (by omega)
  have i5 : int32 (((n : Int) - 1) * n * (2 * n - 1)) = some (((n : Int) - 1) * n * (2 * n - 1)) :=
    if_pos (by omega)
  constructor
  · unfold sumX
    simp only [i0, i1, Option.bind_eq_bind, Option.bind_some]
    rw [← e1, Int.mul_tdiv_cancel_left _ (by omega)]
    rw [mul_comm] at e1
    exact if_pos (by rw [mul_comm ((n:Int)) _] at e1; omega)
  · unfold sumXSq
    simp only [i0, i2, i3, i4, i5, Option.bind_eq_bind, Option.bind_some]
    rw [← e2, Int.mul_tdiv_cancel_left _ (by omega)]
    exact if_pos (by omega)

/-- From 1025 samples on (about 17 minutes at the default one check per second) the `int` product
overflows, so that the constant and with it the slope is undefined. -/
theorem C29_constants_overflow (n : Nat) (h : 1025 ≤ n) (h2 : n ≤ 2 ^ 15) : sumXSq n = none := by
  have b1 : (1024 : Int) * 1025 ≤ ((n : Int) - 1) * n := by apply mul_le_mul <;> omega
  have b2 : (1024 : Int) * 1025 * 2049 ≤ ((n : Int) - 1) * n * (2 * n - 1) := by
    apply mul_le_mul b1 <;> omega
  have b3 : ((n : Int) - 1) * n ≤ 32767 * 32768 := by apply mul_le_mul <;> omega
  have i0 : int32 ((n : Int) - 1) = some ((n : Int) - 1) := if_pos (by omega)
  have i2 : int32 (((n : Int) - 1) * n) = some (((n : Int) - 1) * n) := if_pos (by omega)
  have i3 : int32 (2 * (n : Int)) = some (2 * (n : Int)) := if_pos (by omega)
  have i4 : int32 (2 * (n : Int) - 1) = some (2 * (n : Int) - 1) := if_pos (by omega)
  have i5 : int32 (((n : Int) - 1) * n * (2 * n - 1)) = none := if_neg (by omega)
  unfold sumXSq
  simp only [i0, i2, i3, i4, i5, Option.bind_eq_bind, Option.bind_some, Option.bind_none]

/-! ## The slope formula is the least-squares slope (over exact arithmetic) -/

/-- The formula of steadystate.c:124-125. -/
def slopeFormula (n : Nat) (y : Nat → ℚ) : ℚ :=
  ((∑ i ∈ Finset.range n, (i : ℚ) * y i) -
      (∑ i ∈ Finset.range n, (i : ℚ)) * (∑ i ∈ Finset.range n, y i) / n) /
    ((∑ i ∈ Finset.range n, (i : ℚ) * i) -
      (∑ i ∈ Finset.range n, (i : ℚ)) * (∑ i ∈ Finset.range n, (i : ℚ)) / n)

theorem denom_pos (n : Nat) (hn : 2 ≤ n) :
    (∑ i ∈ Finset.range n, (i : ℚ) * i) -
      (∑ i ∈ Finset.range n, (i : ℚ)) * (∑ i ∈ Finset.range n, (i : ℚ)) / n = n * (n * n - 1) / 12 := by
  have e1 : (∑ i ∈ Finset.range n, (i : ℚ)) = n * (n - 1) / 2 := by
    have h : (2 : ℚ) * (∑ i ∈ Finset.range n, (i : ℚ)) = n * (n - 1) := by
      have := congrArg (fun z : Int => (z : ℚ)) (sum_id n)
      push_cast at this
      exact this
    linarith
  have e2 : (∑ i ∈ Finset.range n, (i : ℚ) * i) = (n - 1) * n * (2 * n - 1) / 6 := by
    have h : (6 : ℚ) * (∑ i ∈ Finset.range n, (i : ℚ) * i) = (n - 1) * n * (2 * n - 1) := by
      have := congrArg (fun z : Int => (z : ℚ)) (sum_sq n)
      push_cast at this
      exact this
    linarith
  have hn0 : (n : ℚ) ≠ 0 := by
    have : (0 : ℚ) < n := by exact_mod_cast (by omega : 0 < n)
    exact ne_of_gt this
  rw [e1, e2]
  field_simp
  ring

/-- **C29, meaning.**  The slope is that of the line minimising the sum of squared distances to the
samples of the window. -/
theorem C29_least_squares (n : Nat) (hn : 2 ≤ n) (y : Nat → ℚ) :
    ∃ c : ℚ, ∀ c' b' : ℚ,
      ∑ i ∈ Finset.range n, (y i - (c + slopeFormula n y * i)) ^ 2 ≤
      ∑ i ∈ Finset.range n, (y i - (c' + b' * i)) ^ 2 := by
  have hn0 : (0 : ℚ) < n := by exact_mod_cast (by omega : 0 < n)
  have hd := denom_pos n hn
  have hdpos : (0 : ℚ) < n * (n * n - 1) / 12 := by
    have : (2 : ℚ) ≤ n := by exact_mod_cast hn
    have : (0 : ℚ) < n * n - 1 := by nlinarith
    exact div_pos (mul_pos hn0 this) (by norm_num)
  set b := slopeFormula n y with hb
  set Sy := ∑ i ∈ Finset.range n, y i with hSy
  set Sx := ∑ i ∈ Finset.range n, (i : ℚ) with hSx
  set Sxy := ∑ i ∈ Finset.range n, (i : ℚ) * y i with hSxy
  set Sxx := ∑ i ∈ Finset.range n, (i : ℚ) * i with hSxx
  have hbd : b * (Sxx - Sx * Sx / n) = Sxy - Sx * Sy / n := by
    rw [hb]; unfold slopeFormula
    rw [← hSy, ← hSx, ← hSxy, ← hSxx]
    exact div_mul_cancel₀ _ (by rw [hd]; exact ne_of_gt hdpos)
  refine ⟨(Sy - b * Sx) / n, ?_⟩
  intro c' b'
  set c := (Sy - b * Sx) / n with hc
  have hcn : c * n = Sy - b * Sx := div_mul_cancel₀ _ (ne_of_gt hn0)
  -- residuals are orthogonal to constants and to x
  have r0 : ∑ i ∈ Finset.range n, (y i - (c + b * i)) = 0 := by
    rw [Finset.sum_sub_distrib, Finset.sum_add_distrib, ← Finset.mul_sum, Finset.sum_const, Finset.card_range,
      nsmul_eq_mul, ← hSy, ← hSx]
    linarith
  have r1 : ∑ i ∈ Finset.range n, (i : ℚ) * (y i - (c + b * i)) = 0 := by
    have : ∀ i ∈ Finset.range n, (i : ℚ) * (y i - (c + b * i)) = (i : ℚ) * y i - (c * i + b * ((i : ℚ) * i)) := by
      intro i _; ring
    rw [Finset.sum_congr rfl this, Finset.sum_sub_distrib, Finset.sum_add_distrib, ← Finset.mul_sum,
      ← Finset.mul_sum, ← hSxy, ← hSx, ← hSxx]
    have hcn' : c = (Sy - b * Sx) / n := hc
    rw [hcn']
    have : Sxy - Sx * Sy / n - b * (Sxx - Sx * Sx / n) = 0 := by linarith
    rw [← this]; field_simp; ring
  have split : ∀ i ∈ Finset.range n, (y i - (c' + b' * i)) ^ 2 =
      (y i - (c + b * i)) ^ 2 + (2 * (c - c') * (y i - (c + b * i)) +
        2 * (b - b') * ((i : ℚ) * (y i - (c + b * i)))) + ((c - c') + (b - b') * i) ^ 2 := by
    intro i _; ring
  rw [Finset.sum_congr rfl split, Finset.sum_add_distrib, Finset.sum_add_distrib, Finset.sum_add_distrib,
    ← Finset.mul_sum, ← Finset.mul_sum, r0, r1]
  have : 0 ≤ ∑ i ∈ Finset.range n, ((c - c') + (b - b') * (i : ℚ)) ^ 2 :=
    Finset.sum_nonneg (fun i _ => sq_nonneg _)
  linarith

/-- A window of 3 after 5 samples 10, 20, 40, 50, 90 of the bandwidth: the sums are those of
40, 50, 90. -/
example : ((run slope .bw 3 (fun i => ⟨0, ([10, 20, 40, 50, 90].getD i 0 : U64), 0⟩) 5).map
    fun ss => (ss.sumY, ss.sumXY)) = some (180#64, 230#64) := by decide +kernel

example : ((run deviation .iops 3 (fun i => ⟨([10, 20, 40, 50, 90].getD i 0 : U64), 0, 0⟩) 5).map
    fun ss => ss.sumY) = some 180#64 := by decide +kernel

example : sumXSq 1024 = some 357389824 ∧ sumXSq 1800 = none := by decide +kernel

end Fio.Steady
