import Verif.LatTarget.Model
/-
C58: the search for the queue depth of a latency target.  C59: completions within completions.
-/
namespace Fio.LatTarget

/-! ## The search -/

/-- What always holds. -/
structure Inv (c : Cfg) (s : St) : Prop where
  lo : 1 ≤ s.qd
  hi : s.qd ≤ c.depth
  low : 1 ≤ s.low
  le : s.low ≤ s.qd
  top : s.qd ≤ s.high

theorem init_inv {c : Cfg} (h : 1 ≤ c.depth) : Inv c (init c) :=
  ⟨by simp [init], h, by simp [init], by simp [init], h⟩

theorem failed_inv {c s} (h : Inv c s) : Inv c (failed c s) ∧
    ((failed c s).qd < s.qd ∨ s.qd = 1 ∧ (failed c s).qd = 1 ∧ (c.all = true → (failed c s).fatal = true)) := by
  obtain ⟨h1, h2, h3, h4, h5⟩ := h
  simp only [failed]
  split
  · rename_i hq
    exact ⟨⟨h1, h2, h3, h4, h5⟩, Or.inr ⟨hq, hq, fun ha => by simp [ha]⟩⟩
  · split
    · exact ⟨⟨by simp only; omega, by simp only; omega, by simp only; omega, by simp only; omega, by simp only; omega⟩,
        Or.inl (by simp only; omega)⟩
    · exact ⟨⟨by simp only; omega, by simp only; omega, by simp only; omega, by simp only; omega, by simp only; omega⟩,
        Or.inl (by simp only; omega)⟩

theorem success_inv {c s} (h : Inv c s) : Inv c (success c s) ∧ s.qd ≤ (success c s).qd := by
  obtain ⟨h1, h2, h3, h4, h5⟩ := h
  simp only [success]
  constructor
  · constructor <;> grind
  · grind

theorem window_inv {c s m} (h : Inv c s) : Inv c (window c s m) := by
  have h' : Inv c { s with stats := s.qd :: s.stats } := ⟨h.lo, h.hi, h.low, h.le, h.top⟩
  rw [window]
  split
  · exact h
  · simp only
    split
    · exact (success_inv h').1
    · exact (failed_inv h').1

theorem fold_inv {c} : ∀ (l : List Bool) {s}, Inv c s → Inv c (l.foldl (window c) s)
  | [], _, h => h
  | _ :: l, _, h => fold_inv l (window_inv h)

/-- **C58.** The depth is at least 1 and at most iodepth, whatever the windows say. -/
theorem in_range {c : Cfg} (h : 1 ≤ c.depth) (l : List Bool) : 1 ≤ (run c l).qd ∧ (run c l).qd ≤ c.depth :=
  ⟨(fold_inv l (init_inv h)).lo, (fold_inv l (init_inv h)).hi⟩

/-- **C58.** A window that missed the target lowers the depth, or the depth is 1 already; one that met it does
not lower it. -/
theorem reacts {c : Cfg} (h : 1 ≤ c.depth) (l : List Bool) (m : Bool) (hd : (run c l).done = false)
    (hf : (run c l).fatal = false) :
    (m = true → (run c l).qd ≤ (run c (l ++ [m])).qd) ∧
    (m = false → (run c (l ++ [m])).qd < (run c l).qd ∨
      (run c l).qd = 1 ∧ (run c (l ++ [m])).qd = 1 ∧ (c.all = true → (run c (l ++ [m])).fatal = true)) := by
  have hi := fold_inv l (init_inv h)
  have h' : Inv c { run c l with stats := (run c l).qd :: (run c l).stats } := ⟨hi.lo, hi.hi, hi.low, hi.le, hi.top⟩
  have e : run c (l ++ [m]) = window c (run c l) m := by simp [run]
  rw [e, window]
  have hn : ¬ ((run c l).done || (run c l).fatal) = true := by simp [hd, hf]
  rw [if_neg hn]
  constructor
  · rintro rfl
    exact (success_inv h').2
  · rintro rfl
    exact (failed_inv h').2

/-- **C58.** fio queues no I/O beyond the depth: at the depth the queue counts as full. -/
theorem no_deeper (s : St) (free : Bool) (cur : Nat) (h : queueFull s free cur = false) : cur < s.qd := by
  simp [queueFull] at h
  omega

/-- Before the final run, with the threshold `k` below iodepth - 1. -/
structure Search (c : Cfg) (k : Nat) (s : St) : Prop where
  inv : Inv c s
  k1 : s.low ≤ k
  k2 : k < s.high
  k3 : s.high ≤ c.depth
  st : s.stable = 0
  er : s.endRun = false
  dn : s.done = false
  ft : s.fatal = false
  top : s.qd = s.high → s.high = c.depth
  one : s.high = s.low + 1 → s.qd = s.low

/-- What still is to be done. -/
def todo (s : St) : Nat :=
  3 * (s.high - s.low) + (if s.qd = s.low then 2 else if s.qd = s.high then 1 else 0)

/-- After a success. -/
theorem todo_lt {s t : St} (h1 : s.low ≤ s.qd) (h2 : s.qd < s.high) (h3 : t.high = s.high) (h4 : t.low = s.qd)
    (h5 : s.qd < t.qd) : todo t < todo s := by
  have a : todo t ≤ 3 * (s.high - s.qd) + 1 := by
    simp only [todo, h3, h4]
    split
    · omega
    · split <;> omega
  have b : todo s ≥ 3 * (s.high - s.low) + (if s.qd = s.low then 2 else 0) := by
    simp only [todo]
    split
    · omega
    · omega
  split at b <;> omega

/-- After a failure. -/
theorem todo_lt' {s t : St} (h1 : s.low < s.qd) (h2 : s.qd ≤ s.high) (h3 : t.high = s.qd) (h4 : t.low = s.low)
    (h5 : s.qd = s.high → s.low < t.qd ∧ t.qd < s.qd) : todo t < todo s := by
  by_cases hq : s.qd = s.high
  · have ⟨g1, g2⟩ := h5 hq
    have n1 : ¬ t.qd = s.low := by omega
    have n2 : ¬ t.qd = s.qd := by omega
    have n3 : ¬ s.qd = s.low := by omega
    simp only [todo, h3, h4, n1, n2, n3, if_false, if_pos hq]
    omega
  · have n3 : ¬ s.qd = s.low := by omega
    have : todo t ≤ 3 * (s.qd - s.low) + 2 := by
      simp only [todo, h3, h4]
      split
      · omega
      · split <;> omega
    have : todo s ≥ 3 * (s.high - s.low) := by simp only [todo]; omega
    omega

/-- The final run has begun at depth `k`. -/
structure Final (c : Cfg) (k : Nat) (s : St) : Prop where
  qd : s.qd = k
  hi : k ≤ c.depth
  er : s.endRun = true
  dn : s.done = false
  ft : s.fatal = false
  stats : s.stats = []
  next : (s.high = k + 1 ∧ s.high ≠ c.depth ∧ s.stable ≤ 1) ∨ (s.high = c.depth ∧ k = c.depth)

theorem search_step {c k s} (hc : c.forever = false) (hk : k + 2 ≤ c.depth) (h : Search c k s) :
    (Search c k (window c s (decide (s.qd ≤ k))) ∧ todo (window c s (decide (s.qd ≤ k))) < todo s) ∨
    Final c k (window c s (decide (s.qd ≤ k))) := by
  obtain ⟨⟨h1, h2, h3, h4, h5⟩, k1, k2, k3, st, er, dn, ft, tp, on⟩ := h
  by_cases hq : s.qd ≤ k
  · have e : window c s (decide (s.qd ≤ k)) = success c { s with stats := s.qd :: s.stats } := by
      simp [window, dn, ft, hq]
    rw [e]
    by_cases hz : s.qd + 1 = s.high
    · right
      have hne : s.high ≠ c.depth := by omega
      have hx : (s.qd + s.high) / 2 = s.qd := by omega
      have hy : ¬ s.qd > c.depth := by omega
      have e2 : success c { s with stats := s.qd :: s.stats } =
          { s with low := s.qd, stable := 1, endRun := true, stats := [] } := by
        simp only [success, hz, if_true, st, hc, er]
        simp [hne, hx, hy]
      rw [e2]
      have : s.qd = k := by omega
      exact ⟨this, by omega, rfl, dn, ft, rfl, Or.inl ⟨by simp only; omega, hne, by simp⟩⟩
    · left
      by_cases hne : s.high = c.depth
      · have hlt : s.qd < s.high := by omega
        have e2 : success c { s with stats := s.qd :: s.stats } =
            { s with low := s.qd, qd := min (s.qd * 2) c.depth, stats := s.qd :: s.stats } := by
          rw [hne] at hz
          by_cases hb : s.qd * 2 > c.depth
          · have hne2 : ¬ c.depth = s.qd := by omega
            have hm : min (s.qd * 2) c.depth = c.depth := by omega
            simp [success, hz, hne, hb, hne2, hm]
          · have hne2 : ¬ s.qd * 2 = s.qd := by omega
            have hm : min (s.qd * 2) c.depth = s.qd * 2 := by omega
            simp [success, hz, hne, hb, hne2, hm]
        rw [e2]
        refine ⟨⟨⟨?_, ?_, ?_, ?_, ?_⟩, ?_, ?_, ?_, st, er, dn, ft, ?_, ?_⟩, ?_⟩ <;> (try simp only) <;>
          (try omega)
        apply todo_lt <;> (try simp only) <;> omega
      · have hlt : s.qd < s.high := by omega
        have hx : ¬ (s.qd + s.high) / 2 = s.qd := by omega
        have hy : ¬ (s.qd + s.high) / 2 > c.depth := by omega
        have e2 : success c { s with stats := s.qd :: s.stats } =
            { s with low := s.qd, qd := (s.qd + s.high) / 2, stats := s.qd :: s.stats } := by
          simp only [success, hz, if_false, hc, er]
          simp [hne, hx, hy]
        rw [e2]
        refine ⟨⟨⟨?_, ?_, ?_, ?_, ?_⟩, ?_, ?_, ?_, st, er, dn, ft, ?_, ?_⟩, ?_⟩ <;> (try simp only) <;>
          (try omega)
        apply todo_lt <;> (try simp only) <;> omega
  · left
    have e : window c s (decide (s.qd ≤ k)) = failed c { s with stats := s.qd :: s.stats } := by
      simp [window, dn, ft, hq]
    have hn1 : ¬ s.qd = 1 := by omega
    have hnl : ¬ s.qd = s.low := by omega
    have e2 : failed c { s with stats := s.qd :: s.stats } =
        { s with high := s.qd, qd := (s.qd + s.low) / 2, stable := 0, stats := s.qd :: s.stats } := by
      simp [failed, hn1, hnl]
    rw [e, e2]
    refine ⟨⟨⟨?_, ?_, ?_, ?_, ?_⟩, ?_, ?_, ?_, rfl, er, dn, ft, ?_, ?_⟩, ?_⟩ <;> (try simp only) <;>
      (try omega)
    apply todo_lt' <;> (try simp only) <;> omega

theorem final_step {c k s} (hc : c.forever = false) (h : Final c k s) (hk : 1 ≤ k) :
    (window c s (decide (s.qd ≤ k))).done = true ∧ (window c s (decide (s.qd ≤ k))).qd = k ∧
    (window c s (decide (s.qd ≤ k))).stats = [k] ∧ (window c s (decide (s.qd ≤ k))).fatal = false := by
  obtain ⟨h1, h2, h3, h4, h5, h6, h7⟩ := h
  have e : window c s (decide (s.qd ≤ k)) = success c { s with stats := [k] } := by
    simp [window, h4, h5, h1, h6]
  rw [e]
  rcases h7 with ⟨ha, hb, hd⟩ | ⟨ha, hb⟩
  · have hx : (k + (k + 1)) / 2 = k := by omega
    have hy : ¬ k > c.depth := by omega
    have hz : ¬ s.stable + 1 ≥ 3 := by omega
    have hw : k + 1 ≠ c.depth := by omega
    simp [success, h1, ha, hz, hw, hx, hy, hc, h3, h5]
  · have hx : ¬ k + 1 = s.high := by omega
    have hy : k < k * 2 := by omega
    simp [success, h1, ha, hy, hc, h3, h5, hb.symm]

/-- From a state of the search, the end is reached. -/
theorem search_ends {c k} (hc : c.forever = false) (hk : 1 ≤ k) (hd : k + 2 ≤ c.depth) :
    ∀ t m, Search c k (steady c k m) → todo (steady c k m) ≤ t →
    ∃ n, n ≤ m + t + 2 ∧ (steady c k n).done = true ∧ (steady c k n).qd = k ∧ (steady c k n).stats = [k] ∧
      (steady c k n).fatal = false
  | t, m, h, ht => by
    rcases search_step hc hd h with ⟨h1, h2⟩ | h1
    · match t, ht with
      | 0, ht => omega
      | t + 1, ht =>
        obtain ⟨n, h3, h4⟩ := search_ends hc hk hd t (m + 1) h1 (by show todo (window c _ _) ≤ t; omega)
        exact ⟨n, by omega, h4⟩
    · exact ⟨m + 2, by omega, final_step (s := steady c k (m + 1)) hc h1 hk⟩

/-- Doubling: no window has missed the target. -/
theorem doubling {c : Cfg} (hc : c.forever = false) (hd : 1 ≤ c.depth) : ∀ t m,
    c.depth - (steady c c.depth m).qd ≤ t → 1 ≤ (steady c c.depth m).qd → (steady c c.depth m).qd ≤ c.depth →
    (steady c c.depth m).high = c.depth → ((steady c c.depth m).stable = 0 ∨ (steady c c.depth m).qd = c.depth ∧ (steady c c.depth m).stable ≤ 1) →
    (steady c c.depth m).endRun = false → (steady c c.depth m).done = false → (steady c c.depth m).fatal = false →
    ∃ n, n ≤ m + t + 2 ∧ (steady c c.depth n).done = true ∧ (steady c c.depth n).qd = c.depth ∧
      (steady c c.depth n).stats = [c.depth] ∧ (steady c c.depth n).fatal = false
  | t, m, ht, h1, h2, h3, h4, h5, h6, h7 => by
    have e : steady c c.depth (m + 1) = success c { steady c c.depth m with stats := (steady c c.depth m).qd :: (steady c c.depth m).stats } := by
      simp [steady, window, h6, h7, h2]
    by_cases hq : (steady c c.depth m).qd = c.depth
    · have hf : Final c c.depth (steady c c.depth (m + 1)) := by
        rw [e]
        have hy : c.depth * 2 > c.depth := by omega
        constructor <;> simp [success, hq, h3, hy, hc, h5, h6, h7]
      exact ⟨m + 2, by omega, final_step (s := steady c c.depth (m + 1)) hc hf hd⟩
    · generalize hs : steady c c.depth m = s at *
      have hst : s.stable = 0 := by omega
      have e2 : ∃ st, st ≤ 1 ∧ (st = 0 ∨ s.qd + 1 = c.depth) ∧ success c { s with stats := s.qd :: s.stats } =
          { s with low := s.qd, qd := min (s.qd * 2) c.depth, stable := st, stats := s.qd :: s.stats } := by
        by_cases hz : s.qd + 1 = c.depth
        · refine ⟨1, by omega, Or.inr hz, ?_⟩
          by_cases hb : s.qd * 2 > c.depth
          · have hne2 : ¬ c.depth = s.qd := by omega
            have hm : min (s.qd * 2) c.depth = c.depth := by omega
            simp [success, h3, hz, hst, hb, hne2, hm]
          · have hne2 : ¬ s.qd * 2 = s.qd := by omega
            have hm : min (s.qd * 2) c.depth = s.qd * 2 := by omega
            simp [success, h3, hz, hst, hb, hne2, hm]
        · refine ⟨0, by omega, Or.inl rfl, ?_⟩
          by_cases hb : s.qd * 2 > c.depth
          · have hne2 : ¬ c.depth = s.qd := by omega
            have hm : min (s.qd * 2) c.depth = c.depth := by omega
            simp [success, h3, hz, hst, hb, hne2, hm]
          · have hne2 : ¬ s.qd * 2 = s.qd := by omega
            have hm : min (s.qd * 2) c.depth = s.qd * 2 := by omega
            simp [success, h3, hz, hst, hb, hne2, hm]
      obtain ⟨st, hs1, hs2, e2⟩ := e2
      rw [e2] at e
      match t, ht with
      | 0, ht => omega
      | t + 1, ht =>
        obtain ⟨n, g1, g2⟩ := doubling hc hd t (m + 1) (by rw [e]; simp only; omega) (by rw [e]; simp only; omega)
          (by rw [e]; simp only; omega) (by rw [e]; exact h3) (by rw [e]; simp only; omega) (by rw [e]; exact h5)
          (by rw [e]; exact h6) (by rw [e]; exact h7)
        exact ⟨n, by omega, g2⟩

/-- **C58.** On a device that meets the target up to the depth `k`, the search ends, at the depth `k`, and the
statistics are of that depth only; it takes at most `3 * iodepth + 1` windows.  (`k = iodepth - 1`: see
`last_but_one_counterexample`.) -/
theorem finds {c : Cfg} {k : Nat} (hc : c.forever = false) (h1 : 1 ≤ k) (h2 : k ≤ c.depth) (h3 : k + 1 ≠ c.depth) :
    ∃ n, n ≤ 3 * c.depth + 1 ∧ (steady c k n).done = true ∧ (steady c k n).qd = k ∧ (steady c k n).stats = [k] ∧
      (steady c k n).fatal = false := by
  by_cases hk : k = c.depth
  · subst hk
    obtain ⟨n, g1, g2⟩ := doubling hc (by omega) (c.depth - 1) 0 (by simp [steady, init]) (by simp [steady, init])
      (by simp [steady, init]; omega) rfl (Or.inl rfl) rfl rfl rfl
    exact ⟨n, by omega, g2⟩
  · have hs : Search c k (steady c k 0) :=
      ⟨init_inv (by omega), by simpa [steady, init] using h1, by simp only [steady, init]; omega,
        by simp [steady, init], rfl, rfl, rfl, rfl, by simp [steady, init], by simp [steady, init]⟩
    obtain ⟨n, g1, g2⟩ := search_ends hc h1 (by omega) (3 * (c.depth - 1) + 2) 0 hs (by
      simp [todo, steady, init])
    exact ⟨n, by omega, g2⟩

example : (steady ⟨128, true, false⟩ 37 13).done = true ∧ (steady ⟨128, true, false⟩ 37 13).qd = 37 ∧
    (steady ⟨128, true, false⟩ 37 12).done = false := by decide +kernel

/-- If the target is met up to iodepth - 1, the search never ends: the depth alternates. -/
theorem last_but_one_counterexample {c : Cfg} (hd : 2 ≤ c.depth) (n : Nat) :
    (steady c (c.depth - 1) n).done = false ∧ (steady c (c.depth - 1) n).endRun = false := by
  have inv : ∀ n, let s := steady c (c.depth - 1) n
      s.done = false ∧ s.endRun = false ∧ s.fatal = false ∧ s.high = c.depth ∧ 1 ≤ s.qd ∧ s.qd ≤ c.depth ∧
      (s.stable = 0 ∨ s.qd = c.depth ∧ s.stable ≤ 1) ∧ 1 ≤ s.low ∧ s.low ≤ s.qd ∧ s.low < c.depth := by
    intro n
    induction n with
    | zero => simp [steady, init]; omega
    | succ n ih =>
      simp only [steady] at ih ⊢
      generalize steady c (c.depth - 1) n = s at ih ⊢
      obtain ⟨a1, a2, a3, a4, a5, a6, a7, a8, a9, a10⟩ := ih
      by_cases hq : s.qd ≤ c.depth - 1
      · have hst : s.stable = 0 := by omega
        have hne : ¬ min (s.qd * 2) c.depth = s.qd := by omega
        have hm : (if s.qd * 2 > c.depth then c.depth else s.qd * 2) = min (s.qd * 2) c.depth := by
          split <;> omega
        simp only [window, a1, a3, Bool.or_false, Bool.false_eq_true, if_false, hq, decide_true, if_true, success,
          a4, hst]
        by_cases hz : s.qd + 1 = c.depth
        · simp [hz, hm, hne, a2]; omega
        · simp [hz, hm, hne, a2]; omega
      · have h1 : ¬ s.qd = 1 := by omega
        have h2 : ¬ s.qd = s.low := by omega
        have h3 : s.qd = c.depth := by omega
        simp [window, a1, a3, hq, failed, h1, h2, a2]
        omega
  exact ⟨(inv n).1, (inv n).2.1⟩

/-- With latency_percentile below 100 a job that cannot meet the target even at depth 1 never gives up. -/
theorem give_up_counterexample (d : Nat) (n : Nat) :
    (run ⟨d, false, false⟩ (List.replicate n false)).fatal = false ∧
    (run ⟨d, false, false⟩ (List.replicate n false)).done = false := by
  have inv : ∀ (n : Nat) (s : St), s.fatal = false → s.done = false → s.qd = 1 →
      ((List.replicate n false).foldl (window ⟨d, false, false⟩) s).fatal = false ∧
      ((List.replicate n false).foldl (window ⟨d, false, false⟩) s).done = false := by
    intro n
    induction n with
    | zero => intro s h1 h2 _; exact ⟨h1, h2⟩
    | succ n ih =>
      intro s h1 h2 h3
      rw [List.replicate_succ, List.foldl_cons]
      exact ih _ (by simp [window, h1, h2, h3, failed]) (by simp [window, h1, h2, h3, failed])
        (by simp [window, h1, h2, h3, failed])
  exact inv n _ rfl rfl rfl

/-- With latency_percentile=100 it does. -/
theorem gives_up (d : Nat) (f : Bool) : (run ⟨d, true, f⟩ [false]).fatal = true := by
  simp [run, init, window, failed]

/-- If a window of the final run misses the target, the statistics at the end are of several depths. -/
theorem mixed_counterexample :
    (run ⟨16, true, false⟩ [true, true, false, true, false, true]).done = true ∧
    (run ⟨16, true, false⟩ [true, true, false, true, false, true]).stats = [2, 3] := by
  decide +kernel

/-! ## Completions in completions -/

/-- Single events: io_u_quiesce completes what is in flight, in order. -/
theorem quiesce_single {slow batch} (hb : batch ≤ 1) : ∀ n fuel (e : Ev), e.inflight.length = n → 3 * n + 1 ≤ fuel →
    ∃ ev, quiesce slow batch fuel e = some ⟨ev, [], e.inflight.reverse ++ e.done⟩
  | 0, fuel + 1, e, hn, _ => by
    have : e.inflight = [] := List.length_eq_zero_iff.1 hn
    exact ⟨e.events, by simp [quiesce, this]; cases e; simp_all⟩
  | n + 1, 0, _, _, hf => by omega
  | n + 1, 1, _, _, hf => by omega
  | n + 1, 2, _, _, hf => by omega
  | n + 1, fuel + 3, ⟨evs, u :: fl, dn⟩, hn, hf => by
    simp only [List.length_cons, Nat.add_right_cancel_iff] at hn
    have hm : min (max batch 1) (fl.length + 1) = 1 := by omega
    by_cases hs : slow u = true
    · obtain ⟨ev, h⟩ := quiesce_single (slow := slow) hb n (fuel + 1) ⟨u :: evs.drop 1, fl, u :: dn⟩ hn (by omega)
      obtain ⟨ev2, h2⟩ := quiesce_single (slow := slow) hb 0 (fuel + 2) ⟨ev, [], fl.reverse ++ (u :: dn)⟩ rfl (by omega)
      refine ⟨ev2, ?_⟩
      rw [quiesce]
      simp [getevents, hm, iosCompleted, hs] at h h2 ⊢
      simp [h, h2]
    · obtain ⟨ev, h⟩ := quiesce_single (slow := slow) hb n (fuel + 2) ⟨u :: evs.drop 1, fl, u :: dn⟩ hn (by omega)
      refine ⟨ev, ?_⟩
      rw [quiesce]
      simp [getevents, hm, iosCompleted, hs] at h ⊢
      simp [h]

/-- No slow I/O: the events are completed in order. -/
theorem completed_fast {slow batch} : ∀ n fuel i (e : Ev), (∀ u ∈ e.events.take (i + n), slow u = false) →
    i + n ≤ e.events.length → n + 1 ≤ fuel →
    iosCompleted slow batch fuel i (i + n) e = some { e with done := ((e.events.drop i).take n).reverse ++ e.done }
  | 0, fuel + 1, i, e, _, _, _ => by simp [iosCompleted]
  | n + 1, 0, _, _, _, _, hf => by omega
  | n + 1, fuel + 1, i, e, hs, hl, hf => by
    have hlt : i < e.events.length := by omega
    rw [iosCompleted, if_pos (by omega), List.getElem?_eq_getElem hlt]
    have hm : e.events[i] ∈ e.events.take (i + (n + 1)) := List.mem_take_iff_getElem.2 ⟨i, by omega, rfl⟩
    simp only [hs _ hm, Bool.false_eq_true, if_false]
    have h := completed_fast (slow := slow) (batch := batch) n fuel (i + 1) { e with done := e.events[i] :: e.done }
      (by rw [show i + 1 + n = i + (n + 1) by omega]; exact hs) (by simp only; omega) (by omega)
    rw [show i + (n + 1) = i + 1 + n by omega, h]
    simp only [List.drop_eq_getElem_cons hlt, List.take_succ_cons, List.reverse_cons, List.append_assoc,
      List.singleton_append]

/-- **C59.** With iodepth_batch_complete_max at most 1, a call of io_u_queued_complete completes the next I/O and, if
that was slow, all that are in flight: each once and in order, and none is lost. -/
theorem once_single {slow : Nat → Bool} {batch fuel : Nat} (hb : batch ≤ 1) (e : Ev)
    (hf : 3 * e.inflight.length + 2 ≤ fuel) :
    ∃ e2, queuedComplete slow batch fuel e = some e2 ∧ e2.done.reverse ++ e2.inflight = e.done.reverse ++ e.inflight ∧
      (e.inflight ≠ [] → e2.inflight.length < e.inflight.length) := by
  obtain ⟨evs, fl, dn⟩ := e
  match fl, fuel, hf with
  | [], fuel + 2, _ => exact ⟨_, by simp [queuedComplete, getevents, iosCompleted]; rfl, by simp, by simp⟩
  | u :: fl, 0, hf => simp at hf
  | u :: fl, 1, hf => simp at hf
  | u :: fl, fuel + 2, hf =>
    simp only [List.length_cons] at hf
    have hm : min (max batch 1) (fl.length + 1) = 1 := by omega
    by_cases hs : slow u = true
    · obtain ⟨ev, h⟩ := quiesce_single (slow := slow) hb fl.length (fuel + 1) ⟨u :: evs.drop 1, fl, u :: dn⟩ rfl (by omega)
      refine ⟨⟨ev, [], fl.reverse ++ (u :: dn)⟩, ?_, by simp, by simp⟩
      simp [queuedComplete, getevents, hm, iosCompleted, hs] at h ⊢
      simp [h]
    · refine ⟨⟨u :: evs.drop 1, fl, u :: dn⟩, ?_, by simp, by simp⟩
      simp [queuedComplete, getevents, hm, iosCompleted, hs]

/-- **C59.** If no I/O is slow, batches are complete and in order as well. -/
theorem once_fast {slow : Nat → Bool} {batch fuel : Nat} (e : Ev) (hs : ∀ u ∈ e.inflight, slow u = false)
    (hf : e.inflight.length + 1 ≤ fuel) :
    ∃ e2, queuedComplete slow batch fuel e = some e2 ∧ e2.done.reverse ++ e2.inflight = e.done.reverse ++ e.inflight ∧
      e2.inflight = e.inflight.drop (max batch 1) := by
  have hr : (e.inflight.take (min (max batch 1) e.inflight.length)).length = min (max batch 1) e.inflight.length := by
    simp
  have h := completed_fast (slow := slow) (batch := batch) (min (max batch 1) e.inflight.length) fuel 0
    (getevents batch e).1 (by
      intro u hu
      rw [Nat.zero_add, show (getevents batch e).1.events = e.inflight.take (min (max batch 1) e.inflight.length) ++
        e.events.drop (min (max batch 1) e.inflight.length) from rfl, List.take_left' hr] at hu
      exact hs u (List.mem_of_mem_take hu)) (by simp [getevents]) (by omega)
  rw [Nat.zero_add] at h
  refine ⟨_, h, ?_, ?_⟩
  · simp [getevents, List.take_left' hr]
  · simp only [getevents]
    rcases Nat.le_total (max batch 1) e.inflight.length with hle | hle
    · rw [Nat.min_eq_left hle]
    · rw [Nat.min_eq_right hle, List.drop_of_length_le hle, List.drop_length]

/-- With batches, a slow I/O in a batch makes fio lose I/Os of the batch and complete others twice: io_u_quiesce
overwrites the array of events that ios_completed is reading. -/
theorem lost_counterexample : ∃ (slow : Nat → Bool) (e2 : Ev),
    queuedComplete slow 2 30 ⟨[0, 0], [1, 2, 3, 4], []⟩ = some e2 ∧ e2.done = [4, 4, 3, 1] ∧ e2.inflight = [] :=
  ⟨fun u => u = 1, ⟨[3, 4], [], [4, 4, 3, 1]⟩, by decide +kernel⟩

example : ∃ e2, queuedComplete (fun u => u = 1) 1 30 ⟨[0, 0], [1, 2, 3, 4], []⟩ = some e2 ∧ e2.done = [4, 3, 2, 1] :=
  ⟨⟨[4, 0], [], [4, 3, 2, 1]⟩, by decide +kernel⟩

end Fio.LatTarget
