import Verif.PrioStat.Spec
/-!
# Lemmas for C104
-/

namespace Fio.PrioStat

theorem is_init (ix : Nat → Nat) (b : Bool) : Is ix b Hist.init [] := ⟨rfl, rfl, rfl, fun k => by cases b <;> rfl⟩

/-- The histogram part of a sample. -/
def Hist.maybe (ix : Nat → Nat) (b : Bool) (h : Hist) (v : Nat) : Hist := if b then h.pct ix v else h

theorem is_add (ix : Nat → Nat) (b : Bool) (h : Hist) (l : List Nat) (v : Nat) (hi : Is ix b h l) :
    Is ix b ((h.stat v).maybe ix b v) (l ++ [v]) := by
  obtain ⟨h1, h2, h3, h4⟩ := hi
  cases b
  · exact ⟨by simp [Hist.maybe, Hist.stat, h1], by simp [Hist.maybe, Hist.stat, h2], by simp [Hist.maybe, Hist.stat, h3],
      by simpa [Hist.maybe, Hist.stat] using h4⟩
  · refine ⟨by simp [Hist.maybe, Hist.stat, Hist.pct, h1], by simp [Hist.maybe, Hist.stat, Hist.pct, h2],
      by simp [Hist.maybe, Hist.stat, Hist.pct, h3], ?_⟩
    intro k
    have := h4 k
    simp only [if_true] at this
    simp only [Hist.maybe, Hist.stat, Hist.pct, if_true, List.filter_append, List.length_append, this]
    by_cases hk : k = ix v
    · subst hk; simp
    · have hk' : ¬ ix v = k := fun h => hk h.symm
      simp [hk, hk']

theorem foldl_min (l : List Nat) (a b : Nat) (h : b ≤ a) : l.foldl min b = min b (l.foldl min a) := by
  induction l generalizing a b with
  | nil => simp; omega
  | cons x l ih =>
    rw [List.foldl_cons, List.foldl_cons, ih (min a x) (min b x) (by omega)]
    have : l.foldl min (min a x) ≤ min a x := by
      clear ih
      generalize min a x = y
      induction l generalizing y with
      | nil => exact Nat.le_refl _
      | cons z l ih => exact Nat.le_trans (ih _) (Nat.min_le_left _ _)
    omega

theorem foldl_max (l : List Nat) (b : Nat) : l.foldl max b = max b (l.foldl max 0) := by
  induction l generalizing b with
  | nil => simp
  | cons x l ih => rw [List.foldl_cons, List.foldl_cons, ih (max b x), ih (max 0 x)]; omega

theorem foldl_min_le (l : List Nat) (a : Nat) : l.foldl min a ≤ a := by
  induction l generalizing a with
  | nil => exact Nat.le_refl _
  | cons z l ih => exact Nat.le_trans (ih _) (Nat.min_le_left _ _)

theorem is_sum (ix : Nat → Nat) (b : Bool) (g h : Hist) (l m : List Nat) (hg : Is ix b g l) (hh : Is ix b h m) : Is ix b (g.sum h) (l ++ m) := by
  obtain ⟨g1, g2, g3, g4⟩ := hg
  obtain ⟨h1, h2, h3, h4⟩ := hh
  have hp : ∀ k, (g.sum h).plat k = if b then ((l ++ m).filter (fun v => ix v = k)).length else 0 := by
    intro k
    simp only [Hist.sum, g4 k, h4 k]
    cases b <;> simp
  by_cases hn : h.n = 0
  · have hm : m = [] := List.length_eq_zero_iff.1 (by omega)
    refine ⟨by simp [Hist.sum, hn, hm, g1], by simp [Hist.sum, hn, hm, g2], by simp [Hist.sum, hn, hm, g3], hp⟩
  · refine ⟨by simp [Hist.sum, g1, h1], ?_, ?_, hp⟩
    · simp only [Hist.sum, hn, if_false, g2, h2, List.foldl_append]
      exact (foldl_min m _ _ (foldl_min_le l _)).symm
    · simp only [Hist.sum, hn, if_false, g3, h3, List.foldl_append]
      exact (foldl_max m _).symm

/-! ## Sums of arrays -/

theorem mem_sumInto (l : PL) (p : Nat) (h : Hist) (hn : (l.map (·.1)).Nodup) :
    ((sumInto l p h).map (·.1)).Nodup ∧ (∀ q, q ∈ (sumInto l p h).map (·.1) ↔ q ∈ l.map (·.1) ∨ q = p) ∧
    ∀ e ∈ sumInto l p h, (e.1 ≠ p ∧ e ∈ l) ∨ (e.1 = p ∧ ((∃ g, (p, g) ∈ l ∧ e.2 = g.sum h) ∨ (p ∉ l.map (·.1) ∧ e.2 = Hist.init.sum h))) := by
  induction l with
  | nil => simp [sumInto]
  | cons x l ih =>
    obtain ⟨q, g⟩ := x
    simp only [List.map_cons, List.nodup_cons] at hn
    obtain ⟨i1, i2, i3⟩ := ih hn.2
    unfold sumInto
    by_cases hq : q = p
    · subst hq
      simp only [if_true]
      refine ⟨by simpa using hn, by intro r; simp only [List.map_cons, List.mem_cons]; grind, ?_⟩
      intro e he
      rcases List.mem_cons.1 he with rfl | he
      · exact Or.inr ⟨rfl, Or.inl ⟨g, by simp, rfl⟩⟩
      · refine Or.inl ⟨?_, List.mem_cons_of_mem _ he⟩
        intro hh
        exact hn.1 (hh ▸ List.mem_map.2 ⟨e, he, rfl⟩)
    · simp only [if_neg hq]
      refine ⟨?_, ?_, ?_⟩
      · rw [List.map_cons, List.nodup_cons]
        refine ⟨?_, i1⟩
        rw [i2]
        rintro (hh | hh)
        · exact hn.1 hh
        · exact hq hh
      · intro r
        rw [List.map_cons, List.mem_cons, i2, List.map_cons, List.mem_cons]
        grind
      · intro e he
        rcases List.mem_cons.1 he with rfl | he
        · exact Or.inl ⟨hq, by simp⟩
        · rcases i3 e he with ⟨a, b⟩ | ⟨a, ⟨g', b, c⟩ | ⟨b, c⟩⟩
          · exact Or.inl ⟨a, List.mem_cons_of_mem _ b⟩
          · exact Or.inr ⟨a, Or.inl ⟨g', List.mem_cons_of_mem _ b, c⟩⟩
          · refine Or.inr ⟨a, Or.inr ⟨?_, c⟩⟩
            rw [List.map_cons, List.mem_cons]
            rintro (hh | hh)
            · exact hq hh.symm
            · exact b hh

theorem counts_ext (ix : Nat → Nat) (b : Bool) (dst : Option PL) (L M : Nat → List Nat) (h : Counts ix b dst L) (e : ∀ p, L p = M p) :
    Counts ix b dst M := by
  have : L = M := funext e
  rw [← this]; exact h

theorem counts_addSamples (ix : Nat → Nat) (b : Bool) (alloc : Nat → Bool) (ha : ∀ n, alloc n = true) (dst : Option PL) (L : Nat → List Nat)
    (p : Nat) (h : Hist) (m : List Nat) (hc : Counts ix b dst L) (hi : Is ix b h m) :
    (addSamples alloc dst p h).2 = true ∧ Counts ix b (addSamples alloc dst p h).1 (fun q => if q = p then L q ++ m else L q) ∧
      ((addSamples alloc dst p h).1 = none → dst = none) := by
  unfold addSamples
  by_cases hn : h.n = 0
  · have hm : m = [] := List.length_eq_zero_iff.1 (by rw [← hi.n]; exact hn)
    subst hm
    simp only [if_pos hn]
    exact ⟨trivial, counts_ext ix b dst L _ hc (by intro q; simp), fun h => h⟩
  · simp only [if_neg hn, ha, Bool.or_true, if_true]
    refine ⟨trivial, ?_, by simp⟩
    have hnod : ((dst.getD []).map (·.1)).Nodup := by
      cases dst with
      | none => simp
      | some l => exact hc.once l rfl
    obtain ⟨i1, i2, i3⟩ := mem_sumInto (dst.getD []) p h hnod
    refine ⟨?_, ?_, ?_⟩
    · intro l hl; cases hl; exact i1
    · intro l hl e he
      cases hl
      rcases i3 e he with ⟨a, c⟩ | ⟨a, ⟨g, c, d⟩ | ⟨c, d⟩⟩
      · simp only [if_neg a]
        cases dst with
        | none => cases c
        | some l => exact hc.is l rfl e c
      · simp only [if_pos a]
        rw [d]
        cases dst with
        | none => cases c
        | some l =>
          have := hc.is l rfl (p, g) c
          rw [a]
          exact is_sum ix b g h _ m this hi
      · simp only [if_pos a]
        rw [d]
        have : L p = [] := hc.missing p (by
          intro l hl
          subst hl
          exact c)
        rw [a, this]
        exact is_sum ix b _ h _ m (is_init ix b) hi
    · intro q hq
      have hq' := hq _ rfl
      rw [i2] at hq'
      have hqp : q ≠ p := fun h => hq' (Or.inr h)
      simp only [if_neg hqp]
      apply hc.missing
      intro l hl
      subst hl
      exact fun h => hq' (Or.inl h)

theorem counts_multi (ix : Nat → Nat) (b : Bool) (alloc : Nat → Bool) (ha : ∀ n, alloc n = true) (src : PL) (dst : Option PL) (L M : Nat → List Nat)
    (hc : Counts ix b dst L) (hn : (src.map (·.1)).Nodup) (hs : ∀ e ∈ src, Is ix b e.2 (M e.1)) (hz : ∀ p, p ∉ src.map (·.1) → M p = []) :
    Counts ix b (sumMulti alloc dst src).1 (fun p => L p ++ M p) := by
  induction src generalizing dst L M with
  | nil =>
    simp only [sumMulti]
    exact counts_ext ix b dst L _ hc (by intro p; rw [hz p (by simp)]; simp)
  | cons x src ih =>
    obtain ⟨p, h⟩ := x
    simp only [List.map_cons, List.nodup_cons] at hn
    obtain ⟨a1, a2, -⟩ := counts_addSamples ix b alloc ha dst L p h (M p) hc (hs (p, h) (by simp))
    unfold sumMulti
    revert a1 a2
    generalize addSamples alloc dst p h = r
    obtain ⟨dst', ok⟩ := r
    intro a1 a2
    simp only at a1 a2
    subst a1
    simp only
    have := ih dst' (fun q => if q = p then L q ++ M p else L q) (fun q => if q = p then [] else M q) (counts_ext ix b _ _ _ a2 (by
        intro q; by_cases h : q = p <;> simp [h])) hn.2 (by
        intro e he
        have hne : e.1 ≠ p := fun h => hn.1 (h ▸ List.mem_map.2 ⟨e, he, rfl⟩)
        rw [if_neg hne]
        exact hs e (List.mem_cons_of_mem _ he)) (by
        intro q hq
        by_cases h : q = p
        · simp [h]
        · rw [if_neg h]
          apply hz
          rw [List.map_cons, List.mem_cons]
          rintro (hh | hh)
          · exact h hh
          · exact hq hh)
    apply counts_ext ix b _ _ _ this
    intro q
    by_cases h : q = p <;> simp [h]

/-- What a job has counted for a direction. -/
structure JobCounts (ix : Nat → Nat) (b : Bool) (j : Job) (d : Nat) (M : Nat → List Nat) : Prop where
  arr : ∀ l, j.cprio d = some l → Counts ix b (some l) M
  one : j.cprio d = none → Is ix b (if j.cfg.latPct then j.lat d else j.clat d) (M j.ioprio) ∧ ∀ p, p ≠ j.ioprio → M p = []

theorem counts_sumPrio (ix : Nat → Nat) (b : Bool) (alloc : Nat → Bool) (ha : ∀ n, alloc n = true) (dst : Option PL) (j : Job) (d : Nat)
    (L M : Nat → List Nat) (hc : Counts ix b dst L) (hj : JobCounts ix b j d M) : Counts ix b (sumPrio alloc dst j d) (fun p => L p ++ M p) := by
  unfold sumPrio
  cases hcp : j.cprio d with
  | none =>
    obtain ⟨h1, h2⟩ := hj.one hcp
    obtain ⟨-, a2, -⟩ := counts_addSamples ix b alloc ha dst L j.ioprio _ _ hc h1
    apply counts_ext ix b _ _ _ a2
    intro p
    by_cases h : p = j.ioprio
    · simp [h]
    · simp [h, h2 p h]
  | some l =>
    have hl := hj.arr l hcp
    cases dst with
    | none =>
      simp only [ha, if_true]
      apply counts_ext ix b _ _ _ hl
      intro p
      rw [hc.missing p (by intro l h; cases h)]
      simp
    | some dl =>
      exact counts_multi ix b alloc ha l (some dl) L M hc (hl.once l rfl) (hl.is l rfl) (fun p hp => hl.missing p (by
        intro l' h'; cases h'; exact hp))

/-! ## Samples of a job -/

theorem set_keys (l : PL) (i : Nat) (e : Nat × Hist) (h : l[i]? = some e) (x : Hist) : (l.set i (e.1, x)).map (·.1) = l.map (·.1) := by
  rw [List.map_set]
  apply List.ext_getElem?
  intro k
  rw [List.getElem?_set]
  split
  · rename_i hk
    subst hk
    split
    · simp [List.getElem?_map, h]
    · rename_i hlt
      have : l[i]? = none := List.getElem?_eq_none (by simpa using hlt)
      rw [this] at h; cases h
  · rfl

theorem set_mem (l : PL) (i : Nat) (e : Nat × Hist) (h : l[i]? = some e) (hn : (l.map (·.1)).Nodup) (x : Hist) (y : Nat × Hist)
    (hy : y ∈ l.set i (e.1, x)) : y = (e.1, x) ∨ (y.1 ≠ e.1 ∧ y ∈ l) := by
  obtain ⟨k, hk⟩ := List.mem_iff_getElem?.1 hy
  rw [List.getElem?_set] at hk
  by_cases hik : i = k
  · subst hik
    rw [if_pos rfl] at hk
    split at hk
    · exact Or.inl (by simpa using hk.symm)
    · cases hk
  · rw [if_neg hik] at hk
    refine Or.inr ⟨?_, List.mem_iff_getElem?.2 ⟨k, hk⟩⟩
    intro hh
    apply hik
    have hi1 : (l.map (·.1))[i]? = some e.1 := by simp [h]
    have hk1 : (l.map (·.1))[k]? = some e.1 := by simp [hk, hh]
    obtain ⟨hil, hi2⟩ := List.getElem?_eq_some_iff.1 hi1
    obtain ⟨hkl, hk2⟩ := List.getElem?_eq_some_iff.1 hk1
    have hp := List.pairwise_iff_getElem.1 hn
    rcases Nat.lt_trichotomy i k with hlt | heq | hlt
    · exact absurd (hi2.trans hk2.symm) (hp i k hil hkl hlt)
    · exact heq
    · exact absurd (hk2.trans hi2.symm) (hp k i hkl hil hlt)

theorem counts_set (ix : Nat → Nat) (b : Bool) (l : PL) (i : Nat) (e : Nat × Hist) (h : l[i]? = some e) (x : Hist) (M M' : Nat → List Nat)
    (hc : Counts ix b (some l) M) (hx : Is ix b x (M' e.1)) (ho : ∀ p, p ≠ e.1 → M' p = M p) : Counts ix b (some (l.set i (e.1, x))) M' := by
  have hn := hc.once l rfl
  refine ⟨?_, ?_, ?_⟩
  · intro l' hl'
    cases hl'
    rw [set_keys l i e h]; exact hn
  · intro l' hl' y hy
    cases hl'
    rcases set_mem l i e h hn x y hy with rfl | ⟨a, b'⟩
    · exact hx
    · rw [ho _ a]; exact hc.is l rfl y b'
  · intro p hp
    have hp' := hp _ rfl
    rw [set_keys l i e h] at hp'
    rw [ho]
    · exact hc.missing p (by intro l' hl'; cases hl'; exact hp')
    · rintro rfl
      exact hp' (List.mem_map.2 ⟨e, List.mem_iff_getElem?.2 ⟨i, h⟩, rfl⟩)

/-- The array of a direction after an I/O. -/
def after (ix : Nat → Nat) (j : Job) (io : Io) (d : Nat) : Option PL :=
  if d = io.d ∧ measured j.cfg then
    match j.cprio d with
    | none => none
    | some l => match l[io.idx]? with
      | some e => some (l.set io.idx (e.1, (e.2.stat (value j.cfg io)).maybe ix (hasHist j.cfg) (value j.cfg io)))
      | none => some l
  else j.cprio d

theorem stat_pct (ix : Nat → Nat) (h : Hist) (v : Nat) : (h.pct ix v).stat v = (h.stat v).pct ix v := rfl

theorem set_set (l : PL) (i : Nat) (a b : Nat × Hist) : (l.set i a).set i b = l.set i b := by simp

/-- What an I/O changes: the statistics of its latency and its priority. -/
theorem account_eq (ix : Nat → Nat) (j : Job) (io : Io) (hv : Valid j io) :
    ∃ j', account ix j io = some j' ∧ j'.cfg = j.cfg ∧ j'.ioprio = j.ioprio ∧ (∀ d, j'.cprio d = after ix j io d) ∧
      ∀ d, (if j.cfg.latPct then j'.lat d else j'.clat d) =
        if d = io.d ∧ measured j.cfg then
          ((if j.cfg.latPct then j.lat d else j.clat d).stat (value j.cfg io)).maybe ix (hasHist j.cfg) (value j.cfg io)
        else (if j.cfg.latPct then j.lat d else j.clat d) := by
  obtain ⟨⟨latPct, clatPct, noLat, noClat⟩, ioprio, lat, clat, cprio⟩ := j
  have hcase : cprio io.d = none ∨ ∃ l e, cprio io.d = some l ∧ l[io.idx]? = some e := by
    cases hc : cprio io.d with
    | none => exact Or.inl rfl
    | some l => exact Or.inr ⟨l, _, rfl, List.getElem?_eq_getElem (hv l hc)⟩
  cases hr : account ix ⟨⟨latPct, clatPct, noLat, noClat⟩, ioprio, lat, clat, cprio⟩ io with
  | none =>
    exfalso
    rcases hcase with hc | ⟨l, e, hc, he⟩
    · cases latPct <;> cases clatPct <;> cases noLat <;> cases noClat <;> simp [account, addLat, addClat, prioMod, hc, upd] at hr
    · have hlt : io.idx < l.length := hv l hc
      cases latPct <;> cases clatPct <;> cases noLat <;> cases noClat <;>
        simp [account, addLat, addClat, prioMod, hc, he, upd, hlt] at hr
  | some j' =>
    refine ⟨j', rfl, ?_⟩
    rcases hcase with hc | ⟨l, e, hc, he⟩
    · cases latPct <;> cases clatPct <;> cases noLat <;> cases noClat <;>
        simp [account, addLat, addClat, prioMod, hc, upd] at hr <;> subst hr <;> refine ⟨rfl, rfl, ?_, ?_⟩ <;>
        intro d <;> by_cases hd : d = io.d <;>
        simp_all [after, measured, value, hasHist, upd, Hist.maybe, stat_pct]
    · have hlt : io.idx < l.length := hv l hc
      cases latPct <;> cases clatPct <;> cases noLat <;> cases noClat <;>
        simp [account, addLat, addClat, prioMod, hc, he, upd, hlt] at hr <;> subst hr <;> refine ⟨rfl, rfl, ?_, ?_⟩ <;>
        intro d <;> by_cases hd : d = io.d <;>
        simp_all [after, measured, value, hasHist, upd, Hist.maybe, stat_pct]

end Fio.PrioStat
