import Verif.Spr.Lemmas
/-!
# Properties of sprandom (C88)
-/

namespace Fio.Spr

open Spec

theorem firsts_snoc (os : List Out) (o : Out) : firsts (os ++ [o]) = firsts os ++ (if o.fresh then [o.block] else []) := by
  unfold firsts
  cases h : o.fresh <;> simp [h]

theorem agains_snoc (os : List Out) (o : Out) : agains (os ++ [o]) = agains os ++ (if o.fresh then [] else [o.block]) := by
  unfold agains
  cases h : o.fresh <;> simp [h]

theorem drawn_snoc (os : List Out) (o : Out) : drawn (os ++ [o]) = drawn os ++ (if o.sel then [o.block] else []) := by
  unfold drawn
  cases h : o.sel <;> simp [h]

theorem cntIn_snoc (os : List Out) (o : Out) (r : Nat) : cntIn (os ++ [o]) r = cntIn os r + (if o.region = r then 1 else 0) := by
  unfold cntIn
  by_cases h : o.region = r <;> simp [h]

theorem selIn_snoc (os : List Out) (o : Out) (r : Nat) :
    selIn (os ++ [o]) r = selIn os r + (if o.region = r ∧ o.sel = true then 1 else 0) := by
  unfold selIn
  by_cases h : o.region = r <;> cases h2 : o.sel <;> simp [h, h2]

theorem againIn_snoc (os : List Out) (o : Out) (r : Nat) :
    againIn (os ++ [o]) r = againIn os r + (if o.region = r ∧ o.fresh = false then 1 else 0) := by
  unfold againIn
  by_cases h : o.region = r <;> cases h2 : o.fresh <;> simp [h, h2]

theorem selIn_le (os : List Out) (r : Nat) : selIn os r ≤ cntIn os r := by
  induction os with
  | nil => simp [selIn, cntIn]
  | cons o os ih =>
    unfold selIn cntIn at *
    by_cases h : o.region = r <;> cases h2 : o.sel <;> simp [h, h2] <;> omega

/-! ## What is written -/

/-- What always holds: blocks come in order, the ring has what is drawn and not yet written again. -/
structure Base (c : Cfg) (cap : Nat) (L : List Nat) (os : List Out) (s : St) (C S : List Nat) : Prop where
  rep : Rep s.ring C S
  cap : s.ring.cap = cap
  fr : firsts os ++ s.lfsr = L
  dr : drawn os = agains os ++ C ++ S
  reg : ∀ o ∈ os, o.region ≤ s.region
  le : s.region ≤ c.num
  num : s.region < c.num ∨ (s.lfsr = [] ∧ c.cache = true)

theorem base_off (c : Cfg) (cap : Nat) (L : List Nat) (os : List Out) (s : St) (C S : List Nat) (v : Nat) (o : Out) (s' : St)
    (hp : c.pct.length ≤ c.num) (h : Base c cap L os s C S) (hn : Nx c s C S v (.off o s')) : ∃ C' S', Base c cap L (os ++ [o]) s' C' S' := by
  obtain ⟨h1, h2, h3, h4, h5, hle, h6⟩ := h
  have hlt : ∀ r p, c.pct[r]? = some p → r < c.num := by
    intro r p hh
    have := (List.getElem?_eq_some_iff.1 hh).1
    omega
  cases hn with
  | again b C' sel r _ hC ha hr =>
    subst hC
    refine ⟨C', _, ⟨ha.rep, by rw [ha.cap]; exact hr.trans h2, ?_, ?_, ?_, ?_, ?_⟩⟩
    · rw [firsts_snoc, ha.lfsr]; simpa using h3
    · rw [drawn_snoc, agains_snoc, h4]
      cases sel <;> simp
    · intro x hx
      rw [ha.region]
      rcases List.mem_append.1 hx with hx | hx
      · exact h5 x hx
      · simp at hx; subst hx; exact Nat.le_refl _
    · rw [ha.region]; exact hle
    · rw [ha.region, ha.lfsr]; exact h6
  | fresh b l sel _ hl hrem hC ha =>
    refine ⟨C, _, ⟨ha.rep, by rw [ha.cap]; exact h2, ?_, ?_, ?_, ?_, ?_⟩⟩
    · rw [firsts_snoc, ha.lfsr, ← h3, hl]; simp
    · rw [drawn_snoc, agains_snoc, h4]
      cases sel <;> simp
    · intro x hx
      rw [ha.region]
      rcases List.mem_append.1 hx with hx | hx
      · exact h5 x hx
      · simp at hx; subst hx; exact Nat.le_refl _
    · obtain ⟨p, hpp, _⟩ := ha.draw
      rw [ha.region]
      exact Nat.le_of_lt (hlt _ _ hpp)
    · obtain ⟨p, hpp, _⟩ := ha.draw
      rw [ha.region]
      exact Or.inl (hlt _ _ hpp)
  | move b l sel _ hl hrem hC hreg ha =>
    subst hC
    have hf := advance_fields c s
    have hr : s'.region = s.region + 1 := by rw [ha.region]; exact hf.1
    refine ⟨S, _, ⟨ha.rep, by rw [ha.cap]; exact hf.2.2.1.trans h2, ?_, ?_, ?_, ?_, ?_⟩⟩
    · rw [firsts_snoc, ha.lfsr, ← h3, hl]; simp
    · rw [drawn_snoc, agains_snoc, h4]
      cases sel <;> simp
    · intro x hx
      rw [hr]
      rcases List.mem_append.1 hx with hx | hx
      · have := h5 x hx; omega
      · simp at hx; subst hx; exact Nat.le_refl _
    · obtain ⟨p, hpp, _⟩ := ha.draw
      rw [ha.region]
      exact Nat.le_of_lt (hlt _ _ hpp)
    · obtain ⟨p, hpp, _⟩ := ha.draw
      rw [ha.region]
      exact Or.inl (hlt _ _ hpp)
  | drain b C' r hC hl hrem hr hcap =>
    subst hC
    refine ⟨C', S, ⟨hr, hcap.trans h2, ?_, ?_, ?_, hle, h6⟩⟩
    · rw [firsts_snoc]; simpa using h3
    · rw [drawn_snoc, agains_snoc, h4]; simp
    · intro x hx
      rcases List.mem_append.1 hx with hx | hx
      · exact h5 x hx
      · simp at hx; subst hx; exact Nat.le_refl _
  | drainMove b S' r hC hS hl hcch hrem hreg hr hcap =>
    subst hC
    subst hS
    have hf := advance_fields c s
    refine ⟨S', [], ⟨hr, hcap.trans h2, ?_, ?_, ?_, by simp only [hf.1]; omega, Or.inr ⟨hf.2.1.trans hl, hcch⟩⟩⟩
    · rw [firsts_snoc]; simp [hf.2.1]; exact h3
    · rw [drawn_snoc, agains_snoc, h4]; simp
    · intro x hx
      simp only [hf.1]
      rcases List.mem_append.1 hx with hx | hx
      · have := h5 x hx; omega
      · simp at hx; subst hx; exact Nat.le_refl _

theorem run_base (c : Cfg) (cap : Nat) (hcap : cap < 2 ^ 64) (hp : c.pct.length ≤ c.num) (L : List Nat) (vs : List Nat) :
    ∀ (os : List Out) (s : St) (C S : List Nat), Base c cap L os s C S →
      ∃ s' C' S', Base c cap L (os ++ (run c s vs).1) s' C' S' ∧
        ((∀ s'', (run c s vs).2 = .done s'' → s'.lfsr = [] ∧ C' = [])) := by
  induction vs with
  | nil =>
    intro os s C S h
    exact ⟨s, C, S, by simpa [run] using h, by simp [run]⟩
  | cons v vs ih =>
    intro os s C S h
    have hn := next_spec c s C S v h.rep (by rw [h.cap]; exact hcap)
    unfold run
    generalize hx : next c s v = x at hn
    cases x with
    | crash => exact ⟨s, C, S, by simpa using h, by simp⟩
    | done s1 =>
      simp only
      refine ⟨s, C, S, by simpa using h, ?_⟩
      intro s'' _
      cases hn with
      | done hl hC hrem => exact ⟨hl, hC⟩
      | doneMove hl hC hrem hreg hcache => exact ⟨hl, hC⟩
      | doneReg hC hrem hreg =>
        rcases h.num with h' | h'
        · omega
        · exact ⟨h'.1, hC⟩
    | off o s1 =>
      simp only
      obtain ⟨C1, S1, hb⟩ := base_off c cap L os s C S v o s1 hp h hn
      obtain ⟨s', C', S', h1, h2⟩ := ih (os ++ [o]) s1 C1 S1 hb
      refine ⟨s', C', S', ?_, h2⟩
      simpa using h1

theorem base_init (c : Cfg) (cap : Nat) (L : List Nat) (hcap : 0 < cap) (hn : 0 < c.num) : Base c cap L [] (init c cap L) [] [] :=
  ⟨rep_new cap hcap, rfl, by simp [firsts, init], rfl, by simp, Nat.zero_le _, Or.inl hn⟩

/-- **C88.**  Whatever is drawn, and however the calls end: new blocks come in the order of the generator, and the blocks written again are
those drawn, in that order, each once and none before it was drawn. -/
theorem C88_order (c : Cfg) (cap : Nat) (L vs : List Nat) (hcap0 : 0 < cap) (hcap : cap < 2 ^ 64) (hn : 0 < c.num) (hp : c.pct.length ≤ c.num) :
    firsts (run c (init c cap L) vs).1 <+: L ∧ agains (run c (init c cap L) vs).1 <+: drawn (run c (init c cap L) vs).1 := by
  obtain ⟨s', C', S', h, _⟩ := run_base c cap hcap hp L vs [] _ [] [] (base_init c cap L hcap0 hn)
  simp only [List.nil_append] at h
  refine ⟨⟨_, h.fr⟩, ?_⟩
  rw [h.dr, List.append_assoc]
  exact List.prefix_append _ _

/-- **C88.**  The end comes only when every block was written. -/
theorem C88_all_written (c : Cfg) (cap : Nat) (L vs : List Nat) (s : St) (hcap0 : 0 < cap) (hcap : cap < 2 ^ 64) (hn : 0 < c.num)
    (hp : c.pct.length ≤ c.num) (h : (run c (init c cap L) vs).2 = .done s) : firsts (run c (init c cap L) vs).1 = L := by
  obtain ⟨s', C', S', h1, h2⟩ := run_base c cap hcap hp L vs [] _ [] [] (base_init c cap L hcap0 hn)
  simp only [List.nil_append] at h1
  have := h1.fr
  rw [(h2 s h).1, List.append_nil] at this
  exact this

/-! ## Regions -/

/-- What holds as long as no region is drawn completely. -/
structure Cnt (c : Cfg) (os : List Out) (s : St) (C S : List Nat) : Prop where
  cur : cntIn os s.region + s.remaining + C.length = c.rwc
  inv : s.inv (!s.phase) = S.length
  sel : selIn os s.region = S.length
  past : ∀ r, r < s.region → cntIn os r = c.rwc
  again : ∀ r, r < s.region → selIn os r = againIn os (r + 1) + (if r + 1 = s.region then C.length else 0)
  pos : c.num ≤ s.region → 0 < s.remaining
  len : os.length = s.region * c.rwc + cntIn os s.region

theorem fresh_region (os : List Out) (r : Nat) (h : ∀ o ∈ os, o.region ≤ r) :
    cntIn os (r + 1) = 0 ∧ selIn os (r + 1) = 0 ∧ againIn os (r + 1) = 0 := by
  have h1 : cntIn os (r + 1) = 0 := by
    unfold cntIn
    rw [List.length_eq_zero_iff, List.filter_eq_nil_iff]
    intro o ho
    have := h o ho
    simp
    omega
  have h2 := selIn_le os (r + 1)
  refine ⟨h1, by omega, ?_⟩
  unfold againIn
  rw [List.length_eq_zero_iff, List.filter_eq_nil_iff]
  intro o ho
  have := h o ho
  simp
  omega

theorem remaining_eq (x y : Nat) (h : y ≤ x) (hx : x < 2 ^ 64) : (x + 2 ^ 64 - y) % 2 ^ 64 = x - y := by
  have : x + 2 ^ 64 - y = (x - y) + 2 ^ 64 := by omega
  rw [this, Nat.add_mod_right, Nat.mod_eq_of_lt (by omega)]

/-- The count after one more write in the same region. -/
theorem cnt_same (c : Cfg) (os : List Out) (s s' : St) (C S C' S' : List Nat) (o : Out) (h : Cnt c os s C S) (hreg : s'.region = s.region)
    (ho : o.region = s.region) (hcur : s'.remaining + C'.length + 1 = s.remaining + C.length)
    (hinv : s'.inv (!s'.phase) = S'.length) (hS : S'.length = S.length + (if o.sel = true then 1 else 0))
    (hC : C.length = C'.length + (if o.fresh = false then 1 else 0))
    (hpos : c.num ≤ s'.region → 0 < s'.remaining) : Cnt c (os ++ [o]) s' C' S' := by
  obtain ⟨h1, h2, h3, h4, h5, _, h6⟩ := h
  refine ⟨?_, hinv, ?_, ?_, ?_, hpos, ?_⟩
  · rw [hreg, cntIn_snoc, if_pos ho]; omega
  · rw [hreg, selIn_snoc, hS, h3]
    simp [ho]
  · intro r hr
    rw [hreg] at hr
    rw [cntIn_snoc, if_neg (by omega), h4 r hr]
    simp
  · intro r hr
    rw [hreg] at hr
    rw [selIn_snoc, if_neg (by omega), againIn_snoc, h5 r hr, hreg]
    by_cases hlast : r + 1 = s.region
    · rw [if_pos hlast, if_pos hlast]
      by_cases hf : o.fresh = false
      · rw [if_pos ⟨by omega, hf⟩]
        rw [if_pos hf] at hC
        omega
      · rw [if_neg (by simp [hf])]
        rw [if_neg hf] at hC
        omega
    · rw [if_neg hlast, if_neg hlast, if_neg (by omega)]
  · rw [hreg, cntIn_snoc, if_pos ho]
    simp
    omega

/-- And after the first write in the next region. -/
theorem cnt_next (c : Cfg) (os : List Out) (s s' : St) (S C' S' : List Nat) (o : Out) (h : Cnt c os s [] S) (hrem : s.remaining = 0)
    (hold : ∀ o ∈ os, o.region ≤ s.region) (hreg : s'.region = s.region + 1)
    (ho : o.region = s.region + 1) (hcur : s'.remaining + C'.length + 1 = c.rwc)
    (hinv : s'.inv (!s'.phase) = S'.length) (hS : S'.length = (if o.sel = true then 1 else 0))
    (hC : S.length = C'.length + (if o.fresh = false then 1 else 0))
    (hpos : c.num ≤ s'.region → 0 < s'.remaining) : Cnt c (os ++ [o]) s' C' S' := by
  obtain ⟨h1, h2, h3, h4, h5, _, h6⟩ := h
  obtain ⟨f1, f2, f3⟩ := fresh_region os s.region hold
  have hfull : cntIn os s.region = c.rwc := by simp at h1; omega
  refine ⟨?_, hinv, ?_, ?_, ?_, hpos, ?_⟩
  · rw [hreg, cntIn_snoc, if_pos ho]; omega
  · rw [hreg, selIn_snoc, hS, f2]
    simp [ho]
  · intro r hr
    rw [hreg] at hr
    rw [cntIn_snoc, if_neg (by omega)]
    by_cases hl : r = s.region
    · subst hl; omega
    · exact h4 r (by omega)
  · intro r hr
    rw [hreg] at hr ⊢
    rw [selIn_snoc, if_neg (by omega), againIn_snoc]
    by_cases hl : r = s.region
    · subst hl
      rw [f3, h3, if_pos rfl]
      by_cases hf : o.fresh = false
      · rw [if_pos ⟨ho, hf⟩]
        rw [if_pos hf] at hC
        omega
      · rw [if_neg (by simp [hf])]
        rw [if_neg hf] at hC
        omega
    · rw [if_neg (by omega), if_neg (by omega), h5 r (by omega)]
      by_cases h8 : r + 1 = s.region
      · rw [if_pos h8]; simp
      · rw [if_neg h8]
  · rw [hreg, cntIn_snoc, if_pos ho, f1]
    simp [h6, hfull, Nat.add_mul]

theorem added_phase {c : Cfg} {s s' : St} {C S : List Nat} {o v : Nat} {sel : Bool} (h : Added c s s' C S o v sel) :
    s'.inv (!s'.phase) = s.inv (!s.phase) + (if sel then 1 else 0) := by
  rw [h.phase]; exact h.inv

theorem cnt_off (c : Cfg) (cap : Nat) (L : List Nat) (os : List Out) (s : St) (C S : List Nat) (v : Nat) (o : Out) (s' : St)
    (hw : c.rwc < 2 ^ 64) (hb : Base c cap L os s C S) (h : Cnt c os s C S) (hg : cntIn os s.region = c.rwc → selIn os s.region < c.rwc)
    (hp : c.pct.length ≤ c.num) (hn : Nx c s C S v (.off o s')) :
    ∃ C' S', Base c cap L (os ++ [o]) s' C' S' ∧ Cnt c (os ++ [o]) s' C' S' := by
  have key : ∀ C' S', Rep s'.ring C' S' → Cnt c (os ++ [o]) s' C' S' → ∃ C' S', Base c cap L (os ++ [o]) s' C' S' ∧ Cnt c (os ++ [o]) s' C' S' := by
    intro C' S' hr hc
    obtain ⟨C1, S1, hb1⟩ := base_off c cap L os s C S v o s' hp hb hn
    have e1 : C1.length = C'.length := by rw [← rep_committed hb1.rep, rep_committed hr]
    have e2 : S1.length = S'.length := by rw [← rep_staged hb1.rep, rep_staged hr]
    obtain ⟨k1, k2, k3, k4, k5, k6, k7⟩ := hc
    exact ⟨C1, S1, hb1, ⟨by rw [e1]; exact k1, by rw [e2]; exact k2, by rw [e2]; exact k3, k4, by rw [e1]; exact k5, k6, k7⟩⟩
  cases hn with
  | again b C' sel r _ hC ha hr =>
    subst hC
    apply key _ _ ha.rep
    refine cnt_same c os s s' _ S _ _ _ h ha.region rfl ?_ ?_ ?_ ?_ ?_
    · rw [ha.remaining]; simp; omega
    · rw [added_phase ha]
      have := h.inv
      cases sel <;> simp <;> exact this
    · cases sel <;> simp
    · simp
    · intro hh
      obtain ⟨p, hpp, _⟩ := ha.draw
      have := (List.getElem?_eq_some_iff.1 hpp).1
      rw [ha.region] at hh
      simp only at hh this
      omega
  | fresh b l sel _ hl hrem hC ha =>
    apply key _ _ ha.rep
    refine cnt_same c os s s' C S _ _ _ h ha.region rfl ?_ ?_ ?_ ?_ ?_
    · rw [ha.remaining]; simp only; omega
    · rw [added_phase ha]
      have := h.inv
      cases sel <;> simp <;> exact this
    · cases sel <;> simp
    · simp
    · intro hh
      obtain ⟨p, hpp, _⟩ := ha.draw
      have := (List.getElem?_eq_some_iff.1 hpp).1
      rw [ha.region] at hh
      simp only at hh this
      omega
  | move b l sel _ hl hrem hC hreg ha =>
    subst hC
    have hf := advance_fields c s
    have hfull : cntIn os s.region = c.rwc := by have := h.cur; simp at this; omega
    have hS : S.length < c.rwc := by rw [← h.sel]; exact hg hfull
    have hrm : (advance c s).remaining = c.rwc - S.length := by
      rw [hf.2.2.2.2.1, h.inv, remaining_eq _ _ (by omega) hw]
    apply key _ _ ha.rep
    refine cnt_next c os s s' S _ _ _ h hrem hb.reg (by rw [ha.region]; exact hf.1) rfl ?_ ?_ ?_ ?_ ?_
    · rw [ha.remaining]; simp only; omega
    · rw [added_phase ha]
      have e : (advance c s).inv (!(advance c s).phase) = 0 := by
        rw [hf.2.2.2.1, Bool.not_not]; exact hf.2.2.2.2.2
      have e' : ∀ (x : St) (l : List Nat) (n : Nat) (p : Bool), ({ x with lfsr := l, remaining := n } : St).inv p = x.inv p := fun _ _ _ _ => rfl
      rw [e']
      cases sel <;> simp <;> simpa using e
    · cases sel <;> simp
    · simp
    · intro hh
      obtain ⟨p, hpp, _⟩ := ha.draw
      have := (List.getElem?_eq_some_iff.1 hpp).1
      rw [ha.region] at hh
      simp only at hh this
      omega
  | drain b C' r hC hl hrem hr hcap =>
    subst hC
    apply key C' S hr
    refine cnt_same c os s _ _ S _ _ _ h rfl rfl ?_ h.inv ?_ ?_ h.pos
    · simp; omega
    · simp
    · simp
  | drainMove b S' r hC hS hl hcch hrem hreg hr hcap =>
    subst hC
    subst hS
    have hf := advance_fields c s
    have hfull : cntIn os s.region = c.rwc := by have := h.cur; simp at this; omega
    have hS : (b :: S').length < c.rwc := by rw [← h.sel]; exact hg hfull
    have hrm : (advance c s).remaining = c.rwc - (b :: S').length := by
      rw [hf.2.2.2.2.1, h.inv, remaining_eq _ _ (by omega) hw]
    simp only [List.length_cons] at hS hrm
    apply key S' [] hr
    refine cnt_next c os s _ (b :: S') _ _ _ h hrem hb.reg hf.1 rfl ?_ ?_ ?_ ?_ ?_
    · simp only; omega
    · have e : (advance c s).inv (!(advance c s).phase) = 0 := by
        rw [hf.2.2.2.1, Bool.not_not]; exact hf.2.2.2.2.2
      exact e
    · simp
    · simp
    · intro _
      simp only
      omega

theorem notAll_snoc {rwc : Nat} {os os' : List Out} (h : notAll rwc (os ++ os')) (r : Nat) : cntIn os r = rwc → selIn os r < rwc :=
  h os (List.prefix_append _ _) r

/-- A run in which no region is drawn completely. -/
theorem run_cnt (c : Cfg) (cap : Nat) (hcap : cap < 2 ^ 64) (hw : c.rwc < 2 ^ 64) (hp : c.pct.length ≤ c.num) (L : List Nat) (vs : List Nat) :
    ∀ (os : List Out) (s : St) (C S : List Nat), Base c cap L os s C S → Cnt c os s C S → notAll c.rwc (os ++ (run c s vs).1) →
      ∃ s' C' S', Base c cap L (os ++ (run c s vs).1) s' C' S' ∧ Cnt c (os ++ (run c s vs).1) s' C' S' ∧
        ((run c s vs).2 = .crash → c.rwc + 1 ≤ cap → c.pct.length = c.num → 
          s'.region + 1 = c.num ∧ s'.remaining = 0 ∧ C' = [] ∧ vs.length > (run c s vs).1.length) := by
  induction vs with
  | nil =>
    intro os s C S hb h hg
    exact ⟨s, C, S, by simpa [run] using hb, by simpa [run] using h, by simp [run]⟩
  | cons v vs ih =>
    intro os s C S hb h hg
    have hn := next_spec c s C S v hb.rep (by rw [hb.cap]; exact hcap)
    have hg' : ∀ r, cntIn os r = c.rwc → selIn os r < c.rwc := notAll_snoc hg
    unfold run at hg ⊢
    generalize hx : next c s v = x at hn hg
    cases x with
    | crash =>
      refine ⟨s, C, S, by simpa using hb, by simpa using h, ?_⟩
      intro _ hcp hpl
      simp only [List.length_nil, List.length_cons, gt_iff_lt, Nat.zero_lt_succ, and_true]
      have h1 := h.cur
      have h2 := h.sel
      have h3 := selIn_le os s.region
      cases hn with
      | crash s1 C1 S1 hh hs =>
        rw [hb.cap] at hh
        rcases hs with ⟨a1, a2, a3, a4, a5⟩ | ⟨a1, a2, a3, a4, a5, a6⟩
        · exfalso
          subst a2
          rcases hh with hh | hh
          · rw [List.getElem?_eq_none_iff, a1] at hh
            rcases hb.num with hr | hr
            · omega
            · have := h.pos (by omega)
              have := a5 hr.1 hr.2
              omega
          · apply hh
            by_cases e : C1.length = C.length
            · have := a4 e; omega
            · omega
        · subst a3
          subst a5
          subst a6
          rcases hh with hh | hh
          · rw [List.getElem?_eq_none_iff, a1] at hh
            exact ⟨by omega, a2, rfl⟩
          · exfalso
            apply hh
            have : cntIn os s.region = c.rwc := by simp at h1; omega
            have := hg' _ this
            simp
            omega
    | done s1 =>
      simp only
      exact ⟨s, C, S, by simpa using hb, by simpa using h, by simp⟩
    | off o s1 =>
      simp only at hg ⊢
      obtain ⟨C1, S1, hb1, hc1⟩ := cnt_off c cap L os s C S v o s1 hw hb h (hg' _) hp hn
      have e : os ++ o :: (run c s1 vs).1 = os ++ [o] ++ (run c s1 vs).1 := by simp
      rw [e] at hg ⊢
      obtain ⟨s', C', S', h1, h2, h3⟩ := ih (os ++ [o]) s1 C1 S1 hb1 hc1 hg
      refine ⟨s', C', S', h1, h2, ?_⟩
      intro hcr hcp hpl
      obtain ⟨b1, b2, b3, b4⟩ := h3 hcr hcp hpl
      exact ⟨b1, b2, b3, by simp only [List.length_cons]; omega⟩

theorem cnt_init (c : Cfg) (cap : Nat) (L : List Nat) (hn : 0 < c.num) : Cnt c [] (init c cap L) [] [] :=
  ⟨by simp [cntIn, init], by simp [init, St.inv], by simp [selIn, init], fun r hr => by simp [init] at hr, fun r hr => by simp [init] at hr,
    fun h => by simp [init] at h; omega, by simp [init, cntIn]⟩

theorem cntIn_le (c : Cfg) (os : List Out) (s : St) (C S : List Nat) (h : Cnt c os s C S) : cntIn os s.region ≤ c.rwc := by
  have := h.cur
  omega

/-- **C88.**  As long as no region is drawn completely, every region that is left has had its number of writes, and every block drawn in
it is written again in the region after it. -/
theorem C88_regions_partial (c : Cfg) (cap : Nat) (L vs : List Nat) (hcap0 : 0 < cap) (hcap : cap < 2 ^ 64) (hw : c.rwc < 2 ^ 64) (hn : 0 < c.num)
    (hp : c.pct.length ≤ c.num) (hg : notAll c.rwc (run c (init c cap L) vs).1) :
    (∀ r, (∃ o ∈ (run c (init c cap L) vs).1, r < o.region) → cntIn (run c (init c cap L) vs).1 r = c.rwc) ∧
    (∀ r, (∃ o ∈ (run c (init c cap L) vs).1, r + 1 < o.region) →
      againIn (run c (init c cap L) vs).1 (r + 1) = selIn (run c (init c cap L) vs).1 r) ∧
    (run c (init c cap L) vs).1.length ≤ (c.num + 1) * c.rwc := by
  obtain ⟨s', C', S', hb, hc, _⟩ := run_cnt c cap hcap hw hp L vs [] _ [] [] (base_init c cap L hcap0 hn) (cnt_init c cap L hn) (by simpa using hg)
  simp only [List.nil_append] at hb hc
  generalize (run c (init c cap L) vs).1 = os at hb hc
  refine ⟨?_, ?_, ?_⟩
  · rintro r ⟨o, ho, hr⟩
    have := hb.reg o ho
    exact hc.past r (by omega)
  · rintro r ⟨o, ho, hr⟩
    have := hb.reg o ho
    have h2 := hc.again r (by omega)
    rw [if_neg (by omega)] at h2
    omega
  · rw [hc.len]
    have h1 := cntIn_le c os s' C' S' hc
    have h2 : s'.region ≤ c.num := hb.le
    calc s'.region * c.rwc + cntIn os s'.region ≤ c.num * c.rwc + c.rwc := Nat.add_le_add (Nat.mul_le_mul_right _ h2) h1
      _ = (c.num + 1) * c.rwc := by rw [Nat.add_mul, Nat.one_mul]

/-- **C88.**  If further the ring has room for the writes of a region, nothing fails before all regions have had all their writes. -/
theorem C88_no_failure_partial (c : Cfg) (cap : Nat) (L vs : List Nat) (hcap : cap < 2 ^ 64) (hroom : c.rwc + 1 ≤ cap) (hn : 0 < c.num)
    (hp : c.pct.length = c.num) (hg : notAll c.rwc (run c (init c cap L) vs).1) (hlen : vs.length ≤ c.num * c.rwc) :
    (run c (init c cap L) vs).2 ≠ .crash := by
  intro hcr
  obtain ⟨s', C', S', hb, hc, h⟩ := run_cnt c cap hcap (by omega) (by omega) L vs [] _ [] [] (base_init c cap L (by omega) hn) (cnt_init c cap L hn)
    (by simpa using hg)
  obtain ⟨h1, h2, h3, h4⟩ := h hcr hroom hp
  simp only [List.nil_append] at hb hc
  have h5 := hc.len
  have h6 := hc.cur
  subst h3
  simp only [List.length_nil, h2] at h6
  have h7 : (run c (init c cap L) vs).1.length = c.num * c.rwc := by
    rw [h5, ← h1, Nat.add_mul]
    omega
  omega

/-! ## The ring -/

theorem ring_rep (ops : List Op) : ∀ (r : Ring) (C S : List Nat), Rep r C S → r.cap < 2 ^ 64 → ring r ops = some (queues (r.cap - 1) C S ops) := by
  induction ops with
  | nil => intro r C S _ _; simp [ring, queues]
  | cons op ops ih =>
    intro r C S h hc
    cases op with
    | push v =>
      have hs := rep_space h hc
      by_cases hroom : C.length + S.length + 1 < r.cap
      · obtain ⟨r', h1, h2, h3⟩ := rep_push h hroom v
        simp only [ring, queues]
        rw [if_pos (hs.2 hroom), if_pos (by omega), h1, Option.bind_some, ih r' _ _ h3 (by rw [h2]; exact hc), h2]
        rfl
      · simp only [ring, queues]
        rw [if_neg (fun e => hroom (hs.1 e)), if_neg (by omega), ih r _ _ h hc]
        rfl
    | commit =>
      simp only [ring, queues]
      rw [ih r.commit _ _ (rep_commit h) hc]
      rfl
    | pop =>
      rcases pop_iff h with ⟨h1, h2⟩ | ⟨v, C', r', h1, h2, h3, h4⟩
      · subst h1
        simp only [ring, queues, h2]
        rw [ih r _ _ h hc]
        rfl
      · subst h1
        simp only [ring, queues, h2]
        rw [ih r' _ _ h4 (by rw [h3]; exact hc), h3]
        rfl

/-- **C88.**  A ring of `cap` places is a pair of queues with room for `cap - 1` elements: what was pushed can be taken after a commit, in
order, once. -/
theorem C88_ring (cap : Nat) (h0 : 0 < cap) (hc : cap < 2 ^ 64) (ops : List Op) : ring (Ring.new cap) ops = some (queues (cap - 1) [] [] ops) :=
  ring_rep ops _ _ _ (rep_new cap h0) hc

end Fio.Spr
