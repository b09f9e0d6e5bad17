import Verif.Spr.Spec
/-!
# Lemmas on sprandom
-/

namespace Fio.Spr

open Spec

/-! ## The ring -/

theorem mod_two (x c : Nat) (h : x < 2 * c) : x % c = if x < c then x else x - c := by
  split
  · exact Nat.mod_eq_of_lt (by assumption)
  · rw [Nat.mod_eq_sub_mod (by omega), Nat.mod_eq_of_lt (by omega)]

/-- The ring has the committed blocks `C` and then the staged blocks `S`. -/
structure Rep (r : Ring) (C S : List Nat) : Prop where
  len : r.buf.length = r.cap
  rt : r.rt < r.cap
  ch : r.ch = (r.rt + C.length) % r.cap
  sh : r.sh = (r.rt + C.length + S.length) % r.cap
  room : C.length + S.length < r.cap
  get : ∀ i, i < C.length + S.length → r.buf[(r.rt + i) % r.cap]? = (C ++ S)[i]?

theorem rep_new (cap : Nat) (h : 0 < cap) : Rep (Ring.new cap) [] [] :=
  ⟨by simp [Ring.new], h, by simp [Ring.new], by simp [Ring.new], by simpa [Ring.new] using h, fun i hi => by simp at hi⟩

theorem rep_committed {r : Ring} {C S : List Nat} (h : Rep r C S) : r.committed = C.length := by
  have h1 := h.rt
  have h2 := h.room
  have h3 := h.ch
  rw [mod_two _ _ (by omega)] at h3
  unfold Ring.committed
  split at h3 <;> split <;> omega

theorem rep_staged {r : Ring} {C S : List Nat} (h : Rep r C S) : r.staged = S.length := by
  have h1 := h.rt
  have h2 := h.room
  have h3 := h.ch
  have h4 := h.sh
  rw [mod_two _ _ (by omega)] at h3 h4
  unfold Ring.staged
  split at h3 <;> split at h4 <;> split <;> omega

theorem rep_space {r : Ring} {C S : List Nat} (h : Rep r C S) (hc : r.cap < 2 ^ 64) :
    r.space = true ↔ C.length + S.length + 1 < r.cap := by
  unfold Ring.space
  rw [rep_committed h, rep_staged h]
  have := h.rt
  have e : (r.cap + 2 ^ 64 - 1) % 2 ^ 64 = r.cap - 1 := by
    have : r.cap + 2 ^ 64 - 1 = (r.cap - 1) + 2 ^ 64 := by omega
    rw [this, Nat.add_mod_right, Nat.mod_eq_of_lt (by omega)]
  rw [e]
  simp
  omega

theorem rep_push {r : Ring} {C S : List Nat} (h : Rep r C S) (hroom : C.length + S.length + 1 < r.cap) (v : Nat) :
    ∃ r', r.push v = some r' ∧ r'.cap = r.cap ∧ Rep r' C (S ++ [v]) := by
  have h1 := h.rt
  have h4 := h.sh
  have h4' := h4
  rw [mod_two _ _ (by omega)] at h4'
  have hshlt : r.sh < r.cap := by rw [h4]; exact Nat.mod_lt _ (by omega)
  have hfull : (r.sh + 1) % r.cap ≠ r.rt := by
    rw [mod_two _ _ (by omega)]
    split at h4' <;> split <;> omega
  have hsh1 : (r.sh + 1) % r.cap = (r.rt + C.length + (S ++ [v]).length) % r.cap := by
    rw [h4, Nat.mod_add_mod]
    congr 1
    simp
    omega
  refine ⟨{ r with buf := r.buf.set r.sh v, sh := (r.sh + 1) % r.cap }, ?_, rfl, ?_⟩
  · unfold Ring.push
    rw [if_neg (by omega), if_neg hfull, if_pos (by rw [h.len]; exact hshlt)]
  · refine ⟨by simp [h.len], h1, h.ch, hsh1, by simp; omega, ?_⟩
    intro i hi
    simp only [List.length_append, List.length_singleton] at hi
    by_cases hlast : i = C.length + S.length
    · subst hlast
      have e : (r.rt + (C.length + S.length)) % r.cap = r.sh := by rw [h4]; congr 1; omega
      rw [e, List.getElem?_set_self (by rw [h.len]; exact hshlt)]
      have ea : C ++ (S ++ [v]) = (C ++ S) ++ [v] := by simp
      rw [ea, List.getElem?_append_right (by simp)]
      simp
    · have hne : r.sh ≠ (r.rt + i) % r.cap := by
        rw [mod_two (r.rt + i) _ (by omega)]
        split at h4' <;> split <;> omega
      rw [List.getElem?_set_ne hne, h.get i (by omega)]
      have ea : C ++ (S ++ [v]) = (C ++ S) ++ [v] := by simp
      have hi' : i < (C ++ S).length := by simp only [List.length_append]; omega
      rw [ea, List.getElem?_append_left hi']

theorem rep_commit {r : Ring} {C S : List Nat} (h : Rep r C S) : Rep r.commit (C ++ S) [] := by
  refine ⟨h.len, h.rt, ?_, ?_, ?_, ?_⟩
  · simp only [Ring.commit]
    rw [h.sh]
    congr 1
    simp
    omega
  · simp only [Ring.commit]
    rw [h.sh]
    congr 1
    simp
    omega
  · have := h.room
    simp [Ring.commit]
    exact this
  · intro i hi
    simp only [List.length_append, List.length_nil, Nat.add_zero] at hi
    simpa [Ring.commit] using h.get i hi

theorem rep_pop_nil {r : Ring} {S : List Nat} (h : Rep r [] S) : r.pop = .empty := by
  unfold Ring.pop
  have := h.ch
  rw [if_pos]
  rw [this]
  simp [Nat.mod_eq_of_lt h.rt]

theorem rep_pop_cons {r : Ring} {v : Nat} {C S : List Nat} (h : Rep r (v :: C) S) :
    ∃ r', r.pop = .got v r' ∧ r'.cap = r.cap ∧ Rep r' C S := by
  have h1 := h.rt
  have h2 := h.room
  simp only [List.length_cons] at h2
  have h3 := h.ch
  have hne : r.rt ≠ r.ch := by
    rw [h3, List.length_cons, mod_two _ _ (by omega)]
    split <;> omega
  have hg := h.get 0 (by simp; omega)
  rw [Nat.add_zero, Nat.mod_eq_of_lt h1] at hg
  simp at hg
  refine ⟨{ r with rt := (r.rt + 1) % r.cap }, ?_, rfl, ?_⟩
  · unfold Ring.pop
    rw [if_neg hne, if_neg (by omega), hg]
  · refine ⟨h.len, Nat.mod_lt _ (by omega), ?_, ?_, by simp only; omega, ?_⟩
    · simp only
      rw [h3, Nat.mod_add_mod]
      congr 1
      simp
      omega
    · simp only
      rw [h.sh, Nat.add_assoc ((r.rt + 1) % r.cap), Nat.mod_add_mod]
      congr 1
      simp
      omega
    · intro i hi
      have := h.get (i + 1) (by simp; omega)
      simp only
      rw [Nat.mod_add_mod]
      have e : r.rt + 1 + i = r.rt + (i + 1) := by omega
      rw [e, this]
      simp

theorem pop_iff {r : Ring} {C S : List Nat} (h : Rep r C S) :
    (C = [] ∧ r.pop = .empty) ∨ (∃ v C' r', C = v :: C' ∧ r.pop = .got v r' ∧ r'.cap = r.cap ∧ Rep r' C' S) := by
  cases C with
  | nil => exact Or.inl ⟨rfl, rep_pop_nil h⟩
  | cons v C =>
    obtain ⟨r', h1, h2, h3⟩ := rep_pop_cons h
    exact Or.inr ⟨v, C, r', rfl, h1, h2, h3⟩

/-! ## One call -/

theorem inv_setInv_same (s : St) (p : Bool) (v : Nat) : (s.setInv p v).inv p = v := by
  cases p <;> rfl

theorem inv_setInv_other (s : St) (p : Bool) (v : Nat) : (s.setInv p v).inv (!p) = s.inv (!p) := by
  cases p <;> rfl

theorem setInv_fields (s : St) (p : Bool) (v : Nat) :
    (s.setInv p v).ring = s.ring ∧ (s.setInv p v).phase = s.phase ∧ (s.setInv p v).region = s.region ∧
    (s.setInv p v).remaining = s.remaining ∧ (s.setInv p v).lfsr = s.lfsr := by
  cases p <;> exact ⟨rfl, rfl, rfl, rfl, rfl⟩

/-- What `add` leaves. -/
structure Added (c : Cfg) (s s' : St) (C S : List Nat) (o v : Nat) (sel : Bool) : Prop where
  rep : Rep s'.ring C (if sel then S ++ [o] else S)
  cap : s'.ring.cap = s.ring.cap
  phase : s'.phase = s.phase
  region : s'.region = s.region
  remaining : s'.remaining = s.remaining
  lfsr : s'.lfsr = s.lfsr
  inv : s'.inv (!s.phase) = s.inv (!s.phase) + (if sel then 1 else 0)
  draw : ∃ p, c.pct[s.region]? = some p ∧ (sel = true ↔ v ≤ p)

theorem add_spec (c : Cfg) (s : St) (C S : List Nat) (o v : Nat) (fresh : Bool) (h : Rep s.ring C S) (hc : s.ring.cap < 2 ^ 64) :
    (add c s o v fresh = .crash ∧ (c.pct[s.region]? = none ∨ ¬ C.length + S.length + 1 < s.ring.cap)) ∨
    ∃ sel s', add c s o v fresh = .off ⟨o, fresh, sel, s.region⟩ s' ∧ Added c s s' C S o v sel := by
  unfold add
  cases hp : c.pct[s.region]? with
  | none => exact Or.inl ⟨rfl, Or.inl rfl⟩
  | some p =>
    simp only
    by_cases hv : v ≤ p
    · rw [if_pos hv]
      by_cases hs : s.ring.space = true
      · have hroom := (rep_space h hc).1 hs
        obtain ⟨r', h1, h2, h3⟩ := rep_push h hroom o
        rw [if_pos hs, h1]
        refine Or.inr ⟨true, _, rfl, ?_⟩
        have hf := setInv_fields { s with ring := r' } (!s.phase) (s.inv (!s.phase) + 1)
        refine ⟨by rw [hf.1]; exact h3, by rw [hf.1]; exact h2, hf.2.1, hf.2.2.1, hf.2.2.2.1, hf.2.2.2.2, ?_, ⟨p, hp, by simpa using hv⟩⟩
        rw [inv_setInv_same]
        rfl
      · rw [if_neg hs]
        exact Or.inl ⟨rfl, Or.inr (fun hh => hs ((rep_space h hc).2 hh))⟩
    · rw [if_neg hv]
      exact Or.inr ⟨false, s, rfl, ⟨h, rfl, rfl, rfl, rfl, rfl, rfl, ⟨p, hp, by simpa using hv⟩⟩⟩

/-- What one call does, on the blocks in the ring. -/
inductive Nx (c : Cfg) (s : St) (C S : List Nat) (v : Nat) : Res → Prop
  /-- It fails: no share for the region, or no room. -/
  | crash (s1 : St) (C1 S1 : List Nat) (h : c.pct[s1.region]? = none ∨ ¬ C1.length + S1.length + 1 < s.ring.cap)
      (hs : (s1.region = s.region ∧ S1 = S ∧ C1.length ≤ C.length ∧ (C1.length = C.length → 0 < s.remaining) ∧
          (s.lfsr = [] → c.cache = true → s.remaining = 0)) ∨
        (s1.region = s.region + 1 ∧ s.remaining = 0 ∧ C = [] ∧ s.region < c.num ∧ C1 = S ∧ S1 = [])) : Nx c s C S v .crash
  /-- A block is written again. -/
  | again (o : Nat) (C' : List Nat) (sel : Bool) (r : Ring) (s' : St) (hC : C = o :: C') (h : Added c { s with ring := r } s' C' S o v sel)
      (hr : r.cap = s.ring.cap) : Nx c s C S v (.off ⟨o, false, sel, s.region⟩ s')
  /-- A new block in the same region. -/
  | fresh (o : Nat) (l : List Nat) (sel : Bool) (s' : St) (hl : s.lfsr = o :: l) (hrem : 0 < s.remaining) (hC : c.cache = false → C = [])
      (h : Added c { s with lfsr := l, remaining := s.remaining - 1 } s' C S o v sel) : Nx c s C S v (.off ⟨o, true, sel, s.region⟩ s')
  /-- A new block in the next region. -/
  | move (o : Nat) (l : List Nat) (sel : Bool) (s' : St) (hl : s.lfsr = o :: l) (hrem : s.remaining = 0) (hC : C = []) (hreg : s.region < c.num)
      (h : Added c { advance c s with lfsr := l, remaining := (advance c s).remaining - 1 } s' S [] o v sel) :
      Nx c s C S v (.off ⟨o, true, sel, s.region + 1⟩ s')
  /-- There are no new blocks, and one of the ring is written again. -/
  | drain (o : Nat) (C' : List Nat) (r : Ring) (hC : C = o :: C') (hl : s.lfsr = []) (hrem : 0 < s.remaining) (hr : Rep r C' S) (hcap : r.cap = s.ring.cap) :
      Nx c s C S v (.off ⟨o, false, false, s.region⟩ { s with ring := r })
  /-- The same in the next region. -/
  | drainMove (o : Nat) (S' : List Nat) (r : Ring) (hC : C = []) (hS : S = o :: S') (hl : s.lfsr = []) (hcache : c.cache = true) (hrem : s.remaining = 0) (hreg : s.region < c.num)
      (hr : Rep r S' []) (hcap : r.cap = s.ring.cap) : Nx c s C S v (.off ⟨o, false, false, s.region + 1⟩ { advance c s with ring := r })
  /-- The end: no new blocks. -/
  | done (hl : s.lfsr = []) (hC : C = []) (hrem : 0 < s.remaining) : Nx c s C S v (.done s)
  /-- The end in the next region. -/
  | doneMove (hl : s.lfsr = []) (hC : C = []) (hrem : s.remaining = 0) (hreg : s.region < c.num) (hcache : c.cache = true → S = []) :
      Nx c s C S v (.done (advance c s))
  /-- The end: no more regions. -/
  | doneReg (hC : C = []) (hrem : s.remaining = 0) (hreg : c.num ≤ s.region) : Nx c s C S v (.done s)

theorem advance_rep (c : Cfg) (s : St) (S : List Nat) (h : Rep s.ring [] S) : Rep (advance c s).ring S [] := by
  have := rep_commit h
  simp only [advance, (setInv_fields s s.phase 0).1]
  simpa using this

theorem advance_fields (c : Cfg) (s : St) : (advance c s).region = s.region + 1 ∧ (advance c s).lfsr = s.lfsr ∧
    (advance c s).ring.cap = s.ring.cap ∧ (advance c s).phase = !s.phase ∧
    (advance c s).remaining = (c.rwc + 2 ^ 64 - s.inv (!s.phase)) % 2 ^ 64 ∧ (advance c s).inv s.phase = 0 := by
  have h := setInv_fields s s.phase 0
  refine ⟨by simp only [advance, h.2.2.1], by simp only [advance, h.2.2.2.2], by simp only [advance, h.1, Ring.commit],
    by simp only [advance, h.2.1], ?_, ?_⟩
  · simp only [advance]
    rw [h.2.1, inv_setInv_other]
  · have : (advance c s).inv s.phase = (s.setInv s.phase 0).inv s.phase := rfl
    rw [this, inv_setInv_same]

/-- `fetch` in the same region. -/
theorem fetch_spec (c : Cfg) (s : St) (C S : List Nat) (v : Nat) (h : Rep s.ring C S) (hc : s.ring.cap < 2 ^ 64) (hrem : 0 < s.remaining)
    (hC : c.cache = false → C = []) : Nx c s C S v (fetch c s v) := by
  unfold fetch
  cases hl : s.lfsr with
  | nil =>
    simp only
    by_cases hcc : c.cache = true
    · rw [if_pos hcc]
      rcases pop_iff h with ⟨h1, h2⟩ | ⟨o, C', r', h1, h2, h3, h4⟩
      · rw [h2]
        exact .done hl h1 hrem
      · rw [h2]
        have := Nx.drain (c := c) (v := v) o C' r' h1 hl hrem h4 h3
        rw [hl] at this
        exact this
    · rw [if_neg hcc]
      exact .done hl (hC (by simpa using hcc)) hrem
  | cons o l =>
    simp only
    rcases add_spec c { s with lfsr := l, remaining := s.remaining - 1 } C S o v true h hc with ⟨h1, h2⟩ | ⟨sel, s', h1, h2⟩
    · rw [h1]
      exact .crash s C S h2 (Or.inl ⟨rfl, rfl, Nat.le_refl _, fun _ => hrem, fun e => by simp [hl] at e⟩)
    · rw [h1]
      exact .fresh o l sel s' hl hrem hC h2

theorem nextRegion_spec (c : Cfg) (s : St) (S : List Nat) (v : Nat) (h : Rep s.ring [] S) (hc : s.ring.cap < 2 ^ 64) (hrem : s.remaining = 0) :
    Nx c s [] S v (nextRegion c s v) := by
  unfold nextRegion
  by_cases hreg : s.region ≥ c.num
  · rw [if_pos hreg]
    exact .doneReg rfl hrem hreg
  · rw [if_neg hreg]
    have hf := advance_fields c s
    have hrep := advance_rep c s S h
    unfold fetch
    rw [hf.2.1]
    cases hl : s.lfsr with
    | nil =>
      simp only
      by_cases hcc : c.cache = true
      · rw [if_pos hcc]
        rcases pop_iff hrep with ⟨h1, h2⟩ | ⟨o, C', r', h1, h2, h3, h4⟩
        · rw [h2]
          exact .doneMove hl rfl hrem (Nat.lt_of_not_le hreg) (fun _ => h1)
        · rw [h2, hf.1]
          have := Nx.drainMove (c := c) (s := s) (v := v) (C := []) o C' r' rfl h1 hl hcc hrem (Nat.lt_of_not_le hreg) h4 (by rw [h3, hf.2.2.1])
          have e : ({ advance c s with ring := r' } : St) =
              ⟨r', (advance c s).inv0, (advance c s).inv1, (advance c s).phase, s.region + 1, (advance c s).remaining, []⟩ := by
            rw [← hf.1, ← hl, ← hf.2.1]
          rw [e] at this
          exact this
      · rw [if_neg hcc]
        exact .doneMove hl rfl hrem (Nat.lt_of_not_le hreg) (fun h => absurd h hcc)
    | cons o l =>
      simp only
      rcases add_spec c { advance c s with lfsr := l, remaining := (advance c s).remaining - 1 } S [] o v true hrep (by simp only; rw [hf.2.2.1]; exact hc)
        with ⟨h1, h2⟩ | ⟨sel, s', h1, h2⟩
      · rw [h1]
        exact .crash (advance c s) S [] (by simp only at h2; rw [hf.2.2.1] at h2; exact h2) (Or.inr ⟨hf.1, hrem, rfl, Nat.lt_of_not_le hreg, rfl, rfl⟩)
      · rw [h1]
        simp only [hf.1]
        exact .move o l sel s' hl hrem rfl (Nat.lt_of_not_le hreg) h2

theorem popOr_spec (c : Cfg) (s : St) (C S : List Nat) (v : Nat) (k : Res) (h : Rep s.ring C S) (hc : s.ring.cap < 2 ^ 64)
    (hcz : c.cache = true → s.remaining = 0) (hk : C = [] → Nx c s C S v k) : Nx c s C S v (popOr c s v k) := by
  unfold popOr
  rcases pop_iff h with ⟨h1, h2⟩ | ⟨o, C', r', h1, h2, h3, h4⟩
  · rw [h2]
    exact hk h1
  · rw [h2]
    simp only
    rcases add_spec c { s with ring := r' } C' S o v false h4 (by simp only; rw [h3]; exact hc) with ⟨h5, h6⟩ | ⟨sel, s', h5, h6⟩
    · rw [h5]
      exact .crash s C' S (by simp only at h6; rw [h3] at h6; exact h6) (Or.inl ⟨rfl, rfl, by simp [h1], fun h => by simp [h1] at h, fun _ => hcz⟩)
    · rw [h5]
      exact .again o C' sel r' s' h1 h6 h3

/-- One call. -/
theorem next_spec (c : Cfg) (s : St) (C S : List Nat) (v : Nat) (h : Rep s.ring C S) (hc : s.ring.cap < 2 ^ 64) : Nx c s C S v (next c s v) := by
  unfold next
  by_cases hcc : c.cache = true
  · rw [if_pos hcc]
    by_cases hrem : s.remaining = 0
    · rw [if_pos hrem]
      apply popOr_spec c s C S v _ h hc (fun _ => hrem)
      intro e
      subst e
      exact nextRegion_spec c s S v h hc hrem
    · rw [if_neg hrem]
      exact fetch_spec c s C S v h hc (by omega) (fun e => absurd hcc (by simp [e]))
  · rw [if_neg hcc]
    apply popOr_spec c s C S v _ h hc (fun e => absurd e hcc)
    intro e
    subst e
    by_cases hrem : s.remaining = 0
    · rw [if_pos hrem]
      exact nextRegion_spec c s S v h hc hrem
    · rw [if_neg hrem]
      exact fetch_spec c s [] S v h hc (by omega) (fun _ => rfl)

end Fio.Spr
