import Verif.Eta.Spec
/-!
# Lemmas for C106
-/

namespace Fio.Eta

/-- The server owes an answer to `e`. -/
def waits (e : Nat) (c : Cl) : Bool := c.here && (c.inflight == some e)

def refs (st : St) (e : Nat) : Nat := st.cls.countP (waits e)

structure Ok (c : Cl) (n : Nat) : Prop where
  list : c.onList = c.inflight.isSome
  cmds : c.cmds = [] ∨ ∃ t, c.cmds = [t] ∧ c.inflight = some t
  known : ∀ t, c.inflight = some t → t < n

/-- All but the numbers of the requests. -/
structure Base (st : St) : Prop where
  cl : ∀ c ∈ st.cls, c.here = true → Ok c st.reqs.length
  done : ∀ (e : Nat) (x : Req), st.reqs[e]? = some x → x.freed = true → refs st e = 0
  once : (st.shown.map (·.1)).Nodup
  shown : ∀ (e : Nat) (g : List Nat), (e, g) ∈ st.shown → ∃ x, st.reqs[e]? = some x ∧ x.freed = true ∧ x.got = g
  all : ∀ (e : Nat) (x : Req), st.reqs[e]? = some x → x.freed = true → ∃ g, (e, g) ∈ st.shown

/-- A request has `k` more to be taken off. -/
def Owed (strict : Prop) (st : St) (e k : Nat) (x : Req) : Prop :=
  refs st e + k ≤ x.pending ∧ (strict → x.pending = refs st e + k ∧ 1 ≤ x.pending)

structure Inv (strict : Prop) (st : St) : Prop extends Base st where
  wait : ∀ (e : Nat) (x : Req), st.reqs[e]? = some x → x.freed = false → Owed strict st e 0 x

structure InvK (strict : Prop) (k e : Nat) (st : St) : Prop extends Base st where
  wait : ∀ (e' : Nat) (x : Req), e' ≠ e → st.reqs[e']? = some x → x.freed = false → Owed strict st e' 0 x
  this : ∃ x, st.reqs[e]? = some x ∧ x.freed = false ∧ Owed strict st e k x

theorem InvK.inv {strict : Prop} {e : Nat} {st : St} (h : InvK strict 0 e st) : Inv strict st := by
  refine ⟨h.toBase, ?_⟩
  intro e' x hx hf
  by_cases he : e' = e
  · subst he
    obtain ⟨y, h1, h2, h3⟩ := h.this
    rw [h1] at hx; cases hx
    exact h3
  · exact h.wait e' x he hx hf

/-- The answers of a request so far. -/
def gotOf (st : St) (e : Nat) : List Nat := match st.reqs[e]? with | some x => x.got | none => []

theorem gotOf_set (st : St) (cls : List Cl) (sh : List (Nat × List Nat)) (e : Nat) (x y : Req) (hx : st.reqs[e]? = some x) (e' : Nat) :
    gotOf { cls := cls, reqs := st.reqs.set e y, shown := sh } e' = if e' = e then y.got else gotOf st e' := by
  have hlt : e < st.reqs.length := (List.getElem?_eq_some_iff.1 hx).1
  unfold gotOf
  by_cases h : e' = e
  · subst h
    simp [hlt]
  · have h' : e ≠ e' := fun x => h x.symm
    simp only [List.getElem?_set_ne h', if_neg h]

theorem dec_inv (strict : Prop) (k e : Nat) (st : St) (h : InvK strict (k + 1) e st) :
    ∃ st', dec st e = some st' ∧ st'.cls = st.cls ∧ (∀ e', gotOf st' e' = gotOf st e') ∧
      ((∃ x, st'.reqs[e]? = some x ∧ x.freed = true ∧ Inv strict st') ∨ (∃ x, st'.reqs[e]? = some x ∧ x.freed = false ∧ InvK strict k e st')) := by
  obtain ⟨x, hx, hf, h1, h2⟩ := h.this
  have hlt : e < st.reqs.length := (List.getElem?_eq_some_iff.1 hx).1
  have hp : x.pending ≠ 0 := by omega
  have hdec : dec st e = if x.pending = 1 then
      some { st with reqs := st.reqs.set e { x with pending := 0, freed := true }, shown := st.shown ++ [(e, x.got)] }
      else some { st with reqs := st.reqs.set e { x with pending := x.pending - 1 } } := by
    unfold dec
    rw [hx]
    simp [hf, hp]
  by_cases hp1 : x.pending = 1
  · rw [if_pos hp1] at hdec
    refine ⟨_, hdec, rfl, ?_, Or.inl ?_⟩
    · intro e'
      rw [gotOf_set st _ _ e x _ hx]
      split
      · rename_i he; subst he; simp [gotOf, hx]
      · rfl
    · have hr : refs st e = 0 := by omega
      refine ⟨_, List.getElem?_set_self hlt, rfl, ⟨?_, ?_, ?_, ?_, ?_⟩, ?_⟩
      · intro c hc hh
        rw [List.length_set]; exact h.cl c hc hh
      · intro e' y hy hfy
        by_cases he : e' = e
        · subst he; exact hr
        · rw [List.getElem?_set_ne (fun x => he x.symm)] at hy
          exact h.done e' y hy hfy
      · rw [List.map_append, List.nodup_append]
        refine ⟨h.once, by simp, ?_⟩
        intro a ha b hb
        simp only [List.map_cons, List.map_nil, List.mem_singleton] at hb
        subst hb
        intro hab
        subst hab
        obtain ⟨⟨e1, g⟩, hm, rfl⟩ := List.mem_map.1 ha
        obtain ⟨y, hy, hfy, -⟩ := h.shown e1 g hm
        rw [hx] at hy; cases hy
        rw [hf] at hfy; cases hfy
      · intro e' g hm
        rcases List.mem_append.1 hm with hm | hm
        · obtain ⟨y, hy, hfy, hg⟩ := h.shown e' g hm
          have he : e' ≠ e := by
            intro he; subst he
            rw [hx] at hy; cases hy
            rw [hf] at hfy; cases hfy
          exact ⟨y, by rw [List.getElem?_set_ne (fun x => he x.symm)]; exact hy, hfy, hg⟩
        · simp only [List.mem_singleton, Prod.mk.injEq] at hm
          obtain ⟨rfl, rfl⟩ := hm
          exact ⟨_, List.getElem?_set_self hlt, rfl, rfl⟩
      · intro e' y hy hfy
        by_cases he : e' = e
        · subst he; exact ⟨x.got, by simp⟩
        · rw [List.getElem?_set_ne (fun x => he x.symm)] at hy
          obtain ⟨g, hg⟩ := h.all e' y hy hfy
          exact ⟨g, List.mem_append_left _ hg⟩
      · intro e' y hy hfy
        by_cases he : e' = e
        · subst he
          rw [List.getElem?_set_self hlt] at hy; cases hy
          cases hfy
        · rw [List.getElem?_set_ne (fun x => he x.symm)] at hy
          exact h.wait e' y he hy hfy
  · rw [if_neg hp1] at hdec
    refine ⟨_, hdec, rfl, ?_, Or.inr ?_⟩
    · intro e'
      rw [gotOf_set st _ _ e x _ hx]
      split
      · rename_i he; subst he; simp [gotOf, hx]
      · rfl
    · refine ⟨_, List.getElem?_set_self hlt, hf, ⟨?_, ?_, h.once, ?_, ?_⟩, ?_, ?_⟩
      · intro c hc hh
        rw [List.length_set]; exact h.cl c hc hh
      · intro e' y hy hfy
        by_cases he : e' = e
        · subst he
          rw [List.getElem?_set_self hlt] at hy; cases hy
          simp only at hfy; rw [hf] at hfy; cases hfy
        · rw [List.getElem?_set_ne (fun x => he x.symm)] at hy
          exact h.done e' y hy hfy
      · intro e' g hm
        obtain ⟨y, hy, hfy, hg⟩ := h.shown e' g hm
        have he : e' ≠ e := by
          intro he; subst he
          rw [hx] at hy; cases hy
          rw [hf] at hfy; cases hfy
        exact ⟨y, by rw [List.getElem?_set_ne (fun x => he x.symm)]; exact hy, hfy, hg⟩
      · intro e' y hy hfy
        by_cases he : e' = e
        · subst he
          rw [List.getElem?_set_self hlt] at hy; cases hy
          simp only at hfy; rw [hf] at hfy; cases hfy
        · rw [List.getElem?_set_ne (fun x => he x.symm)] at hy
          exact h.all e' y hy hfy
      · intro e' y he hy hfy
        rw [List.getElem?_set_ne (fun x => he x.symm)] at hy
        exact h.wait e' y he hy hfy
      · refine ⟨_, List.getElem?_set_self hlt, hf, ?_, ?_⟩
        · show refs st e + k ≤ x.pending - 1
          omega
        · intro hs
          have := h2 hs
          show x.pending - 1 = refs st e + k ∧ 1 ≤ x.pending - 1
          omega

theorem skip_inv (strict : Prop) (k e : Nat) (st : St) (h : InvK strict k e st) :
    ∃ st', skip st e k = some st' ∧ Inv strict st' ∧ ∀ e', gotOf st' e' = gotOf st e' := by
  induction k generalizing st with
  | zero => exact ⟨st, rfl, h.inv, fun _ => rfl⟩
  | succ k ih =>
    obtain ⟨st', a, -, g, hc⟩ := dec_inv strict k e st h
    rcases hc with ⟨x, hx, hf, hi⟩ | ⟨x, hx, hf, hi⟩
    · refine ⟨st', ?_, hi, g⟩
      simp [skip, a, hx, hf]
    · obtain ⟨st2, a2, i2, g2⟩ := ih st' hi
      refine ⟨st2, ?_, i2, fun e' => by rw [g2, g]⟩
      simp [skip, a, hx, hf, a2]

/-- A server no longer owes its answer to `t`. -/
theorem clear_inv (strict : Prop) (st : St) (h : Inv strict st) (i t : Nat) (c c' : Cl) (hc : st.cls[i]? = some c) (hh : c.here = true)
    (ht : c.inflight = some t) (hn : ∀ e, waits e c' = false) (hok : c'.here = true → Ok c' st.reqs.length) (reqs : List Req)
    (hl : reqs.length = st.reqs.length)
    (hr : ∀ (e : Nat) (y : Req), reqs[e]? = some y → ∃ x, st.reqs[e]? = some x ∧ y.pending = x.pending ∧ y.freed = x.freed ∧ (x.freed = true → y.got = x.got)) :
    InvK strict 1 t { st with cls := st.cls.set i c', reqs := reqs } := by
  have hlt : i < st.cls.length := (List.getElem?_eq_some_iff.1 hc).1
  have hci : st.cls[i] = c := (List.getElem?_eq_some_iff.1 hc).2
  have hrefs : ∀ e, refs { st with cls := st.cls.set i c', reqs := reqs } e + (if e = t then 1 else 0) = refs st e := by
    intro e
    simp only [refs]
    rw [List.countP_set hlt, hn e, hci]
    by_cases he : e = t
    · subst he
      have hw : waits e c = true := by simp [waits, hh, ht]
      have hpos : 0 < st.cls.countP (waits e) := List.countP_pos_iff.2 ⟨c, by rw [← hci]; exact List.getElem_mem hlt, hw⟩
      simp only [hw, if_true, Bool.false_eq_true, if_false]
      omega
    · have hw : waits e c = false := by
        simp only [waits, ht, hh, Bool.true_and]
        have : ¬ t = e := fun x => he x.symm
        simpa using this
      simp [hw, he]
  have hrt : refs st t ≠ 0 := by have := hrefs t; rw [if_pos rfl] at this; omega
  have hback : ∀ (e : Nat) (x : Req), st.reqs[e]? = some x → ∃ y, reqs[e]? = some y ∧ y.pending = x.pending ∧ y.freed = x.freed ∧ (x.freed = true → y.got = x.got) := by
    intro e x hx
    have hlt := (List.getElem?_eq_some_iff.1 hx).1
    have hy := List.getElem?_eq_getElem (l := reqs) (i := e) (by omega)
    obtain ⟨x', h1, h2⟩ := hr e _ hy
    rw [hx] at h1; cases h1
    exact ⟨_, hy, h2⟩
  refine ⟨⟨?_, ?_, h.once, ?_, ?_⟩, ?_, ?_⟩
  · intro d hd hdh
    simp only [hl]
    rcases List.mem_or_eq_of_mem_set hd with hd | rfl
    · exact h.cl d hd hdh
    · exact hok hdh
  · intro e y hy hfy
    obtain ⟨x, hx, -, h2, -⟩ := hr e y hy
    have := h.done e x hx (by rw [← h2]; exact hfy)
    have h3 := hrefs e
    omega
  · intro e g hm
    obtain ⟨x, hx, hf, hg⟩ := h.shown e g hm
    obtain ⟨y, hy, -, h2, h3⟩ := hback e x hx
    exact ⟨y, hy, by rw [h2]; exact hf, by rw [h3 hf]; exact hg⟩
  · intro e y hy hfy
    obtain ⟨x, hx, -, h2, -⟩ := hr e y hy
    exact h.all e x hx (by rw [← h2]; exact hfy)
  · intro e y he hy hfy
    obtain ⟨x, hx, h1, h2, -⟩ := hr e y hy
    have := h.wait e x hx (by rw [← h2]; exact hfy)
    have h3 := hrefs e
    rw [if_neg he, Nat.add_zero] at h3
    unfold Owed at this ⊢
    rw [h3, h1]
    exact this
  · have htl : t < st.reqs.length := (h.cl c (by rw [← hci]; exact List.getElem_mem hlt) hh).known t ht
    have hx := List.getElem?_eq_getElem (l := st.reqs) (i := t) htl
    obtain ⟨y, hy, h1, h2, -⟩ := hback t _ hx
    have hf : (st.reqs[t]).freed = false := by
      cases hfr : (st.reqs[t]).freed with
      | false => rfl
      | true => exact absurd (h.done t _ hx hfr) hrt
    obtain ⟨w1, w2⟩ := h.wait t _ hx hf
    have h3 := hrefs t
    rw [if_pos rfl] at h3
    refine ⟨y, hy, by rw [h2]; exact hf, ?_, ?_⟩
    · rw [h1, h3]; exact w1
    · intro hs
      rw [h1, h3]; exact w2 hs

theorem ask_list (e : Nat) (cls : List Cl) (h : ∀ c ∈ cls, c.here = true → Ok c e) :
    ∃ cls', cls.mapM (askOne e) = some cls' ∧ (∀ c ∈ cls', c.here = true → Ok c (e + 1)) ∧
      (∀ e', e' < e → cls'.countP (waits e') = cls.countP (waits e')) ∧
      cls'.countP (waits e) + cls.countP (fun c => c.here && c.onList) ≤ cls.countP (fun c => c.here) ∧
      ((∀ c ∈ cls, c.here = true → c.running = true) →
        cls'.countP (waits e) + cls.countP (fun c => c.here && c.onList) = cls.countP (fun c => c.here)) := by
  induction cls with
  | nil => exact ⟨[], rfl, by simp, by simp, by simp, by simp⟩
  | cons c cls ih =>
    obtain ⟨cls', a, b, f, g, k⟩ := ih (fun d hd => h d (List.mem_cons_of_mem _ hd))
    have hnone : c.here = true → waits e c = false := by
      intro hh
      cases hw : waits e c with
      | false => rfl
      | true =>
        simp only [waits, hh, Bool.true_and, beq_iff_eq] at hw
        have := (h c (by simp) hh).known e hw
        omega
    have key : ∃ c', askOne e c = some c' ∧ (c'.here = true → Ok c' (e + 1)) ∧ (∀ e', e' < e → waits e' c' = waits e' c) ∧
        (if waits e c' then 1 else 0) + (if c.here && c.onList then 1 else 0) ≤ (if c.here then 1 else 0) ∧
        ((c.here = true → c.running = true) → (if waits e c' then 1 else 0) + (if c.here && c.onList then 1 else 0) = (if c.here then 1 else 0)) := by
      unfold askOne
      cases hh : c.here with
      | false =>
        refine ⟨c, by simp, by simp [hh], fun _ _ => rfl, ?_, ?_⟩ <;> simp [waits, hh]
      | true =>
        obtain ⟨o1, o2, o3⟩ := h c (by simp) hh
        have hok : Ok c (e + 1) := ⟨o1, o2, fun t ht => Nat.lt_succ_of_lt (o3 t ht)⟩
        cases hl : c.onList with
        | true =>
          refine ⟨c, by simp, fun _ => hok, fun _ _ => rfl, ?_, ?_⟩ <;> simp [hnone hh]
        | false =>
          have hi : c.inflight = none := by
            rw [hl] at o1
            cases hc : c.inflight with
            | none => rfl
            | some t => rw [hc] at o1; cases o1
          cases hr : c.running with
          | false =>
            refine ⟨c, by simp, fun _ => hok, fun _ _ => rfl, ?_, ?_⟩ <;> simp [hnone hh]
          | true =>
            have hcm : c.cmds = [] := by
              rcases o2 with o2 | ⟨t, -, ht⟩
              · exact o2
              · rw [hi] at ht; cases ht
            refine ⟨_, by simp [hi]; rfl, ?_, ?_, ?_, ?_⟩
            · intro _
              refine ⟨rfl, ?_, ?_⟩
              · simp only [hcm]
                split
                · exact Or.inr ⟨e, rfl, rfl⟩
                · exact Or.inl rfl
              · intro t ht; cases ht; omega
            · intro e' he'
              have : ¬ e = e' := by omega
              simp [waits, hi, this]
            · simp [waits]
            · intro _; simp [waits]
    obtain ⟨c', a1, b1, f1, g1, k1⟩ := key
    refine ⟨c' :: cls', ?_, ?_, ?_, ?_, ?_⟩
    · rw [List.mapM_cons, a1, a]; rfl
    · intro d hd
      rcases List.mem_cons.1 hd with rfl | hd
      · exact b1
      · exact b d hd
    · intro e' he'
      rw [List.countP_cons, List.countP_cons, f e' he', f1 e' he']
    · rw [List.countP_cons, List.countP_cons, List.countP_cons]
      omega
    · intro hall
      have := k (fun d hd => hall d (List.mem_cons_of_mem _ hd))
      have := k1 (hall c (by simp))
      rw [List.countP_cons, List.countP_cons, List.countP_cons]
      omega

theorem request_inv (strict : Prop) (st : St) (h : Inv strict st)
    (hs : strict → (∃ c ∈ st.cls, c.here = true) ∧ ∀ c ∈ st.cls, c.here = true → c.running = true) :
    ∃ st', request st = some st' ∧ Inv strict st' ∧ ∀ e', gotOf st' e' = gotOf st e' := by
  obtain ⟨cls', a, b, f, g, k⟩ := ask_list st.reqs.length st.cls h.cl
  have hold : ∀ (e : Nat) (x : Req), (st.reqs ++ [{ pending := st.cls.countP (fun c => c.here), got := [], freed := false }])[e]? = some x → e ≠ st.reqs.length →
      e < st.reqs.length ∧ st.reqs[e]? = some x := by
    intro e x hx hne
    have := (List.getElem?_eq_some_iff.1 hx).1
    simp only [List.length_append, List.length_cons, List.length_nil] at this
    have hlt : e < st.reqs.length := by omega
    rw [List.getElem?_append_left hlt] at hx
    exact ⟨hlt, hx⟩
  have hnew : (st.reqs ++ [({ pending := st.cls.countP (fun c => c.here), got := [], freed := false } : Req)])[st.reqs.length]? =
      some { pending := st.cls.countP (fun c => c.here), got := [], freed := false } := by simp
  obtain ⟨st', e1, i1, g1⟩ := skip_inv strict (st.cls.countP fun c => c.here && c.onList) st.reqs.length
    { st with cls := cls', reqs := st.reqs ++ [{ pending := st.cls.countP (fun c => c.here), got := [], freed := false }] } (by
      refine ⟨⟨?_, ?_, h.once, ?_, ?_⟩, ?_, ?_⟩
      · intro c hc hh
        simpa using b c hc hh
      · intro e x hx hf
        by_cases he : e = st.reqs.length
        · subst he
          simp only [hnew, Option.some.injEq] at hx
          subst hx; cases hf
        · obtain ⟨hlt, hx⟩ := hold e x hx he
          have := h.done e x hx hf
          simp only [refs] at this ⊢
          rw [f e hlt]; exact this
      · intro e y hm
        obtain ⟨x, hx, hf, hg⟩ := h.shown e y hm
        exact ⟨x, by rw [List.getElem?_append_left (List.getElem?_eq_some_iff.1 hx).1]; exact hx, hf, hg⟩
      · intro e x hx hf
        by_cases he : e = st.reqs.length
        · subst he
          simp only [hnew, Option.some.injEq] at hx
          subst hx; cases hf
        · obtain ⟨hlt, hx⟩ := hold e x hx he
          exact h.all e x hx hf
      · intro e x he hx hf
        obtain ⟨hlt, hx⟩ := hold e x hx he
        have := h.wait e x hx hf
        simp only [Owed, refs] at this ⊢
        rw [f e hlt]; exact this
      · refine ⟨_, hnew, rfl, g, ?_⟩
        intro hst
        obtain ⟨⟨c, hc, hh⟩, hall⟩ := hs hst
        refine ⟨(k hall).symm, ?_⟩
        exact List.countP_pos_iff.2 ⟨c, hc, hh⟩)
  refine ⟨st', ?_, i1, ?_⟩
  · unfold request
    simp only [a]
    exact e1
  · intro e'
    rw [g1]
    unfold gotOf
    by_cases he : e' < st.reqs.length
    · simp only [List.getElem?_append_left he]
    · by_cases he' : e' = st.reqs.length
      · subst he'
        simp
      · rw [List.getElem?_eq_none (by simp; omega), List.getElem?_eq_none (by omega)]

end Fio.Eta
