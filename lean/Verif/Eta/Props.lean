import Verif.Eta.Lemmas
/-!
# C106: requests for the ETA
-/

namespace Fio.Eta

/-- What a step does to the answers. -/
structure Step (strict : Prop) (st : St) (ev : Ev) (st' : St) : Prop where
  inv : Inv strict st'
  answer : ∀ i t v, ev = .reply i t v → Awaited st i t → gotOf st' t = gotOf st t ++ [v]
  other : ∀ e, (∀ i v, ev = .reply i e v → ¬ Awaited st i e) → gotOf st' e = gotOf st e

theorem same_reqs (st : St) : ∀ (e : Nat) (y : Req), st.reqs[e]? = some y →
    ∃ x, st.reqs[e]? = some x ∧ y.pending = x.pending ∧ y.freed = x.freed ∧ (x.freed = true → y.got = x.got) :=
  fun _ y h => ⟨y, h, rfl, rfl, fun _ => rfl⟩

/-- A server that changes without owing anything more or less. -/
theorem keep_inv (strict : Prop) (st : St) (h : Inv strict st) (i : Nat) (c c' : Cl) (hc : st.cls[i]? = some c)
    (hw : ∀ e, waits e c' = waits e c) (hok : c'.here = true → Ok c' st.reqs.length) : Inv strict { st with cls := st.cls.set i c' } := by
  have hlt : i < st.cls.length := (List.getElem?_eq_some_iff.1 hc).1
  have hci : st.cls[i] = c := (List.getElem?_eq_some_iff.1 hc).2
  have hrefs : ∀ e, refs { st with cls := st.cls.set i c' } e = refs st e := by
    intro e
    simp only [refs]
    rw [List.countP_set hlt, hw e, hci]
    cases hx : waits e c with
    | false => simp
    | true =>
      have hpos : 0 < st.cls.countP (waits e) := List.countP_pos_iff.2 ⟨c, by rw [← hci]; exact List.getElem_mem hlt, hx⟩
      simp only [if_true]
      omega
  refine ⟨⟨?_, ?_, h.once, h.shown, h.all⟩, ?_⟩
  · intro d hd hdh
    rcases List.mem_or_eq_of_mem_set hd with hd | rfl
    · exact h.cl d hd hdh
    · exact hok hdh
  · intro e x hx hf
    rw [hrefs]; exact h.done e x hx hf
  · intro e x hx hf
    have := h.wait e x hx hf
    unfold Owed at this ⊢
    rw [hrefs]; exact this

theorem reply_step (strict : Prop) (st : St) (h : Inv strict st) (i t v : Nat) : ∃ st', reply st i t v = some st' ∧ Step strict st (.reply i t v) st' := by
  by_cases ha : Awaited st i t
  · obtain ⟨c, hc, hh, hm⟩ := ha
    have hlt : i < st.cls.length := (List.getElem?_eq_some_iff.1 hc).1
    have hci : st.cls[i] = c := (List.getElem?_eq_some_iff.1 hc).2
    have hok := h.cl c (by rw [← hci]; exact List.getElem_mem hlt) hh
    have hcm : c.cmds = [t] ∧ c.inflight = some t := by
      rcases hok.cmds with o | ⟨s, o1, o2⟩
      · rw [o] at hm; cases hm
      · rw [o1, List.mem_singleton] at hm
        subst hm
        exact ⟨o1, o2⟩
    have htl := hok.known t hcm.2
    have hx := List.getElem?_eq_getElem (l := st.reqs) (i := t) htl
    generalize st.reqs[t] = x at hx
    have hf : x.freed = false := by
      cases hfr : x.freed with
      | false => rfl
      | true =>
        have h0 := h.done t x hx hfr
        have hw : waits t c = true := by simp [waits, hh, hcm.2]
        have hpos : 0 < st.cls.countP (waits t) := List.countP_pos_iff.2 ⟨c, by rw [← hci]; exact List.getElem_mem hlt, hw⟩
        simp only [refs] at h0
        omega
    have hk := clear_inv strict st h i t c { c with onList := false, inflight := none, cmds := c.cmds.erase t } hc hh hcm.2 (by simp [waits])
      (fun _ => ⟨rfl, Or.inl (by simp [hcm.1]), by simp⟩) (st.reqs.set t { x with got := x.got ++ [v] }) (by simp) (by
        intro e y hy
        by_cases he : e = t
        · subst he
          rw [List.getElem?_set_self htl] at hy; cases hy
          exact ⟨x, hx, rfl, rfl, fun hfr => by rw [hf] at hfr; cases hfr⟩
        · rw [List.getElem?_set_ne (fun x => he x.symm)] at hy
          exact ⟨y, hy, rfl, rfl, fun _ => rfl⟩)
    obtain ⟨st', e1, -, g1, hcase⟩ := dec_inv strict 0 t _ hk
    refine ⟨st', ?_, ?_, ?_, ?_⟩
    · unfold reply
      rw [hc]
      simp only [hh, hm, hcm.2, hx, hf]
      simpa [hh, hf] using e1
    · rcases hcase with ⟨_, _, _, hi⟩ | ⟨_, _, _, hi⟩
      · exact hi
      · exact hi.inv
    · intro i' t' v' he _
      cases he
      rw [g1, gotOf_set st _ _ t x _ hx, if_pos rfl]
      simp [gotOf, hx]
    · intro e he
      have hne : e ≠ t := by
        intro he'; subst he'
        exact he i v rfl ⟨c, hc, hh, hm⟩
      rw [g1, gotOf_set st _ _ t x _ hx, if_neg hne]
  · refine ⟨st, ?_, h, ?_, fun _ _ => rfl⟩
    · unfold reply
      cases hc : st.cls[i]? with
      | none => rfl
      | some c =>
        have : c.here = false ∨ t ∉ c.cmds := by
          cases hh : c.here with
          | false => exact Or.inl rfl
          | true => exact Or.inr fun hm => ha ⟨c, hc, hh, hm⟩
        simp only [if_pos this]
    · intro i' t' v' he haw
      cases he
      exact absurd haw ha

theorem timeout_step (strict : Prop) (st : St) (h : Inv strict st) (i t : Nat) : ∃ st', timeout st i t = some st' ∧ Step strict st (.timeout i t) st' := by
  by_cases ha : Awaited st i t
  · obtain ⟨c, hc, hh, hm⟩ := ha
    have hlt : i < st.cls.length := (List.getElem?_eq_some_iff.1 hc).1
    have hci : st.cls[i] = c := (List.getElem?_eq_some_iff.1 hc).2
    have hok := h.cl c (by rw [← hci]; exact List.getElem_mem hlt) hh
    have hcm : c.cmds = [t] ∧ c.inflight = some t := by
      rcases hok.cmds with o | ⟨s, o1, o2⟩
      · rw [o] at hm; cases hm
      · rw [o1, List.mem_singleton] at hm
        subst hm
        exact ⟨o1, o2⟩
    have hk := clear_inv strict st h i t c { c with onList := false, inflight := none, cmds := c.cmds.erase t } hc hh hcm.2 (by simp [waits])
      (fun _ => ⟨rfl, Or.inl (by simp [hcm.1]), by simp⟩) st.reqs rfl (same_reqs st)
    obtain ⟨st', e1, -, g1, hcase⟩ := dec_inv strict 0 t _ hk
    refine ⟨st', ?_, ?_, ?_, ?_⟩
    · unfold timeout
      rw [hc]
      simp only [hh, hm, hcm.2]
      simpa [hh] using e1
    · rcases hcase with ⟨_, _, _, hi⟩ | ⟨_, _, _, hi⟩
      · exact hi
      · exact hi.inv
    · intro i' t' v' he; cases he
    · intro e _
      rw [g1]; rfl
  · refine ⟨st, ?_, h, fun _ _ _ he => (by cases he), fun _ _ => rfl⟩
    unfold timeout
    cases hc : st.cls[i]? with
    | none => rfl
    | some c =>
      have : c.here = false ∨ t ∉ c.cmds := by
        cases hh : c.here with
        | false => exact Or.inl rfl
        | true => exact Or.inr fun hm => ha ⟨c, hc, hh, hm⟩
      simp only [if_pos this]

theorem remove_step (strict : Prop) (st : St) (h : Inv strict st) (i : Nat) : ∃ st', remove st i = some st' ∧ Step strict st (.remove i) st' := by
  cases hc : st.cls[i]? with
  | none => exact ⟨st, by simp [remove, hc], h, fun _ _ _ he => (by cases he), fun _ _ => rfl⟩
  | some c =>
    cases hh : c.here with
    | false => exact ⟨st, by simp [remove, hc, hh], h, fun _ _ _ he => (by cases he), fun _ _ => rfl⟩
    | true =>
      have hlt : i < st.cls.length := (List.getElem?_eq_some_iff.1 hc).1
      have hci : st.cls[i] = c := (List.getElem?_eq_some_iff.1 hc).2
      have hok := h.cl c (by rw [← hci]; exact List.getElem_mem hlt) hh
      cases hi : c.inflight with
      | none =>
        have hl : c.onList = false := by rw [hok.list, hi]; rfl
        refine ⟨{ st with cls := st.cls.set i { c with here := false, onList := false } }, by simp [remove, hc, hh, hl], ?_, fun _ _ _ he => (by cases he),
          fun _ _ => rfl⟩
        exact keep_inv strict st h i c _ hc (by intro e; simp [waits, hi]) (by simp)
      | some t =>
        have hl : c.onList = true := by rw [hok.list, hi]; rfl
        have hk := clear_inv strict st h i t c { c with here := false, onList := false } hc hh hi (by simp [waits]) (by simp) st.reqs rfl (same_reqs st)
        obtain ⟨st', e1, -, g1, hcase⟩ := dec_inv strict 0 t _ hk
        refine ⟨st', ?_, ?_, fun _ _ _ he => (by cases he), ?_⟩
        · simpa [remove, hc, hh, hl, hi] using e1
        · rcases hcase with ⟨_, _, _, hx⟩ | ⟨_, _, _, hx⟩
          · exact hx
          · exact hx.inv
        · intro e _
          rw [g1]; rfl

theorem step_inv (strict : Prop) (st : St) (h : Inv strict st) (ev : Ev)
    (hs : strict → ev = .request → (∃ c ∈ st.cls, c.here = true) ∧ ∀ c ∈ st.cls, c.here = true → c.running = true) :
    ∃ st', step st ev = some st' ∧ Step strict st ev st' := by
  cases ev with
  | request =>
    obtain ⟨st', a, b, c⟩ := request_inv strict st h (fun x => hs x rfl)
    exact ⟨st', a, b, fun _ _ _ he => (by cases he), fun e _ => c e⟩
  | reply i t v => exact reply_step strict st h i t v
  | timeout i t => exact timeout_step strict st h i t
  | remove i => exact remove_step strict st h i
  | state i r a =>
    cases hc : st.cls[i]? with
    | none => exact ⟨st, by simp [step, hc], h, fun _ _ _ he => (by cases he), fun _ _ => rfl⟩
    | some c =>
      have hlt : i < st.cls.length := (List.getElem?_eq_some_iff.1 hc).1
      have hci : st.cls[i] = c := (List.getElem?_eq_some_iff.1 hc).2
      refine ⟨{ st with cls := st.cls.set i { c with running := r, alive := a } }, by simp [step, hc], ?_, fun _ _ _ he => (by cases he), fun _ _ => rfl⟩
      refine keep_inv strict st h i c _ hc (by intro e; rfl) ?_
      intro hh
      obtain ⟨o1, o2, o3⟩ := h.cl c (by rw [← hci]; exact List.getElem_mem hlt) hh
      exact ⟨o1, o2, o3⟩

theorem init_inv (strict : Prop) (n : Nat) : Inv strict (init n) := by
  refine ⟨⟨?_, ?_, ?_, ?_, ?_⟩, ?_⟩
  · intro c hc _
    obtain ⟨-, rfl⟩ := List.mem_replicate.1 hc
    exact ⟨rfl, Or.inl rfl, by simp⟩
  · intro e x hx; simp [init] at hx
  · simp [init]
  · intro e g hm; simp [init] at hm
  · intro e x hx; simp [init] at hx
  · intro e x hx; simp [init] at hx

theorem run_inv (strict : Prop) (evs : List Ev) (st : St) (h : Inv strict st) (hs : strict → Attended st evs) :
    ∃ st', evs.foldlM step st = some st' ∧ Inv strict st' := by
  induction evs generalizing st with
  | nil => exact ⟨st, rfl, h⟩
  | cons ev evs ih =>
    obtain ⟨st1, a, b⟩ := step_inv strict st h ev (fun x => (hs x).1)
    obtain ⟨st2, c, d⟩ := ih st1 b.inv (fun x => (hs x).2 st1 a)
    exact ⟨st2, by rw [List.foldlM_cons, a]; exact c, d⟩

theorem answers_got (e : Nat) (evs : List Ev) (st st' : St) (h : Inv False st) (hr : evs.foldlM step st = some st') (l : List Nat)
    (ha : Answers e st evs l) : gotOf st' e = gotOf st e ++ l := by
  induction ha with
  | nil st => cases hr; simp
  | answer st st1 i v evs l haw hst _ ih =>
    rw [List.foldlM_cons, hst] at hr
    obtain ⟨st2, a, b⟩ := step_inv False st h (.reply i e v) (fun x => x.elim)
    rw [hst] at a; cases a
    rw [ih b.inv hr, b.answer i e v rfl haw]
    simp
  | other st st1 ev evs l hne hst _ ih =>
    rw [List.foldlM_cons, hst] at hr
    obtain ⟨st2, a, b⟩ := step_inv False st h ev (fun x => x.elim)
    rw [hst] at a; cases a
    rw [ih b.inv hr, b.other e hne]

/-- Whatever the servers do, no assertion fails and no request is used after it was freed or counted below 0; and none is shown twice. -/
theorem C106_safe (n : Nat) (evs : List Ev) : ∃ st, evs.foldlM step (init n) = some st ∧ (st.shown.map (·.1)).Nodup := by
  obtain ⟨st, a, b⟩ := run_inv False evs (init n) (init_inv _ n) (fun x => x.elim)
  exact ⟨st, a, b.once⟩

/-- What is shown of a request are the awaited answers to it, each once and in order; and none comes behind. -/
theorem C106_answers (n : Nat) (evs : List Ev) (st : St) (h : evs.foldlM step (init n) = some st) (e : Nat) (g l : List Nat)
    (hg : (e, g) ∈ st.shown) (hl : Answers e (init n) evs l) : g = l := by
  obtain ⟨st', a, b⟩ := run_inv False evs (init n) (init_inv _ n) (fun x => x.elim)
  rw [h] at a; cases a
  obtain ⟨x, hx, -, rfl⟩ := b.shown e g hg
  have := answers_got e evs (init n) st (init_inv _ n) h l hl
  simp only [gotOf, hx] at this
  simpa [init] using this

/-- Such a list of answers there always is. -/
theorem C106_answers_exist (n : Nat) (evs : List Ev) (e : Nat) : ∃ l, Answers e (init n) evs l := by
  have : ∀ st, Inv False st → ∃ l, Answers e st evs l := by
    induction evs with
    | nil => intro st _; exact ⟨[], .nil st⟩
    | cons ev evs ih =>
      intro st h
      obtain ⟨st1, a, b⟩ := step_inv False st h ev (fun x => x.elim)
      obtain ⟨l, hl⟩ := ih st1 b.inv
      by_cases hex : ∃ i v, ev = .reply i e v ∧ Awaited st i e
      · obtain ⟨i, v, rfl, haw⟩ := hex
        exact ⟨v :: l, .answer st st1 i v evs l haw a hl⟩
      · exact ⟨l, .other st st1 ev evs l (fun i v he haw => hex ⟨i, v, he, haw⟩) a hl⟩
  exact this (init n) (init_inv _ n)

/-- If all servers were running at every request and no answer is awaited any more, every request has been shown. -/
theorem C106_shown_partial (n : Nat) (evs : List Ev) (h : Attended (init n) evs) :
    ∃ st, evs.foldlM step (init n) = some st ∧
      ((∀ c ∈ st.cls, c.here = true → c.inflight = none) → ∀ e, e < st.reqs.length → ∃ g, (e, g) ∈ st.shown) := by
  obtain ⟨st, a, b⟩ := run_inv True evs (init n) (init_inv _ n) (fun _ => h)
  refine ⟨st, a, ?_⟩
  intro hn e he
  have hx := List.getElem?_eq_getElem he
  cases hf : (st.reqs[e]).freed with
  | true => exact b.all e _ hx hf
  | false =>
    have hw := (b.wait e _ hx hf).2 trivial
    have : refs st e = 0 := by
      unfold refs
      rw [List.countP_eq_zero]
      intro c hc
      cases hh : c.here with
      | false => simp [waits, hh]
      | true => simp [waits, hn c hc hh]
    omega

/-! ## Examples and counterexamples -/

/-- Two servers run and are asked; one answers, the other leaves; the first is asked again. -/
def exEvs : List Ev :=
  [.state 0 true true, .state 1 true true, .request, .reply 0 0 7, .remove 1, .request, .reply 0 1 8]

/-- Number of requests and what was shown. -/
def result (evs : List Ev) (n : Nat) : Option (Nat × List (Nat × List Nat)) := (evs.foldlM step (init n)).map fun st => (st.reqs.length, st.shown)

theorem C106_example : result exEvs 2 = some (2, [(0, [7]), (1, [8])]) := by decide +kernel

/-- The hypotheses are met. -/
theorem ex_attended : Attended (init 2) exEvs := by
  refine ⟨(by intro h; cases h), fun st1 h1 => ⟨(by intro h; cases h), fun st2 h2 => ⟨fun _ => ?_, fun st3 h3 => ⟨(by intro h; cases h), fun st4 h4 =>
    ⟨(by intro h; cases h), fun st5 h5 => ⟨fun _ => ?_, fun st6 h6 => ⟨(by intro h; cases h), fun st7 _ => trivial⟩⟩⟩⟩⟩⟩⟩
  · cases h1; cases h2
    decide
  · cases h1; cases h2; cases h3; cases h4; cases h5
    decide

/-- A server that is not running (still preparing its files, say) is counted but not asked: the ETA of the others is not shown, not even when
all have answered or left. -/
theorem C106_idle_counterexample :
    result [.state 0 true true, .request, .reply 0 0 7, .request, .reply 0 1 8, .remove 0, .remove 1] 2 = some (2, []) := by decide +kernel

/-- All servers still owe an answer to the last request: the next one is shown without any. -/
theorem C106_empty_counterexample :
    result [.state 0 true true, .state 1 true true, .request, .request] 2 = some (2, [(1, [])]) := by decide +kernel

end Fio.Eta
