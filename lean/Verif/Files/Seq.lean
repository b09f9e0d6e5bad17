import Verif.Files.Order

/-
C64: sequential service, and progress.
-/
namespace Fio.Files

/-- __get_next_file with sequential service. -/
theorem next_seq {c : Cfg} (hs : c.service = .seq) {n : Nat} {e : Env} {s : St} {h : Nat → Nat} (hi : Inv c s h)
    (he : GoodEnv c e) (hn : c.nr ≤ n) :
    (nextFile c n e s = (.null, s)) ∨
    (∃ i, nextFile c n e s = (.file i, s) ∧ current s = some i) ∨
    (current s = none ∧ ((nextFile c n e s).1 = .null ∧ (nextFile c n e s).2.svc = none ∨
      (nextFile c n e s).1 = .busy ∧ (nextFile c n e s).2.svc = s.svc ∨
      ∃ i, (nextFile c n e s).1 = .file i ∧ (nextFile c n e s).2.svc = some i)) := by
  unfold nextFile
  split
  · exact .inl rfl
  · right
    cases hc : current s with
    | some i => left; simp
    | none =>
      right
      refine ⟨rfl, ?_⟩
      simp only
      unfold search
      rw [hs]
      simp only
      obtain ⟨d, _, _, h3, h4⟩ := rr_spec he.1 hn hi
      by_cases hd : d = c.nr
      · rw [h3 hd]; left; exact ⟨rfl, rfl⟩
      · rcases h4 (by have := ‹d ≤ c.nr›; omega) with ⟨h5, _⟩ | ⟨t, h5, _⟩
        · rw [h5]; right; left; exact ⟨rfl, rfl⟩
        · rw [h5]; right; right; exact ⟨_, rfl, rfl⟩

/-- The files started are done but for the one being served, which is open or done. -/
structure OneInv (P : Nat → Prop) (s : St) : Prop where
  one : ∀ i, P i → s.svc = some i ∨ (s.files i).done = true
  cur : ∀ i, s.svc = some i → (s.files i).opn = true ∨ (s.files i).done = true

theorem set_one {c : Cfg} (hs : c.service = .seq) {n : Nat} {env : Nat → Env} (he : ∀ k, GoodEnv c (env k))
    (hn : c.nr ≤ n) (P : Nat → Prop) :
    ∀ (m k : Nat) (s : St), Inv c s s.holds → ClosingDone s → (∀ k i, (env k).fill i ≠ .timeout) → OneInv P s →
      OneInv P (setLoop c n env m k s).2 ∧
      (∀ i, (setLoop c n env m k s).1 = .file i → (setLoop c n env m k s).2.svc = some i) := by
  intro m
  induction m with
  | zero => intro k s _ _ _ ho; exact ⟨ho, by simp [setLoop]⟩
  | succ m ih =>
    intro k s hi hcd ht ho
    have hp := (next_picked hi (he k) (n := n) (fun _ => hn)).1
    have hsq := next_seq hs hi (he k) hn
    rw [setLoop]
    generalize hq : nextFile c n (env k) s = q at hp hsq
    obtain ⟨p, t⟩ := q
    simp only at hp hsq
    have hcd' := next_closing hp hcd
    -- if the current file cannot be used, it is done
    have alldone : current s = none → ∀ i, P i → (t.files i).done = true := by
      intro hc i hP
      rw [hp.done]
      rcases ho.one i hP with h | h
      · rcases ho.cur i h with h' | h'
        · unfold current at hc
          rw [h] at hc
          simp only [h', Bool.true_and] at hc
          cases hcl : (s.files i).closing with
          | false => rw [hcl] at hc; simp at hc
          | true => exact hcd i h' hcl
        · exact h'
      · exact h
    have keep : ∀ i, (s.files i).opn = true ∨ (s.files i).done = true → (t.files i).opn = true ∨ (t.files i).done = true := by
      intro i h
      rcases h with h | h
      · rw [hp.same i h]; exact .inl h
      · rw [hp.done]; exact .inr h
    have ho' : OneInv P t ∧ ∀ i, p = .file i → t.svc = some i := by
      rcases hsq with h | ⟨i, h, hc⟩ | ⟨hc, ⟨h1, h2⟩ | ⟨h1, h2⟩ | ⟨i, h1, h2⟩⟩
      · injection h with h1 h2; subst h1; subst h2; exact ⟨ho, by simp⟩
      · injection h with h1 h2; subst h1; subst h2
        exact ⟨ho, fun j hj => by injection hj with hj; subst hj; exact (current_some hc).1⟩
      · subst h1
        exact ⟨⟨fun i h => .inr (alldone hc i h), fun i h => by rw [h2] at h; cases h⟩, by simp⟩
      · subst h1
        exact ⟨⟨fun i h => .inr (alldone hc i h), fun i h => keep i (ho.cur i (h2 ▸ h))⟩, by simp⟩
      · subst h1
        refine ⟨⟨fun i h => .inr (alldone hc i h), fun j h => ?_⟩, fun j hj => by injection hj with hj; subst hj; exact h2⟩
        rw [h2] at h; injection h with h; subst h
        exact .inl (hp.usable i rfl).2.1
    cases p with
    | null => exact ⟨ho'.1, by simp⟩
    | busy => exact ⟨ho'.1, by simp⟩
    | spin => exact ⟨ho'.1, by simp⟩
    | abort => exact absurd rfl hp.noabort
    | file i =>
      obtain ⟨hlt, hop, hc⟩ := hp.usable i rfl
      have hsv := ho'.2 i rfl
      obtain ⟨u, h1, h2, h3⟩ := get_inv hp.inv hop
      have fr := get_frame h1
      have hou : (u.files i).opn = true := by rw [h3]; simp [setFile, hop]
      have hcu : (u.files i).closing = false := by rw [h3]; simp [setFile, hc]
      simp only
      rw [h1]
      simp only
      cases hf : (env k).fill i with
      | ok =>
        refine ⟨⟨?_, ?_⟩, ?_⟩
        · intro j hP
          show u.svc = _ ∨ (u.files j).done = true
          rw [fr.svc, fr.alldone]; exact ho'.1.one j hP
        · intro j hj
          have hj' : u.svc = some j := hj
          rw [fr.svc, hsv] at hj'
          injection hj' with hj'; subst hj'
          exact .inl hou
        · intro j hj
          injection hj with hj; subst hj
          show u.svc = _
          rw [fr.svc]; exact hsv
      | timeout => exact absurd hf (ht k i)
      | fail =>
        obtain ⟨v, g1, g2, g3, g4, _, gs, _, g6, g7, g5, g8⟩ := giveUp_inv h2 hou hcu false
        simp only [g1]
        have e : v.holds = s.holds := by rw [g4, fr.holds, hp.holds]
        have g8' : (v.files i).done = true := by rw [g8]; simp [hs]
        refine ih (k + 1) v (e ▸ g2) ?_ ht ⟨?_, ?_⟩
        · intro j a b
          by_cases ej : j = i
          · subst ej; exact g8'
          · rw [g6 j ej, fr.other j ej] at a b ⊢; exact hcd' j a b
        · intro j hP
          rw [gs, fr.svc]
          by_cases ej : j = i
          · subst ej; exact .inr g8'
          · rw [g6 j ej, fr.alldone]; exact ho'.1.one j hP
        · intro j hj
          rw [gs, fr.svc, hsv] at hj
          injection hj with hj; subst hj
          exact .inr g8'

/-- C64: with sequential service, a file is finished before another one is begun, whatever the limit for open files and
the completions: there is at most one file that has had some of its I/Os but not all. -/
theorem C64_one_at_a_time_partial {c : Cfg} (hn : 0 < c.nr) (hs : c.service = .seq) (quota : Nat → Nat) {es : List Ev}
    (he : ∀ e ∈ es, e.Ok c) {i j : Nat}
    (hi : 0 < (serve c quota .start es).out.count (.file i)) (hi' : (serve c quota .start es).out.count (.file i) < quota i)
    (hj : 0 < (serve c quota .start es).out.count (.file j)) (hj' : (serve c quota .start es).out.count (.file j) < quota j) :
    i = j := by
  have hu : c.service ≠ .uneven := by simp [hs]
  have key : ∀ (es : List Ev) (s : Srv), SInv c quota s → OneInv (fun i => 0 < s.used i) s.st → (∀ e ∈ es, e.Ok c) →
      OneInv (fun i => 0 < (serve c quota s es).used i) (serve c quota s es).st := by
    intro es
    induction es with
    | nil => intro s _ h _; exact h
    | cons e es ih =>
      intro s h ho he
      refine ih _ (serve_step hu h (he e (by simp))) ?_ (fun e' h' => he e' (by simp [h']))
      have heo := he e (by simp)
      cases e with
      | ask n d =>
        have hg := fun k => quota_good (quota := quota) (used := s.used) heo k
        have h1 := set_one hs hg (n := c.nr + n) (by omega) (fun i => 0 < s.used i) (c.nr + 1) 0 s.st h.inv h.closing
          (by intro k i; simp only [quotaEnv]; split <;> simp) ho
        unfold serveStep
        simp only
        generalize setLoop c (c.nr + n) (quotaEnv quota s.used d) (c.nr + 1) 0 s.st = r at h1
        obtain ⟨p, t⟩ := r
        obtain ⟨h1, h2⟩ := h1
        cases p with
        | file l =>
          refine ⟨?_, h1.cur⟩
          intro i hi
          have h2' := h2 l rfl
          simp only at hi h2' ⊢
          by_cases e : i = l
          · subst e; exact .inl h2'
          · rw [if_neg e] at hi; exact h1.one i hi
        | null => exact h1
        | busy => exact h1
        | spin => exact h1
        | abort => exact h1
      | put l =>
        unfold serveStep
        simp only
        have h3 := step_inv h.inv (a := .put l) trivial
        cases hq : step c s.st (.put l) with
        | none => exact ho
        | some t =>
          simp only [step] at hq
          split at hq
          · injection hq with hq; subst hq; exact ho
          · next hz =>
            have fr := put_frame hq
            refine ⟨?_, ?_⟩
            · intro i hi
              show t.svc = _ ∨ (t.files i).done = true
              rw [fr.svc, fr.alldone]; exact ho.one i hi
            · intro i hi
              show (t.files i).opn = true ∨ (t.files i).done = true
              have hi' : t.svc = some i := hi
              rw [fr.svc] at hi'
              rw [fr.alldone]
              rcases ho.cur i hi' with ho1 | ho1
              · cases hcl : (s.st.files i).closing with
                | true => exact .inr (h.closing i ho1 hcl)
                | false =>
                  by_cases e : i = l
                  · subst e
                    have hi2 : Inv c (setHolds s.st i (s.st.holds i - 1)) s.st.holds :=
                      ⟨h.inv.file, h.inv.out, h.inv.cnt, h.inv.next⟩
                    rw [put_stays hi2 (by omega) hcl] at hq
                    injection hq with hq
                    left; rw [← hq]; simpa [setFile, setHolds] using ho1
                  · rw [fr.other i e]; exact .inl ho1
              · exact .inr ho1
  have h := serve_inv hu es _ (start_inv hn quota) he
  have ho := key es .start (start_inv hn quota) ⟨fun i h => absurd h (Nat.lt_irrefl 0), fun i h => by cases h⟩ he
  rw [← h.used] at hi hi' hj hj'
  have svc : ∀ i, 0 < (serve c quota .start es).used i → (serve c quota .start es).used i < quota i →
      (serve c quota .start es).st.svc = some i := by
    intro i h1 h2
    rcases ho.one i h1 with h3 | h3
    · exact h3
    · have := h.full i h3; omega
  have a := svc i hi hi'
  have b := svc j hj hj'
  rw [a] at b
  injection b

/-! ### The order of sequential service -/

/-- Files less than p are done, p is next. -/
structure QInv (c : Cfg) (p : Nat) (s : St) : Prop where
  inv : Inv c s s.holds
  ple : p ≤ c.nr
  shut : ∀ i, i < p → (s.files i).opn = true → (s.files i).closing = true
  high : ∀ i, p ≤ i → (s.files i).done = false ∧ (s.files i).closing = false
  above : ∀ i, p < i → (s.files i).opn = false
  nrDone : s.nrDone = p
  cur : p < c.nr → (s.svc = some p ∧ (s.files p).opn = true ∧ s.next = (p + 1) % c.nr) ∨
    ((∀ i, s.svc = some i → i < p) ∧ s.next = p ∧ (s.files p).opn = false)

theorem seq_turn {c : Cfg} (hs : c.service = .seq) (ho : c.nr ≤ c.openFiles) {n : Nat} (hn : c.nr ≤ n) {e : Env}
    (he : ∀ i, e.opens i = .ok) {p : Nat} {s : St} (hq : QInv c p s) (hp : p < c.nr) :
    ∃ t, nextFile c n e s = (.file p, t) ∧ QInv c p t ∧ t.svc = some p ∧ (t.files p).opn = true ∧
      t.next = (p + 1) % c.nr ∧ t.holds = s.holds := by
  have nd : ¬ s.nrDone ≥ c.nr := by rw [hq.nrDone]; omega
  rcases hq.cur hp with ⟨h1, h2, h3⟩ | ⟨h1, h2, h3⟩
  · refine ⟨s, ?_, hq, h1, h2, h3, rfl⟩
    have : current s = some p := by
      unfold current; rw [h1]; simp [h2, (hq.high p (Nat.le_refl _)).2]
    unfold nextFile
    rw [if_neg nd, this]
    simp [hs]
  · have hc : current s = none := by
      unfold current
      cases hsv : s.svc with
      | none => rfl
      | some i =>
        have := hq.shut i (h1 i hsv)
        cases hoi : (s.files i).opn with
        | false => simp [hoi]
        | true => simp [this hoi]
    obtain ⟨t, g1, g2, g3⟩ := rr_first ho he hn hq.inv (by rw [h2]; exact (hq.high p (Nat.le_refl _)).1)
      (by rw [h2]; exact (hq.high p (Nat.le_refl _)).2)
    rw [h2] at g1 g3
    obtain ⟨t1, t2, t3, t4, t5, t6, t7, t8⟩ := taken_files g3
    refine ⟨{ t with svc := some p, left := leftInit c }, ?_, ⟨?_, hq.ple, ?_, ?_, ?_, ?_, ?_⟩, rfl, t1, t5, t7⟩
    · unfold nextFile
      rw [if_neg nd, hc]
      simp only
      unfold search
      rw [hs]
      simp only
      rw [g1]
    · show Inv c _ t.holds
      rw [t7]
      exact ⟨g2.file, g2.out, g2.cnt, g2.next⟩
    · intro i hi hoi
      have e : i ≠ p := by omega
      have hoi' : (t.files i).opn = true := hoi
      show (t.files i).closing = true
      rw [t4 i e] at hoi' ⊢
      exact hq.shut i hi hoi'
    · intro i hi
      show (t.files i).done = false ∧ (t.files i).closing = false
      by_cases e : i = p
      · subst e; exact ⟨t3, t2⟩
      · rw [t4 i e]; exact hq.high i hi
    · intro i hi
      show (t.files i).opn = false
      rw [t4 i (by omega)]; exact hq.above i hi
    · show t.nrDone = p
      rw [t6]; exact hq.nrDone
    · intro _
      left
      exact ⟨rfl, t1, t5⟩

theorem seq_set {c : Cfg} (hs : c.service = .seq) (ho : c.nr ≤ c.openFiles) {n : Nat} (hn : c.nr ≤ n)
    {env : Nat → Env} (he : ∀ k i, (env k).opens i = .ok) (P : Nat → Bool)
    (hf : ∀ k i, (env k).fill i = if P i then .ok else .fail) :
    ∀ (m k p : Nat) (s : St), QInv c p s → c.nr < m + p →
      ∃ p', p ≤ p' ∧ (∀ i, p ≤ i → i < p' → P i = false) ∧ QInv c p' (setLoop c n env m k s).2 ∧
        ((p' = c.nr ∧ (setLoop c n env m k s).1 = .null) ∨
          (p' < c.nr ∧ P p' = true ∧ (setLoop c n env m k s).1 = .file p')) := by
  intro m
  induction m with
  | zero => intro k p s hq h; have := hq.ple; omega
  | succ m ih =>
    intro k p s hq h
    by_cases hp : p < c.nr
    · obtain ⟨t, h1, h2, h3, h4, h5, h6⟩ := seq_turn hs ho hn (he k) hq hp
      obtain ⟨u, g1, g2, g3⟩ := get_inv h2.inv h4
      have fr := get_frame g1
      have hcl := (h2.high p (Nat.le_refl _)).2
      have hou : (u.files p).opn = true := by rw [g3]; simp [setFile, h4]
      have hcu : (u.files p).closing = false := by rw [g3]; simp [setFile, hcl]
      rw [setLoop, h1]
      simp only
      rw [g1]
      simp only
      rw [hf k p]
      cases hP : P p with
      | true =>
        refine ⟨p, Nat.le_refl _, by intro i a b; omega, ?_, .inr ⟨hp, hP, rfl⟩⟩
        show QInv c p (setHolds u p (u.holds p + 1))
        refine ⟨?_, h2.ple, ?_, ?_, ?_, ?_, ?_⟩
        · have e : (setHolds u p (u.holds p + 1)).holds = upd t.holds p (t.holds p + 1) := by
            show upd u.holds p (u.holds p + 1) = _
            rw [fr.holds]
          rw [e]
          exact ⟨g2.file, g2.out, g2.cnt, g2.next⟩
        · intro i hi hoi
          have hoi' : (u.files i).opn = true := hoi
          show (u.files i).closing = true
          rw [fr.other i (by omega)] at hoi' ⊢
          exact h2.shut i hi hoi'
        · intro i hi
          show (u.files i).done = false ∧ (u.files i).closing = false
          by_cases e : i = p
          · subst e; rw [fr.done]; exact ⟨(h2.high i hi).1, hcu⟩
          · rw [fr.other i e]; exact h2.high i hi
        · intro i hi
          show (u.files i).opn = false
          rw [fr.other i (by omega)]; exact h2.above i hi
        · show u.nrDone = p
          rw [fr.nrDone]; exact h2.nrDone
        · intro _
          left
          refine ⟨?_, hou, ?_⟩
          · show u.svc = _
            rw [fr.svc]; exact h3
          · show u.next = _
            rw [fr.next]; exact h5
      | false =>
        obtain ⟨v, k1, k2, k3, k4, k5, k6, _, k7, k8, k9, k10⟩ := giveUp_inv g2 hou hcu false
        simp only [Bool.false_eq_true, if_false]
        simp only [k1]
        have e : v.holds = t.holds := by rw [k4, fr.holds]
        rw [if_neg (by simp [hs]), fr.nrDone, h2.nrDone] at k9
        have hq' : QInv c (p + 1) v := by
          refine ⟨e ▸ k2, by omega, ?_, ?_, ?_, k9, ?_⟩
          · intro i hi hoi
            by_cases ei : i = p
            · subst ei; exact k8 hoi
            · rw [k7 i ei, fr.other i ei] at hoi ⊢
              exact h2.shut i (by omega) hoi
          · intro i hi
            rw [k7 i (by omega), fr.other i (by omega)]
            exact h2.high i (by omega)
          · intro i hi
            rw [k7 i (by omega), fr.other i (by omega)]
            exact h2.above i (by omega)
          · intro hlt
            right
            refine ⟨?_, ?_, ?_⟩
            · intro i hi
              rw [k6, fr.svc, h3] at hi
              injection hi with hi; omega
            · rw [k5, fr.next, h5, Nat.mod_eq_of_lt hlt]
            · rw [k7 _ (by omega), fr.other _ (by omega)]
              exact h2.above _ (by omega)
        obtain ⟨p', r1, r2, r3, r4⟩ := ih (k + 1) (p + 1) v hq' (by omega)
        refine ⟨p', by omega, ?_, r3, r4⟩
        intro i a b
        by_cases ei : i = p
        · subst ei; exact hP
        · exact r2 i (by omega) b
    · have hpe : p = c.nr := by have := hq.ple; omega
      have : nextFile c n (env k) s = (.null, s) := by
        unfold nextFile
        rw [if_pos (by rw [hq.nrDone]; omega)]
      rw [setLoop, this]
      exact ⟨p, Nat.le_refl _, by intro i a b; omega, hq, .inl ⟨hpe, rfl⟩⟩

theorem put_flags {s t : St} {i : Nat} (h : putFile s i = some t) (ho : (t.files i).opn = true) :
    (t.files i).closing = (s.files i).closing := by
  unfold putFile at h
  simp only at h
  split at h
  · split at h
    · cases h
    · injection h with h; subst h; rfl
  · split at h
    · cases h
    · split at h
      · injection h with h; subst h; simp [setFile]
      · split at h
        · cases h
        · injection h with h; subst h; simp [setFile] at ho

theorem seq_put {c : Cfg} {p : Nat} {s : St} (hq : QInv c p s) (i : Nat) :
    ∃ t, step c s (.put i) = some t ∧ QInv c p t := by
  have h := step_inv hq.inv (a := .put i) trivial
  cases hst : step c s (.put i) with
  | none => obtain ⟨_, _, _, h, _⟩ := h.2 hst; cases h
  | some t =>
    refine ⟨t, rfl, ?_⟩
    have h2 := h.1 t hst
    simp only [step] at hst
    split at hst
    · injection hst with hst; subst hst; exact hq
    · have fr : Frame (setHolds s i (s.holds i - 1)) t i := put_frame hst
      cases hcl : (s.files i).closing with
      | true =>
        have hip : i < p := by
          apply Decidable.byContradiction; intro hn
          have := (hq.high i (by omega)).2; rw [hcl] at this; cases this
        have ot : ∀ j, j ≠ i → t.files j = s.files j := fun j hj => fr.other j hj
        refine ⟨h2, hq.ple, ?_, ?_, ?_, ?_, ?_⟩
        · intro j hj hoj
          by_cases e : j = i
          · subst e
            rw [put_flags hst hoj]; exact hcl
          · rw [ot j e] at hoj ⊢; exact hq.shut j hj hoj
        · intro j hj; rw [ot j (by omega)]; exact hq.high j hj
        · intro j hj; rw [ot j (by omega)]; exact hq.above j hj
        · rw [fr.nrDone]; exact hq.nrDone
        · intro hp
          have e1 : t.svc = s.svc := fr.svc
          have e2 : t.next = s.next := fr.next
          rw [e1, e2, ot p (by omega)]
          exact hq.cur hp
      | false =>
        have hi' : Inv c (setHolds s i (s.holds i - 1)) s.holds :=
          ⟨hq.inv.file, hq.inv.out, hq.inv.cnt, hq.inv.next⟩
        rw [put_stays hi' (by omega) hcl] at hst
        injection hst with hst
        have ff : ∀ l, (t.files l).done = (s.files l).done ∧ (t.files l).closing = (s.files l).closing ∧
            (t.files l).opn = (s.files l).opn := by
          intro l; rw [← hst]; simp only [setFile, setHolds]; split
          · next e => rw [e]; exact ⟨rfl, rfl, rfl⟩
          · exact ⟨rfl, rfl, rfl⟩
        refine ⟨h2, hq.ple, ?_, ?_, ?_, ?_, ?_⟩
        · intro l hl hol; rw [(ff l).2.2] at hol; rw [(ff l).2.1]; exact hq.shut l hl hol
        · intro l hl; rw [(ff l).1, (ff l).2.1]; exact hq.high l hl
        · intro l hl; rw [(ff l).2.2]; exact hq.above l hl
        · rw [← hst]; exact hq.nrDone
        · intro hp
          have e1 : t.svc = s.svc := fr.svc
          have e2 : t.next = s.next := fr.next
          rw [e1, e2, (ff p).2.2]
          exact hq.cur hp

theorem inOrder_skip {quota : Nat → Nat} {p q : Nat} (h : p ≤ q) (hz : ∀ i, p ≤ i → i < q → quota i = 0) :
    inOrder quota q = inOrder quota p := by
  induction q with
  | zero => have : p = 0 := by omega
            rw [this]
  | succ q ih =>
    by_cases e : p = q + 1
    · rw [e]
    · simp only [inOrder]
      rw [ih (by omega) (fun i a b => hz i a (by omega)), hz q (by omega) (by omega)]
      simp

theorem inOrder_prefix {quota : Nat → Nat} {p q u : Nat} (h : p < q) (hu : u ≤ quota p) :
    inOrder quota p ++ List.replicate u p <+: inOrder quota q := by
  induction q with
  | zero => omega
  | succ q ih =>
    simp only [inOrder]
    by_cases e : p = q
    · subst e
      refine ⟨List.replicate (quota p - u) p, ?_⟩
      rw [List.append_assoc, List.replicate_append_replicate, show u + (quota p - u) = quota p by omega]
    · exact List.IsPrefix.trans (ih (by omega)) (List.prefix_append _ _)

/-- The files among the answers, the first one first. -/
def filesOf (out : List Pick) : List Nat :=
  out.reverse.filterMap (fun p => match p with | .file i => some i | _ => none)

theorem filesOf_cons (p : Pick) (out : List Pick) :
    filesOf (p :: out) = filesOf out ++ (match p with | .file i => [i] | _ => []) := by
  unfold filesOf
  rw [List.reverse_cons, List.filterMap_append]
  cases p <;> rfl

/-- C64: with sequential service and no limit for open files, the files are served in their order: the I/Os go to
file 0 until it has had all of its I/Os, then to file 1, and so on to the end. -/
theorem C64_sequential_order_partial {c : Cfg} (hn : 0 < c.nr) (hs : c.service = .seq) (ho : c.nr ≤ c.openFiles)
    (quota : Nat → Nat) (es : List Ev) :
    filesOf (serve c quota .start es).out <+: inOrder quota c.nr ∧
    (.null ∈ (serve c quota .start es).out → filesOf (serve c quota .start es).out = inOrder quota c.nr) := by
  have key : ∀ (es : List Ev) (p : Nat) (s : Srv), QInv c p s.st → (∀ i, i < p → s.used i = quota i) →
      (∀ i, p < i → s.used i = 0) → s.used c.nr = 0 → s.used p ≤ quota p ∨ p = c.nr →
      filesOf s.out = inOrder quota p ++ List.replicate (s.used p) p → (.null ∈ s.out → p = c.nr) →
      ∃ p', p' ≤ c.nr ∧ (.null ∈ (serve c quota s es).out → p' = c.nr) ∧
        ∃ u, (u ≤ quota p' ∨ p' = c.nr) ∧ (p' = c.nr → u = 0) ∧
          filesOf (serve c quota s es).out = inOrder quota p' ++ List.replicate u p' := by
    intro es
    induction es with
    | nil =>
      intro p s hq _ _ hz hle hout hnull
      exact ⟨p, hq.ple, hnull, s.used p, hle, fun h => by rw [h]; exact hz, hout⟩
    | cons e es ih =>
      intro p s hq hlow hhigh hz hle hout hnull
      cases e with
      | ask n d =>
        obtain ⟨p', r1, r2, r3, r4⟩ := seq_set hs ho (n := c.nr + n) (by omega) (env := quotaEnv quota s.used d)
          (by simp [quotaEnv]) (fun i => decide (s.used i < quota i)) (by intro k i; simp [quotaEnv])
          (c.nr + 1) 0 p s.st hq (by omega)
        simp only [decide_eq_false_iff_not, decide_eq_true_eq] at r2 r4
        have hple' := r3.ple
        have hused : ∀ i, i < p' → s.used i = quota i := by
          intro i hi
          by_cases h : i < p
          · exact hlow i h
          · have := r2 i (by omega) hi
            by_cases e : i = p
            · subst e; rcases hle with h | h <;> omega
            · have := hhigh i (by omega); omega
        have hin : inOrder quota p' = if p < p' then inOrder quota p ++ List.replicate (s.used p) p
            else inOrder quota p := by
          split
          · next hlt =>
            rw [inOrder_skip (p := p + 1) (by omega)]
            · rw [hused p hlt]; rfl
            · intro i a b
              have := hused i b; rw [← this]; exact hhigh i (by omega)
          · rw [show p' = p by omega]
        simp only [serve, serveStep]
        rcases r4 with ⟨h1, h2⟩ | ⟨h1, h2, h3⟩
        · rw [h2]
          refine ih p' _ r3 hused (by intro i hi; exact hhigh i (by omega)) hz (.inr h1) ?_ (fun _ => h1)
          simp only
          rw [filesOf_cons, hout, hin]
          simp only [List.append_nil]
          split
          · rw [h1, hz]; simp
          · next hlt => rw [show p = p' by omega]
        · rw [h3]
          refine ih p' _ r3 ?_ ?_ ?_ ?_ ?_ ?_
          · intro i hi
            simp only
            rw [if_neg (by omega)]; exact hused i hi
          · intro i hi
            simp only
            rw [if_neg (by omega)]; exact hhigh i (by omega)
          · simp only
            rw [if_neg (by omega)]; exact hz
          · left; simp only [if_pos]; omega
          · simp only [if_pos]
            rw [filesOf_cons, hout, hin]
            simp only
            split
            · next hlt => rw [hhigh p' hlt]; simp
            · next hlt => rw [show p = p' by omega, List.append_assoc, List.replicate_succ']
          · intro h
            rcases List.mem_cons.mp h with h | h
            · cases h
            · have := hnull h; omega
      | put i =>
        obtain ⟨t, h1, h2⟩ := seq_put hq i
        simp only [serve, serveStep]
        rw [h1]
        exact ih p { s with st := t } h2 hlow hhigh hz hle hout hnull
  have h0 : QInv c 0 Srv.start.st :=
    ⟨init_inv hn, Nat.zero_le _, fun i h => absurd h (Nat.not_lt_zero _), fun _ _ => ⟨rfl, rfl⟩, fun _ _ => rfl, rfl,
      fun _ => .inr ⟨fun i h => (by cases h), rfl, rfl⟩⟩
  obtain ⟨p, h1, h2, u, h3, h4, h5⟩ := key es 0 .start h0 (by intro i h; omega) (fun _ _ => rfl) rfl
    (.inl (Nat.zero_le _)) rfl (by simp [Srv.start])
  rw [h5]
  by_cases hp : p = c.nr
  · rw [h4 hp, hp]; simp
  · refine ⟨inOrder_prefix (by omega) (by rcases h3 with h | h <;> omega), fun h => absurd (h2 h) hp⟩

end Fio.Files
