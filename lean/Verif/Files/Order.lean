import Verif.Files.Choice

/-
C64: the order in which files are served.
-/
namespace Fio.Files

/-- Number of I/Os asked for. -/
def asks : List Ev → Nat
  | [] => 0
  | .ask _ _ :: es => asks es + 1
  | .put _ :: es => asks es

theorem put_stays {c : Cfg} {s : St} {h : Nat → Nat} (hi : Inv c s h) {i : Nat} (hh : 0 < h i)
    (hc : (s.files i).closing = false) :
    putFile s i = some (setFile s i { s.files i with refs := (s.files i).refs - 1 }) := by
  obtain ⟨h1, h2, h3⟩ := hi.file i
  cases ho : (s.files i).opn with
  | false => have := h3 ho; omega
  | true =>
    obtain ⟨h4, h5⟩ := h2 ho
    rw [hc] at h4
    simp at h4
    unfold putFile
    simp only [ho, Bool.not_true]
    rw [if_neg (by simp), if_neg (by omega), if_pos (by omega)]

/-- The j-th step of round robin: everything can be used, and the counters say so. -/
structure RInv (c : Cfg) (k j : Nat) (s : St) : Prop where
  inv : Inv c s s.holds
  nodone : ∀ i, (s.files i).done = false
  noclosing : ∀ i, (s.files i).closing = false
  nrDone : s.nrDone = 0
  first : j = 0 → s.svc = none ∧ s.next = 0
  later : ∀ l, j = l + 1 → s.svc = some (l / k % c.nr) ∧ s.left = k - 1 - l % k ∧ s.next = (l / k + 1) % c.nr ∧
    (s.files (l / k % c.nr)).opn = true

theorem div_step {k l : Nat} (hk : 0 < k) :
    (l % k + 1 < k → (l + 1) / k = l / k ∧ (l + 1) % k = l % k + 1) ∧
    (l % k + 1 = k → (l + 1) / k = l / k + 1 ∧ (l + 1) % k = 0) := by
  have h := Nat.div_add_mod l k
  constructor
  · intro h1
    have : l + 1 = (l % k + 1) + k * (l / k) := by omega
    rw [this]
    constructor
    · rw [Nat.add_mul_div_left _ _ hk, Nat.div_eq_of_lt h1]; omega
    · rw [Nat.add_mul_mod_self_left, Nat.mod_eq_of_lt h1]
  · intro h1
    have : l + 1 = 0 + k * (l / k + 1) := by rw [Nat.mul_add]; omega
    constructor
    · rw [this, Nat.add_mul_div_left _ _ hk]; simp
    · rw [this, Nat.add_mul_mod_self_left]; simp

/-- The search of round robin if everything can be used. -/
theorem rr_first {c : Cfg} (ho : c.nr ≤ c.openFiles) {e : Nat → Outcome} (he : ∀ i, e i = .ok) {n : Nat}
    (hn : c.nr ≤ n) {s : St} {h : Nat → Nat} (hi : Inv c s h)
    (hd : (s.files s.next).done = false) (hc : (s.files s.next).closing = false) :
    ∃ t, nextRr c e n s = (.file s.next, t) ∧ Inv c t h ∧
      Taken c { s with next := (s.next + 1) % c.nr } t s.next := by
  have hlt := hi.next
  obtain ⟨d, h1, h2, h3, h4⟩ := rr_spec (e := e) (by intro i; simp [he]) hn hi
  have hd0 : d = 0 := by
    cases d with
    | zero => rfl
    | succ d =>
      have := h2 0 (by omega)
      rw [Nat.add_zero, Nat.mod_eq_of_lt hlt] at this
      rcases this with h | ⟨_, h⟩ | ⟨_, h⟩
      · rw [hd] at h; cases h
      · rw [hc] at h; cases h
      · rw [he] at h; cases h
  subst hd0
  rcases h4 (by omega) with ⟨_, _, h6, h7⟩ | ⟨t, h5, h6, h7⟩
  · exfalso
    rw [Nat.add_zero, Nat.mod_eq_of_lt hlt] at h6
    rw [hi.cnt] at h7
    have hle := cnt_le c.nr (fun i => (s.files i).opn)
    have := cnt_all (p := fun i => (s.files i).opn) (by omega) s.next hlt
    rw [h6] at this; cases this
  · simp only [Nat.add_zero, Nat.mod_eq_of_lt hlt] at h5 h7
    exact ⟨t, h5, h6, h7⟩

/-- A file taken is open and otherwise as before; the other files are as before. -/
theorem taken_files {c : Cfg} {s t : St} {i : Nat} (h : Taken c s t i) :
    (t.files i).opn = true ∧ (t.files i).closing = false ∧ (t.files i).done = false ∧
      (∀ j, j ≠ i → t.files j = s.files j) ∧ t.next = s.next ∧ t.nrDone = s.nrDone ∧ t.holds = s.holds ∧
      t.svc = s.svc := by
  obtain ⟨h1, ⟨h2, h3, h4⟩ | ⟨h2, h3, h4⟩⟩ := h
  · subst h2; exact ⟨h3, h4, h1, fun _ _ => rfl, rfl, rfl, rfl, rfl⟩
  · subst h2
    refine ⟨by simp [opened, setFile], by simp [opened, setFile], by simp [opened, setFile, h1], ?_, rfl, rfl, rfl, rfl⟩
    intro j hj
    simp [opened, setFile, hj]

/-- An I/O of round robin. -/
theorem rr_ask {c : Cfg} (hs : c.service = .rr) (ho : c.nr ≤ c.openFiles) (hk : 0 < c.serviceNr) {j : Nat} {s : St}
    (hr : RInv c c.serviceNr j s) {env : Nat → Env} (he : ∀ i, (env 0).opens i = .ok)
    (hf : ∀ i, (env 0).fill i = .ok) {n : Nat} (hn : c.nr ≤ n) (m : Nat) :
    (setLoop c n env (m + 1) 0 s).1 = .file (roundRobin c.nr c.serviceNr j) ∧
      RInv c c.serviceNr (j + 1) (setLoop c n env (m + 1) 0 s).2 := by
  have hpos : 0 < c.nr := Nat.lt_of_le_of_lt (Nat.zero_le _) hr.inv.next
  -- what follows from the choice
  have fin : ∀ (t : St) (i : Nat), nextFile c n (env 0) s = (.file i, t) → i = j / c.serviceNr % c.nr →
      Inv c t s.holds → t.holds = s.holds → t.nrDone = 0 → (∀ l, (t.files l).done = false) →
      (∀ l, (t.files l).closing = false) → (t.files i).opn = true → t.svc = some i →
      t.left = c.serviceNr - 1 - j % c.serviceNr → t.next = (j / c.serviceNr + 1) % c.nr →
      (setLoop c n env (m + 1) 0 s).1 = .file (roundRobin c.nr c.serviceNr j) ∧
        RInv c c.serviceNr (j + 1) (setLoop c n env (m + 1) 0 s).2 := by
    intro t i hq hi hinv hh hnd hdn hcl hop hsvc hleft hnext
    obtain ⟨u, g1, g2, g3⟩ := get_inv hinv hop
    rw [setLoop, hq]
    simp only
    rw [g1]
    simp only
    rw [hf i]
    refine ⟨by rw [hi]; rfl, ?_⟩
    have fr := get_frame g1
    refine ⟨?_, ?_, ?_, ?_, by omega, ?_⟩
    · have e : (setHolds u i (u.holds i + 1)).holds = upd s.holds i (s.holds i + 1) := by
        show upd u.holds i (u.holds i + 1) = _
        rw [fr.holds, hh]
      show Inv c (setHolds u i (u.holds i + 1)) _
      rw [e]
      exact ⟨g2.file, g2.out, g2.cnt, g2.next⟩
    · intro l
      show (u.files l).done = false
      rw [fr.alldone]; exact hdn l
    · intro l
      show (u.files l).closing = false
      by_cases e : l = i
      · subst e; rw [g3]; simp [setFile, hcl]
      · rw [fr.other l e]; exact hcl l
    · show u.nrDone = 0
      rw [fr.nrDone]; exact hnd
    · intro l hl
      have : l = j := by omega
      subst this
      refine ⟨?_, ?_, ?_, ?_⟩
      · show u.svc = _
        rw [fr.svc, hsvc, hi]
      · show u.left = _
        rw [fr.left, hleft]
      · show u.next = _
        rw [fr.next, hnext]
      · show (u.files _).opn = true
        rw [← hi, g3]; simp [setFile, hop]
  -- the choice by search
  have srch : nextFile c n (env 0) s = search c n (env 0) s → s.next = j / c.serviceNr % c.nr → j % c.serviceNr = 0 →
      (setLoop c n env (m + 1) 0 s).1 = .file (roundRobin c.nr c.serviceNr j) ∧
        RInv c c.serviceNr (j + 1) (setLoop c n env (m + 1) 0 s).2 := by
    intro hq hnx hmod
    obtain ⟨t, h1, h2, h3⟩ := rr_first ho he hn hr.inv (hr.nodone _) (hr.noclosing _)
    obtain ⟨t1, t2, t3, t4, t5, t6, t7, t8⟩ := taken_files h3
    have hq' : search c n (env 0) s = (.file s.next, { t with svc := some s.next, left := leftInit c }) := by
      unfold search; rw [hs]; simp only; rw [h1]
    refine fin { t with svc := some s.next, left := leftInit c } s.next (by rw [hq, hq']) hnx ⟨h2.file, h2.out, h2.cnt, h2.next⟩ t7 ?_ ?_ ?_ t1 rfl ?_ ?_
    · show t.nrDone = 0
      rw [t6]; exact hr.nrDone
    · intro l
      show (t.files l).done = false
      by_cases e : l = s.next
      · rw [e]; exact t3
      · rw [t4 l e]; exact hr.nodone l
    · intro l
      show (t.files l).closing = false
      by_cases e : l = s.next
      · rw [e]; exact t2
      · rw [t4 l e]; exact hr.noclosing l
    · show leftInit c = _
      unfold leftInit
      rw [if_neg (by omega), hmod]; rfl
    · show t.next = _
      rw [t5]
      show (s.next + 1) % c.nr = _
      rw [hnx, Nat.mod_add_mod]
  have nd : ¬ s.nrDone ≥ c.nr := by rw [hr.nrDone]; omega
  cases j with
  | zero =>
    obtain ⟨h1, h2⟩ := hr.first rfl
    apply srch
    · unfold nextFile
      rw [if_neg nd]
      simp [current, h1]
    · rw [h2]; simp
    · simp
  | succ l =>
    obtain ⟨h1, h2, h3, h4⟩ := hr.later l rfl
    have hcur : current s = some (l / c.serviceNr % c.nr) := by
      unfold current
      rw [h1]
      simp [h4, hr.noclosing]
    have hml := Nat.mod_lt l hk
    by_cases hlt : l % c.serviceNr + 1 < c.serviceNr
    · obtain ⟨e1, e2⟩ := (div_step (l := l) hk).1 hlt
      have hq : nextFile c n (env 0) s = (.file (l / c.serviceNr % c.nr), { s with left := s.left - 1 }) := by
        unfold nextFile
        rw [if_neg nd, hcur]
        simp only
        rw [if_neg (by rw [hs]; simp), if_pos (by rw [h2]; omega)]
      refine fin _ _ hq (by rw [e1]) ⟨hr.inv.file, hr.inv.out, hr.inv.cnt, hr.inv.next⟩ rfl hr.nrDone hr.nodone
        hr.noclosing h4 h1 ?_ ?_
      · show s.left - 1 = _
        rw [h2, e2]; omega
      · show s.next = _
        rw [h3, e1]
    · obtain ⟨e1, e2⟩ := (div_step (l := l) hk).2 (by omega)
      apply srch
      · unfold nextFile
        rw [if_neg nd, hcur]
        simp only
        rw [if_neg (by rw [hs]; simp), if_neg (by rw [h2]; omega)]
      · rw [h3, e1]
      · exact e2

theorem rr_put {c : Cfg} {k j : Nat} {s : St} (hr : RInv c k j s) (i : Nat) :
    ∃ t, step c s (.put i) = some t ∧ RInv c k j t := by
  have h := step_inv hr.inv (a := .put i) trivial
  cases hq : step c s (.put i) with
  | none => obtain ⟨_, _, _, h, _⟩ := h.2 hq; cases h
  | some t =>
    refine ⟨t, rfl, ?_⟩
    have h2 := h.1 t hq
    simp only [step] at hq
    split at hq
    · injection hq with hq; subst hq; exact hr
    · have hi' : Inv c (setHolds s i (s.holds i - 1)) s.holds :=
        ⟨hr.inv.file, hr.inv.out, hr.inv.cnt, hr.inv.next⟩
      rw [put_stays hi' (by omega) (hr.noclosing i)] at hq
      injection hq with hq
      have ff : ∀ l, (t.files l).done = (s.files l).done ∧ (t.files l).closing = (s.files l).closing ∧
          (t.files l).opn = (s.files l).opn := by
        intro l; rw [← hq]; simp only [setFile, setHolds]; split
        · next e => rw [e]; exact ⟨rfl, rfl, rfl⟩
        · exact ⟨rfl, rfl, rfl⟩
      refine ⟨h2, ?_, ?_, ?_, ?_, ?_⟩
      · intro l; rw [(ff l).1]; exact hr.nodone l
      · intro l; rw [(ff l).2.1]; exact hr.noclosing l
      · rw [← hq]; exact hr.nrDone
      · rw [← hq]; exact hr.first
      · intro l hl
        rw [(ff _).2.2, ← hq]
        exact hr.later l hl

/-- C64: round robin with file_service_nr=k: as long as no file is exhausted and with no limit for open files, the j-th
I/O goes to file ⌊j / k⌋ mod nr_files, whatever the completions in between. -/
theorem C64_round_robin_partial {c : Cfg} (hn : 0 < c.nr) (hs : c.service = .rr) (ho : c.nr ≤ c.openFiles)
    (hk : 0 < c.serviceNr) {quota : Nat → Nat} {es : List Ev} (hq : ∀ i, asks es ≤ quota i) :
    (serve c quota .start es).out.reverse =
      (List.range (asks es)).map (fun j => Pick.file (roundRobin c.nr c.serviceNr j)) := by
  have key : ∀ (es : List Ev) (j : Nat) (s : Srv), RInv c c.serviceNr j s.st → (∀ i, s.used i ≤ j) →
      (∀ i, j + asks es ≤ quota i) →
      s.out.reverse = (List.range j).map (fun j => Pick.file (roundRobin c.nr c.serviceNr j)) →
      (serve c quota s es).out.reverse =
        (List.range (j + asks es)).map (fun j => Pick.file (roundRobin c.nr c.serviceNr j)) := by
    intro es
    induction es with
    | nil => intro j s _ _ _ h; exact h
    | cons e es ih =>
      intro j s hr hu hq h
      cases e with
      | ask n d =>
        simp only [asks] at hq ⊢
        simp only [serve, serveStep]
        have := rr_ask hs ho hk hr (env := quotaEnv quota s.used d) (by simp [quotaEnv])
          (by intro i; simp only [quotaEnv]; rw [if_pos]; have := hu i; have := hq i; omega)
          (n := c.nr + n) (by omega) c.nr
        obtain ⟨h1, h2⟩ := this
        rw [h1]
        rw [show j + (asks es + 1) = (j + 1) + asks es by omega]
        refine ih (j + 1) _ h2 ?_ ?_ ?_
        · intro i
          simp only
          split
          · have := hu (roundRobin c.nr c.serviceNr j); omega
          · have := hu i; omega
        · intro i; have := hq i; omega
        · simp only [List.reverse_cons]
          rw [h, List.range_succ, List.map_append]
          rfl
      | put i =>
        obtain ⟨t, h1, h2⟩ := rr_put hr i
        simp only [serve, serveStep]
        rw [h1]
        exact ih j { s with st := t } h2 hu hq h
  have h0 : RInv c c.serviceNr 0 Srv.start.st :=
    ⟨init_inv hn, fun _ => rfl, fun _ => rfl, rfl, fun _ => ⟨rfl, rfl⟩, by intro l hl; omega⟩
  have := key es 0 .start h0 (fun _ => Nat.le_refl _) (by intro i; have := hq i; omega) rfl
  rw [Nat.zero_add] at this
  exact this

end Fio.Files
