import Verif.Files.Props

/-
C64: which file is next.
-/
namespace Fio.Files

theorem mod_surj {n x j : Nat} (hx : x < n) (hj : j < n) : ∃ k, k < n ∧ (x + k) % n = j := by
  by_cases h : x ≤ j
  · exact ⟨j - x, by omega, by rw [show x + (j - x) = j by omega, Nat.mod_eq_of_lt hj]⟩
  · refine ⟨j + n - x, by omega, ?_⟩
    rw [show x + (j + n - x) = j + n by omega, Nat.add_mod_right, Nat.mod_eq_of_lt hj]

/-- Files that are done are closed or about to be, and counted. -/
structure DoneInv (c : Cfg) (s : St) : Prop where
  shut : ∀ i, (s.files i).done = true → (s.files i).opn = true → (s.files i).closing = true
  cnt : s.nrDone = cnt c.nr (fun i => (s.files i).done)

/-- Only files that are done are about to be closed. -/
def ClosingDone (s : St) : Prop :=
  ∀ i, (s.files i).opn = true → (s.files i).closing = true → (s.files i).done = true

theorem next_null {c : Cfg} {n : Nat} {e : Env} {s t : St} {h : Nat → Nat} (hi : Inv c s h) (he : GoodEnv c e)
    (hrr : c.service = .rr ∨ c.service = .seq → c.nr ≤ n) (hq : nextFile c n e s = (.null, t)) :
    c.nr ≤ s.nrDone ∨ ∀ j, j < c.nr → Unusable s j (e.opens j) := by
  have hs : search c n e s = (.null, t) → ∀ j, j < c.nr → Unusable s j (e.opens j) := by
    intro hq
    unfold search at hq
    have rr : c.nr ≤ n → (match nextRr c e.opens n s with
        | (.file i, s) => (.file i, { s with svc := some i, left := leftInit c })
        | (.null, s) => (.null, { s with svc := none, left := leftInit c })
        | r => r) = (Pick.null, t) → ∀ j, j < c.nr → Unusable s j (e.opens j) := by
      intro hn hq j hj
      obtain ⟨d, h1, h2, h3, h4⟩ := rr_spec he.1 hn hi
      by_cases hd : d = c.nr
      · obtain ⟨k, hk, hk'⟩ := mod_surj hi.next hj
        have := h2 k (by omega)
        rwa [hk'] at this
      · rcases h4 (by omega) with ⟨h5, _⟩ | ⟨u, h5, _⟩ <;> rw [h5] at hq <;> cases hq
    have rd : (match randLoop c e.draws n 0 s with
        | (.file i, s) => (.file i, { s with svc := some i, left := leftInit c })
        | (.null, s) => (.null, { s with svc := none, left := leftInit c })
        | r => r) = (Pick.null, t) → False := by
      intro hq
      obtain ⟨j, h1, _, h3, h4⟩ := rand_loop he.2 n 0 s h hi
      by_cases hd : j = n
      · rw [h3 hd] at hq; cases hq
      · rcases h4 (by omega) with ⟨h5, _⟩ | ⟨u, h5, _⟩ <;> rw [h5] at hq <;> cases hq
    cases hc : c.service with
    | rr => rw [hc] at hq; exact rr (hrr (.inl hc)) hq
    | seq => rw [hc] at hq; exact rr (hrr (.inr hc)) hq
    | random => rw [hc] at hq; exact (rd hq).elim
    | uneven => rw [hc] at hq; exact (rd hq).elim
  unfold nextFile at hq
  split at hq
  · next hd => exact .inl hd
  · split at hq
    · split at hq
      · cases hq
      · split at hq
        · cases hq
        · exact .inr (hs hq)
    · exact .inr (hs hq)

theorem next_done {c : Cfg} {s t : St} {h : Nat → Nat} {p : Pick} (hp : Picked c s h p t) (hd : DoneInv c s) :
    DoneInv c t := by
  refine ⟨?_, ?_⟩
  · intro i h1 h2
    have h1' : (s.files i).done = true := by rw [← hp.done]; exact h1
    rcases hp.fresh i h2 with h3 | h3
    · rw [hp.same i h3]; exact hd.shut i h1' h3
    · rw [h1'] at h3; cases h3
  · rw [hp.nrDone, hd.cnt]
    exact cnt_congr (fun i _ => (hp.done i).symm)

theorem next_closing {c : Cfg} {s t : St} {h : Nat → Nat} {p : Pick} (hp : Picked c s h p t) (hd : ClosingDone s) :
    ClosingDone t := by
  intro i h1 h2
  obtain ⟨h3, h4⟩ := hp.same' i h1 h2
  rw [hp.done]
  exact hd i h3 h4

/-- What set_io_u_file does about files that are done. -/
theorem set_done {c : Cfg} (hu : c.service ≠ .uneven) {n : Nat} {env : Nat → Env} (he : ∀ k, GoodEnv c (env k))
    (hrr : c.service = .rr ∨ c.service = .seq → c.nr ≤ n) (ht : ∀ k i, (env k).fill i ≠ .timeout) :
    ∀ (m k : Nat) (s : St), Inv c s s.holds → DoneInv c s → ClosingDone s →
      DoneInv c (setLoop c n env m k s).2 ∧ ClosingDone (setLoop c n env m k s).2 ∧
      (∀ j, (s.files j).done = true → ((setLoop c n env m k s).2.files j).done = true) ∧
      (∀ j, ((setLoop c n env m k s).2.files j).done = true →
        (s.files j).done = true ∨ ∃ l, (env l).fill j = .fail) ∧
      (∀ i, (setLoop c n env m k s).1 = .file i →
        (∃ l, (env l).fill i = .ok) ∧ ((setLoop c n env m k s).2.files i).done = false ∧
          ((setLoop c n env m k s).2.files i).opn = true ∧ ((setLoop c n env m k s).2.files i).closing = false) ∧
      ((setLoop c n env m k s).1 = .null → ∀ j, j < c.nr →
        ((setLoop c n env m k s).2.files j).done = true ∨ ∃ l, (env l).opens j = .noOpen) := by
  intro m
  induction m with
  | zero => intro k s _ hd hc; exact ⟨hd, hc, fun _ h => h, fun _ h => .inl h, by simp [setLoop], by simp [setLoop]⟩
  | succ m ih =>
    intro k s hi hd hcd
    have hp := next_picked hi (he k) hrr (n := n)
    have hnull := fun t => next_null (t := t) hi (he k) hrr (n := n)
    rw [setLoop]
    generalize hq : nextFile c n (env k) s = q at hp hnull
    obtain ⟨p, t⟩ := q
    obtain ⟨hp, hsp⟩ := hp
    simp only at hp hsp
    have hd' := next_done hp hd
    have hcd' := next_closing hp hcd
    have d1 : ∀ j, (s.files j).done = true → (t.files j).done = true := fun j h => by rw [hp.done]; exact h
    have d2 : ∀ j, (t.files j).done = true → (s.files j).done = true ∨ ∃ l, (env l).fill j = .fail :=
      fun j h => .inl (by rw [← hp.done]; exact h)
    cases p with
    | null =>
      refine ⟨hd', hcd', d1, d2, by simp, ?_⟩
      intro _ j hj
      show (t.files j).done = true ∨ _
      rw [hp.done]
      rcases hnull t rfl with h | h
      · left
        have hle := cnt_le c.nr (fun i => (s.files i).done)
        rw [← hd.cnt] at hle
        exact cnt_all (p := fun i => (s.files i).done) (by rw [← hd.cnt]; omega) j hj
      · rcases h j hj with h | ⟨h1, h2⟩ | ⟨_, h2⟩
        · exact .inl h
        · exact .inl (hcd j h1 h2)
        · exact .inr ⟨k, h2⟩
    | busy => exact ⟨hd', hcd', d1, d2, by simp, by simp⟩
    | spin => exact ⟨hd', hcd', d1, d2, by simp, by simp⟩
    | abort => exact absurd rfl hp.noabort
    | file i =>
      obtain ⟨hlt, ho, hc⟩ := hp.usable i rfl
      have hnd : (t.files i).done = false := by
        cases h : (t.files i).done with
        | false => rfl
        | true => have := hd'.shut i h ho; rw [hc] at this; cases this
      obtain ⟨u, h1, h2, h3⟩ := get_inv hp.inv ho
      have fr := get_frame h1
      have hou : (u.files i).opn = true := by rw [h3]; simp [setFile, ho]
      have hcu : (u.files i).closing = false := by rw [h3]; simp [setFile, hc]
      have hdu : DoneInv c u := by
        refine ⟨?_, ?_⟩
        · intro j a b
          rw [fr.alldone] at a
          by_cases e : j = i
          · subst e; rw [hnd] at a; cases a
          · rw [fr.other j e] at b ⊢; exact hd'.shut j a b
        · rw [fr.nrDone, hd'.cnt]
          exact cnt_congr (fun j _ => (fr.alldone j).symm)
      have hcdu : ClosingDone u := by
        intro j a b
        by_cases e : j = i
        · subst e; rw [hcu] at b; cases b
        · rw [fr.other j e] at a b ⊢; exact hcd' j a b
      simp only
      rw [h1]
      simp only
      cases hf : (env k).fill i with
      | ok =>
        refine ⟨⟨hdu.shut, hdu.cnt⟩, hcdu, ?_, ?_, ?_, by simp⟩
        · intro j h
          show (u.files j).done = true
          rw [fr.alldone]; exact d1 j h
        · intro j h
          have h' : (u.files j).done = true := h
          rw [fr.alldone] at h'
          exact d2 j h'
        · intro j hj
          injection hj with hj; subst hj
          refine ⟨⟨k, hf⟩, ?_, hou, hcu⟩
          show (u.files i).done = false
          rw [fr.alldone]; exact hnd
      | timeout => exact absurd hf (ht k i)
      | fail =>
        obtain ⟨v, g1, g2, g3, g4, _, _, _, g6, g7, g5, g8⟩ := giveUp_inv h2 hou hcu false
        simp only [g1]
        have e : v.holds = s.holds := by rw [g4, fr.holds, hp.holds]
        rw [if_neg (by simp [hu])] at g5
        have g8' : (v.files i).done = true := by rw [g8]; simp [hu]
        have hdv : DoneInv c v := by
          refine ⟨?_, ?_⟩
          · intro j a b
            by_cases ej : j = i
            · subst ej; exact g7 b
            · rw [g6 j ej] at a b ⊢; exact hdu.shut j a b
          · rw [g5, hdu.cnt]
            have hs := cnt_set (p := fun j => (u.files j).done) (q := fun j => (v.files j).done) hlt
              (by intro j hj; rw [g6 j hj])
            have hnu : (u.files i).done = false := by rw [fr.alldone]; exact hnd
            simp only [g8', hnu] at hs
            simp at hs
            omega
        have hcdv : ClosingDone v := by
          intro j a b
          by_cases ej : j = i
          · subst ej; exact g8'
          · rw [g6 j ej] at a b ⊢; exact hcdu j a b
        obtain ⟨r1, r2, r3, r4, r5, r6⟩ := ih (k + 1) v (e ▸ g2) hdv hcdv
        refine ⟨r1, r2, ?_, ?_, r5, r6⟩
        · intro j h
          apply r3
          by_cases ej : j = i
          · subst ej; exact g8'
          · rw [g6 j ej, fr.alldone]; exact d1 j h
        · intro j h
          rcases r4 j h with h | h
          · by_cases ej : j = i
            · subst ej; exact .inr ⟨k, hf⟩
            · rw [g6 j ej, fr.alldone] at h
              exact d2 j h
          · exact .inr h

/-! ### Files with a given number of I/Os -/

/-- What happens to a job whose file i is good for `quota i` I/Os: it asks for an I/O (`d`: the files drawn in each
turn, `n`: the number of draws allowed), or an I/O of file i completes. -/
inductive Ev where
  | ask (n : Nat) (d : Nat → Nat → Nat)
  | put (i : Nat)

/-- State of the job, the I/Os each file has had, and what the calls of set_io_u_file have returned, the last one
first. -/
structure Srv where
  st : St
  used : Nat → Nat
  out : List Pick

/-- The environment of such a job: files can be opened, fill_io_u fails if the file has had its number of I/Os. -/
def quotaEnv (quota used : Nat → Nat) (d : Nat → Nat → Nat) (k : Nat) : Env :=
  ⟨fun _ => .ok, fun l => (d k l, .ok), fun i => if used i < quota i then .ok else .fail⟩

/-- An event of such a job (set_io_u_file, io_u.c:1543-1580; put_io_u, io_u.c:895-930). -/
def serveStep (c : Cfg) (quota : Nat → Nat) (s : Srv) : Ev → Srv
  | .ask n d =>
    let r := setLoop c (c.nr + n) (quotaEnv quota s.used d) (c.nr + 1) 0 s.st
    match r.1 with
    | .file i => ⟨r.2, fun j => if j = i then s.used i + 1 else s.used j, .file i :: s.out⟩
    | p => ⟨r.2, s.used, p :: s.out⟩
  | .put i =>
    match step c s.st (.put i) with
    | none => { s with out := .abort :: s.out }
    | some t => { s with st := t }

/-- A run of such a job. -/
def serve (c : Cfg) (quota : Nat → Nat) : Srv → List Ev → Srv
  | s, [] => s
  | s, e :: es => serve c quota (serveStep c quota s e) es

/-- The start. -/
def Srv.start : Srv := ⟨init, fun _ => 0, []⟩

/-- What holds of such a job. -/
structure SInv (c : Cfg) (quota : Nat → Nat) (s : Srv) : Prop where
  inv : Inv c s.st s.st.holds
  done : DoneInv c s.st
  closing : ClosingDone s.st
  used : ∀ i, s.used i = s.out.count (.file i)
  le : ∀ i, s.used i ≤ quota i
  full : ∀ i, (s.st.files i).done = true → s.used i = quota i
  all : .null ∈ s.out → ∀ i, i < c.nr → (s.st.files i).done = true
  noabort : .abort ∉ s.out
  nospin : c.service = .rr ∨ c.service = .seq → .spin ∉ s.out

/-- Draws are files. -/
def Ev.Ok (c : Cfg) : Ev → Prop
  | .ask _ d => ∀ k l, d k l < c.nr
  | .put _ => True

theorem quota_good {c : Cfg} {quota used : Nat → Nat} {d : Nat → Nat → Nat} (h : ∀ k l, d k l < c.nr) (k : Nat) :
    GoodEnv c (quotaEnv quota used d k) := ⟨by simp [quotaEnv], by simp [quotaEnv, h]⟩

theorem put_done {c : Cfg} {s t : St} {i : Nat} (h : putFile s i = some t) (hd : DoneInv c s) (hcd : ClosingDone s) :
    DoneInv c t ∧ ClosingDone t := by
  have fr := put_frame h
  have key : (t.files i).opn = true → t.files i = { s.files i with refs := (t.files i).refs } := by
    unfold putFile at h
    simp only at h
    split at h
    · split at h
      · cases h
      · injection h with h; subst h; simp
    · split at h
      · cases h
      · split at h
        · injection h with h; subst h; simp [setFile]
        · split at h
          · cases h
          · injection h with h; subst h; simp [setFile]
  refine ⟨⟨?_, ?_⟩, ?_⟩
  · intro j a b
    rw [fr.alldone] at a
    by_cases e : j = i
    · subst e
      have k := key b
      rw [k] at b ⊢
      exact hd.shut j a b
    · rw [fr.other j e] at b ⊢; exact hd.shut j a b
  · rw [fr.nrDone, hd.cnt]
    exact cnt_congr (fun j _ => (fr.alldone j).symm)
  · intro j a b
    by_cases e : j = i
    · subst e
      have k := key a
      rw [k] at a b ⊢
      exact hcd j a b
    · rw [fr.other j e] at a b ⊢; exact hcd j a b

theorem serve_step {c : Cfg} (hu : c.service ≠ .uneven) {quota : Nat → Nat} {s : Srv} (hs : SInv c quota s) {e : Ev}
    (he : e.Ok c) : SInv c quota (serveStep c quota s e) := by
  cases e with
  | ask n d =>
    have hg := fun k => quota_good (quota := quota) (used := s.used) he k
    have h1 := set_inv hg (n := c.nr + n) (fun _ => by omega) (c.nr + 1) 0 s.st hs.inv
    have h2 := set_done hu hg (n := c.nr + n) (fun _ => by omega)
      (by intro k i; simp only [quotaEnv]; split <;> simp) (c.nr + 1) 0 s.st hs.inv hs.done hs.closing
    unfold serveStep
    simp only
    generalize setLoop c (c.nr + n) (quotaEnv quota s.used d) (c.nr + 1) 0 s.st = r at h1 h2
    obtain ⟨p, t⟩ := r
    obtain ⟨a1, a2, a3, a4, a5, a6⟩ := h1
    obtain ⟨b1, b2, b3, b4, b5, b6⟩ := h2
    simp only at a1 a2 a3 a4 a5 a6 b1 b2 b3 b4 b5 b6
    have full : ∀ i, (t.files i).done = true → s.used i = quota i := by
      intro i h
      rcases b4 i h with h | ⟨l, h⟩
      · exact hs.full i h
      · simp only [quotaEnv] at h
        have := hs.le i
        split at h
        · cases h
        · omega
    have all : .null ∈ s.out → ∀ i, i < c.nr → (t.files i).done = true := fun h i hi => b3 i (hs.all h i hi)
    have plain : ∀ p, (∀ i, p ≠ Pick.file i) → p ≠ .abort →
        (p = .null → ∀ i, i < c.nr → (t.files i).done = true) → (c.service = .rr ∨ c.service = .seq → p ≠ .spin) →
        SInv c quota ⟨t, s.used, p :: s.out⟩ := by
      intro p hp hna hnull hsp
      refine ⟨a1, b1, b2, ?_, hs.le, full, ?_, ?_, ?_⟩
      · intro i
        show s.used i = _
        rw [List.count_cons, hs.used i, if_neg (by simpa using hp i)]
        rfl
      · intro h i hi
        rcases List.mem_cons.mp h with h | h
        · exact hnull h.symm i hi
        · exact all h i hi
      · intro h
        rcases List.mem_cons.mp h with h | h
        · exact hna h.symm
        · exact hs.noabort h
      · intro hc h
        rcases List.mem_cons.mp h with h | h
        · exact hsp hc h.symm
        · exact hs.nospin hc h
    cases p with
    | abort => exact absurd rfl a2
    | spin =>
      refine plain _ (by simp) (by simp) (by simp) ?_
      intro hc _
      rcases a4 hc (by omega) with h | h
      · exact h rfl
      · omega
    | busy => exact plain _ (by simp) (by simp) (by simp) (by simp)
    | null =>
      refine plain _ (by simp) (by simp) ?_ (by simp)
      intro _ i hi
      rcases b6 rfl i hi with h | ⟨l, h⟩
      · exact h
      · simp [quotaEnv] at h
    | file i =>
      obtain ⟨⟨l, h3⟩, h4, _⟩ := b5 i rfl
      simp only [quotaEnv] at h3
      have hlt : s.used i < quota i := by
        split at h3
        · assumption
        · cases h3
      refine ⟨a1, b1, b2, ?_, ?_, ?_, ?_, ?_, ?_⟩
      · intro j
        show (if j = i then s.used i + 1 else s.used j) = List.count _ (Pick.file i :: s.out)
        rw [List.count_cons]
        by_cases e : j = i
        · subst e; simp [hs.used j]
        · rw [if_neg e, if_neg (by simp; exact fun h => e h.symm), hs.used j]; rfl
      · intro j
        show (if j = i then s.used i + 1 else s.used j) ≤ quota j
        split
        · next e => subst e; omega
        · exact hs.le j
      · intro j hj
        show (if j = i then s.used i + 1 else s.used j) = quota j
        have hj' : (t.files j).done = true := hj
        split
        · next e => subst e; rw [h4] at hj'; cases hj'
        · exact full j hj'
      · intro h j hj
        rcases List.mem_cons.mp h with h | h
        · cases h
        · exact all h j hj
      · intro h
        rcases List.mem_cons.mp h with h | h
        · cases h
        · exact hs.noabort h
      · intro hc h
        rcases List.mem_cons.mp h with h | h
        · cases h
        · exact hs.nospin hc h
  | put i =>
    have h1 := step_inv hs.inv (a := .put i) trivial
    unfold serveStep
    simp only
    cases hq : step c s.st (.put i) with
    | none => obtain ⟨_, _, _, h, _⟩ := h1.2 hq; cases h
    | some t =>
      have h2 := h1.1 t hq
      simp only [step] at hq
      split at hq
      · injection hq with hq; subst hq
        exact ⟨h2, hs.done, hs.closing, hs.used, hs.le, hs.full, hs.all, hs.noabort, hs.nospin⟩
      · have h3 := put_done (c := c) hq ⟨hs.done.shut, hs.done.cnt⟩ hs.closing
        have fr := put_frame hq
        refine ⟨h2, h3.1, h3.2, hs.used, hs.le, ?_, ?_, hs.noabort, hs.nospin⟩
        · intro j hj
          have hj' : (t.files j).done = true := hj
          rw [fr.alldone] at hj'
          exact hs.full j hj'
        · intro h j hj
          show (t.files j).done = true
          rw [fr.alldone]
          exact hs.all h j hj

theorem start_inv {c : Cfg} (hn : 0 < c.nr) (quota : Nat → Nat) : SInv c quota .start := by
  refine ⟨init_inv hn, ⟨?_, ?_⟩, ?_, ?_, ?_, ?_, ?_, ?_, ?_⟩
  · intro i h; cases h
  · show 0 = cnt c.nr (fun _ => false)
    generalize c.nr = n
    induction n with
    | zero => rfl
    | succ n ih => simp [cnt, ← ih]
  · intro i h; cases h
  · intro i; rfl
  · intro i; exact Nat.zero_le _
  · intro i h; cases h
  · simp [Srv.start]
  · simp [Srv.start]
  · simp [Srv.start]

theorem serve_inv {c : Cfg} (hu : c.service ≠ .uneven) {quota : Nat → Nat} :
    ∀ (es : List Ev) (s : Srv), SInv c quota s → (∀ e ∈ es, e.Ok c) → SInv c quota (serve c quota s es) := by
  intro es
  induction es with
  | nil => intro s h _; exact h
  | cons e es ih =>
    intro s h he
    exact ih _ (serve_step hu h (he e (by simp))) (fun e' h' => he e' (by simp [h']))

/-- C64: every file gets its I/Os, and not more.  With round robin, sequential or random service, any limit for open
files and any order of completions: file i is never chosen more than `quota i` times, and when there is said to be
no file left, it has been chosen that many times. -/
theorem C64_all_served_partial {c : Cfg} (hn : 0 < c.nr) (hu : c.service ≠ .uneven) (quota : Nat → Nat) {es : List Ev}
    (he : ∀ e ∈ es, e.Ok c) :
    (∀ i, (serve c quota .start es).out.count (.file i) ≤ quota i) ∧
    (.null ∈ (serve c quota .start es).out → ∀ i, i < c.nr →
      (serve c quota .start es).out.count (.file i) = quota i) ∧
    .abort ∉ (serve c quota .start es).out := by
  have h := serve_inv hu es _ (start_inv hn quota) he
  refine ⟨?_, ?_, h.noabort⟩
  · intro i; rw [← h.used]; exact h.le i
  · intro hnull i hi
    rw [← h.used]
    exact h.full i (h.all hnull i hi)

/-- C64: with round robin and sequential service, the choice always ends. -/
theorem C64_ends_partial {c : Cfg} (hn : 0 < c.nr) (hu : c.service = .rr ∨ c.service = .seq) (quota : Nat → Nat)
    {es : List Ev} (he : ∀ e ∈ es, e.Ok c) :
    .spin ∉ (serve c quota .start es).out :=
  (serve_inv (by rcases hu with h | h <;> simp [h]) es _ (start_inv hn quota) he).nospin hu

end Fio.Files
