import Verif.Ramp.Lemmas
/-
C42: the ramp period.
-/
namespace Fio.Ramp

theorem over_spec (now : Nat) (j : Job) :
    ((over now j).2 = true ↔ j.st ≠ .running) ∧
    (j.st = .finishing → (over now j).1.st = .done ∧ (over now j).1.resets = j.resets + 1) ∧
    (j.st ≠ .finishing → (over now j).1 = j) := by
  unfold over
  split <;> simp_all

/-- **C42, once.**  If the jobs of each group agree on ramp_size and group_reporting, the statistics
of a job are thrown away at most once, and not before its ramp period has ended. -/
theorem C42_once {os : List Opts} {jobs : List Job} (h : addAll [] os = some jobs)
    (hu : Uniform os) (evs : List Ev) :
    ∀ j ∈ exec jobs evs, j.resets ≤ 1 ∧ (j.st ≠ .done → j.resets = 0) :=
  (inv_exec (inv_init h hu) evs).once

theorem did_other {now k i : Nat} {a b : List Job} {j : Job} (hi : Inv a) (hd : Did now k a b)
    (hj : a[i]? = some j) (hki : k ≠ i)
    (hw : j.st = .running → j.o.size = 0 ∨ j.o.rep = false) : b[i]? = some j := by
  cases hd with
  | nothing h => rw [h]; exact hj
  | one x hx hr h _ =>
    rw [h, List.getElem?_set_ne hki]
    exact hj
  | group x hx hr hs hrep h =>
    have hxm := List.mem_of_getElem? hx
    have hjm := List.mem_of_getElem? hj
    rw [h, markGroup_get, List.getElem?_set_ne hki, hj]
    simp only [Option.map_some, Option.some.injEq]
    split
    · next hg =>
      exfalso
      have hu := hi.uni x hxm j hjm hg.symm
      rcases hw (hi.tog x hxm j hjm hg.symm hs hrep hr) with hw | hw
      · exact hs (hu.1.trans hw)
      · rw [← hu.2, hrep] at hw; cases hw
    · rfl

/-- **C42, final.**  A job whose ramp period is over stays that way and keeps its statistics. -/
theorem C42_final {os : List Opts} {jobs : List Job} (h : addAll [] os = some jobs)
    (hu : Uniform os) (evs evs' : List Ev) {i : Nat} {j : Job}
    (hj : (exec jobs evs)[i]? = some j) (hd : j.st = .done) :
    ∃ j', (exec jobs (evs ++ evs'))[i]? = some j' ∧ j'.st = .done ∧ j'.resets = j.resets := by
  have key : ∀ (es : List Ev) (a : List Job), Inv a →
      (∃ j', a[i]? = some j' ∧ j'.st = .done ∧ j'.resets = j.resets) →
      ∃ j', (exec a es)[i]? = some j' ∧ j'.st = .done ∧ j'.resets = j.resets := by
    intro es
    induction es with
    | nil => intro a _ h; exact h
    | cons e es ih =>
      intro a hi hx
      refine ih _ (inv_step hi e) ?_
      obtain ⟨x, hx, hxd, hxr⟩ := hx
      cases e with
      | check now =>
        have := check_induct (P := fun b => Inv b ∧ b[i]? = some x) now ⟨hi, hx⟩ (by
          rintro k a b ⟨ha, hax⟩ hd
          refine ⟨inv_did ha hd, ?_⟩
          by_cases hki : k = i
          · subst hki
            cases hd with
            | nothing h => rw [h]; exact hax
            | one y hy hr _ _ =>
              rw [hax] at hy; cases hy; rw [hxd] at hr; cases hr
            | group y hy hr _ _ _ =>
              rw [hax] at hy; cases hy; rw [hxd] at hr; cases hr
          · exact did_other ha hd hax hki (fun hr => by rw [hxd] at hr; cases hr))
        exact ⟨x, this.2, hxd, hxr⟩
      | start k now =>
        simp only [step]
        split
        · exact ⟨x, hx, hxd, hxr⟩
        · next y hy =>
          by_cases hki : k = i
          · subst hki
            rw [hx] at hy; cases hy
            exact ⟨_, List.getElem?_set_self (List.getElem?_eq_some_iff.mp hx).1, hxd, hxr⟩
          · exact ⟨x, by rw [List.getElem?_set_ne hki]; exact hx, hxd, hxr⟩
      | io k n =>
        simp only [step]
        split
        · exact ⟨x, hx, hxd, hxr⟩
        · next y hy =>
          by_cases hki : k = i
          · subst hki
            rw [hx] at hy; cases hy
            exact ⟨_, List.getElem?_set_self (List.getElem?_eq_some_iff.mp hx).1, hxd, hxr⟩
          · exact ⟨x, by rw [List.getElem?_set_ne hki]; exact hx, hxd, hxr⟩
      | over k now =>
        simp only [step]
        split
        · exact ⟨x, hx, hxd, hxr⟩
        · next y hy =>
          by_cases hki : k = i
          · subst hki
            rw [hx] at hy; cases hy
            have := (over_spec now x).2.2 (by rw [hxd]; simp)
            exact ⟨_, List.getElem?_set_self (List.getElem?_eq_some_iff.mp hx).1,
              by rw [this]; exact hxd, by rw [this]; exact hxr⟩
          · exact ⟨x, by rw [List.getElem?_set_ne hki]; exact hx, hxd, hxr⟩
  have := key evs' (exec jobs evs) (inv_exec (inv_init h hu) evs) ⟨j, hj, hd, rfl⟩
  rw [show exec jobs (evs ++ evs') = exec (exec jobs evs) evs' by simp [exec, List.foldl_append]]
  exact this

/-- Induction over ramp_period_check with job `i` singled out. -/
theorem check_at {P Q : List Job → Prop} (now : Nat → Nat) {jobs : List Job} {i : Nat}
    (hi : i < jobs.length) (h0 : P jobs)
    (hpre : ∀ k a b, k ≠ i → P a → Did (now k) k a b → P b)
    (hat : ∀ s : List Job × Loc, LocOK s.1 s.2 → P s.1 → Q (checkJob (now i) i s).1)
    (hpost : ∀ k a b, k ≠ i → Q a → Did (now k) k a b → Q b) : Q (check now jobs) := by
  have pre : ∀ (is : List Nat) (s : List Job × Loc), i ∉ is → P s.1 → LocOK s.1 s.2 →
      P (is.foldl (fun s i => checkJob (now i) i s) s).1 ∧
      LocOK (is.foldl (fun s i => checkJob (now i) i s) s).1
        (is.foldl (fun s i => checkJob (now i) i s) s).2 := by
    intro is
    induction is with
    | nil => intro s _ hs hl; exact ⟨hs, hl⟩
    | cons k is ih =>
      intro s hn hs hl
      rw [List.foldl_cons]
      have hd := checkJob_did (now := now k) (i := k) hl
      have hne : k ≠ i := fun h => hn (h ▸ List.mem_cons_self)
      exact ih _ (fun h => hn (List.mem_cons_of_mem _ h)) (hpre k _ _ hne hs hd.1) hd.2
  have post : ∀ (is : List Nat) (s : List Job × Loc), i ∉ is → Q s.1 → LocOK s.1 s.2 →
      Q (is.foldl (fun s i => checkJob (now i) i s) s).1 := by
    intro is
    induction is with
    | nil => intro s _ hs _; exact hs
    | cons k is ih =>
      intro s hn hs hl
      rw [List.foldl_cons]
      have hd := checkJob_did (now := now k) (i := k) hl
      have hne : k ≠ i := fun h => hn (h ▸ List.mem_cons_self)
      exact ih _ (fun h => hn (List.mem_cons_of_mem _ h)) (hpost k _ _ hne hs hd.1) hd.2
  unfold check
  have hsplit : List.range jobs.length = List.range i ++ i :: (List.range (jobs.length - i - 1)).map
      (fun x => i + 1 + x) := by
    have h1 : jobs.length = i + (1 + (jobs.length - i - 1)) := by omega
    rw [h1, List.range_add, List.range_add]
    have h2 : i + (1 + (jobs.length - i - 1)) - i - 1 = jobs.length - i - 1 := by omega
    rw [h2]
    simp [List.range_succ, Function.comp_def, Nat.add_assoc]
  rw [hsplit, List.foldl_append, List.foldl_cons]
  have p := pre (List.range i) (jobs, { bytes := 0, prev := none, over := false })
    (by simp) h0 (by intro ho; simp at ho)
  refine post _ _ ?_ (hat _ p.2 p.1) (checkJob_did p.2).2
  intro h
  simp only [List.mem_map, List.mem_range] at h
  obtain ⟨x, _, hx⟩ := h
  omega

theorem check_own {now : Nat → Nat} {jobs : List Job} {i : Nat} {j r : Job} (hi : Inv jobs)
    (hj : jobs[i]? = some j) (hw : j.o.size = 0 ∨ j.o.rep = false)
    (hat : ∀ s : List Job × Loc, LocOK s.1 s.2 → Inv s.1 → s.1[i]? = some j →
      (checkJob (now i) i s).1[i]? = some r)
    (hr : r.o = j.o) : (check now jobs)[i]? = some r := by
  have := check_at (P := fun a => Inv a ∧ a[i]? = some j) (Q := fun a => Inv a ∧ a[i]? = some r)
    now (List.getElem?_eq_some_iff.mp hj).1 ⟨hi, hj⟩
    (fun k a b hk ⟨ha, haj⟩ hd => ⟨inv_did ha hd, did_other ha hd haj hk (fun _ => hw)⟩)
    (fun s hl ⟨ha, haj⟩ => ⟨inv_did ha (checkJob_did hl).1, hat s hl ha haj⟩)
    (fun k a b hk ⟨ha, haj⟩ hd => ⟨inv_did ha hd, did_other ha hd haj hk (fun _ => by rw [hr]; exact hw)⟩)
  exact this.2

/-- **C42, ramp_time.**  A look at the clock ends the ramp period of a job exactly when ramp_time has
passed since td->epoch. -/
theorem C42_check_time {now : Nat → Nat} {jobs : List Job} {i : Nat} {j : Job} (hi : Inv jobs)
    (hj : jobs[i]? = some j) (hr : j.st = .running) (ht : j.o.time ≠ 0) :
    (check now jobs)[i]? = some (if j.o.time ≤ now i - j.epoch then j.finish else j) := by
  have hs : j.o.size = 0 := hi.ts j (List.mem_of_getElem? hj) ht
  refine check_own hi hj (.inl hs) ?_ (by split <;> rfl)
  intro s _ _ hsj
  have hlt := (List.getElem?_eq_some_iff.mp hsj).1
  unfold checkJob
  simp only [hsj, hr, hs, ne_eq, not_true, if_false, ht, not_false_eq_true, true_and]
  split
  · simp only
    rw [List.getElem?_set_self hlt]
  · exact hsj

/-- **C42, ramp_size.**  Without group_reporting the ramp period of a job ends exactly when the job
itself has done ramp_size bytes. -/
theorem C42_check_size {now : Nat → Nat} {jobs : List Job} {i : Nat} {j : Job} (hi : Inv jobs)
    (hj : jobs[i]? = some j) (hr : j.st = .running) (hs : j.o.size ≠ 0) (hrep : j.o.rep = false) :
    (check now jobs)[i]? = some (if j.o.size ≤ j.bytes then j.finish else j) := by
  have ht : j.o.time = 0 := by
    have := hi.ts j (List.mem_of_getElem? hj)
    omega
  refine check_own hi hj (.inr hrep) ?_ (by split <;> rfl)
  intro s _ _ hsj
  have hlt := (List.getElem?_eq_some_iff.mp hsj).1
  unfold checkJob
  simp only [hsj, hr, hs, hrep, ht, ne_eq, not_true, if_false, not_false_eq_true, false_and,
    if_true, true_or, Nat.zero_add, Bool.false_eq_true]
  split
  · simp only
    rw [List.getElem?_set_self hlt]
  · exact hsj

/-- **C42, not too early.**  If the helper thread does not look before the job has started, the ramp
period of a job with ramp_time does not end before that time has passed since the start. -/
theorem C42_time {os : List Opts} {jobs : List Job} {o : Opts} {i s : Nat} {pre post : List Ev}
    (h : addAll [] os = some jobs) (hu : Uniform os) (ho : os[i]? = some o) (ht : o.time ≠ 0)
    (hpre : ∀ now, Ev.check now ∉ pre) (hpost : ∀ t, Ev.start i t ∉ post) {j : Job}
    (hj : (exec jobs (pre ++ Ev.start i s :: post))[i]? = some j) (hst : j.st ≠ .running) :
    ∃ now, Ev.check now ∈ post ∧ s + o.time ≤ now i := by
  obtain ⟨hf, hm⟩ := addAll_spec h (by simp)
  simp only [List.map_nil, List.nil_append] at hm
  -- one step other than a look at the clock keeps the job running
  have quiet : ∀ (e : Ev) (a : List Job), (∀ now, e ≠ .check now) → (∀ t, e ≠ .start i t) →
      ∀ x, a[i]? = some x → x.st = .running → ∃ x', (step a e)[i]? = some x' ∧ x'.st = .running ∧
        x'.o = x.o ∧ x'.epoch = x.epoch := by
    intro e a hc hs x hx hr
    have hlt := (List.getElem?_eq_some_iff.mp hx).1
    cases e with
    | check now => exact absurd rfl (hc now)
    | start k t =>
      have hki : k ≠ i := fun hk => hs t (by rw [hk])
      simp only [step]
      split
      · exact ⟨x, hx, hr, rfl, rfl⟩
      · exact ⟨x, by rw [List.getElem?_set_ne hki]; exact hx, hr, rfl, rfl⟩
    | io k n =>
      simp only [step]
      split
      · exact ⟨x, hx, hr, rfl, rfl⟩
      · next y hy =>
        by_cases hki : k = i
        · subst hki
          rw [hx] at hy; cases hy
          exact ⟨_, List.getElem?_set_self hlt, hr, rfl, rfl⟩
        · exact ⟨x, by rw [List.getElem?_set_ne hki]; exact hx, hr, rfl, rfl⟩
    | over k t =>
      simp only [step]
      split
      · exact ⟨x, hx, hr, rfl, rfl⟩
      · next y hy =>
        by_cases hki : k = i
        · subst hki
          rw [hx] at hy; cases hy
          have := (over_spec t x).2.2 (by rw [hr]; simp)
          exact ⟨_, List.getElem?_set_self hlt, by rw [this]; exact hr, by rw [this], by rw [this]⟩
        · exact ⟨x, by rw [List.getElem?_set_ne hki]; exact hx, hr, rfl, rfl⟩
  -- before the start
  have before : ∀ (es : List Ev) (a : List Job), (∀ now, Ev.check now ∉ es) →
      (∃ x, a[i]? = some x ∧ x.st = .running ∧ x.o = o) →
      ∃ x, (exec a es)[i]? = some x ∧ x.st = .running ∧ x.o = o := by
    intro es
    induction es with
    | nil => intro a _ h; exact h
    | cons e es ih =>
      intro a hc hx
      refine ih (step a e) (fun now hm => hc now (List.mem_cons_of_mem _ hm)) ?_
      obtain ⟨x, hx, hr, hxo⟩ := hx
      by_cases hs : ∃ t, e = .start i t
      · obtain ⟨t, rfl⟩ := hs
        simp only [step, hx]
        exact ⟨_, List.getElem?_set_self (List.getElem?_eq_some_iff.mp hx).1, hr, hxo⟩
      · obtain ⟨x', h1, h2, h3, _⟩ := quiet e a (fun now he => hc now (he ▸ List.mem_cons_self))
          (fun t he => hs ⟨t, he⟩) x hx hr
        exact ⟨x', h1, h2, h3.trans hxo⟩
  -- after it
  have after : ∀ (es : List Ev) (a : List Job), Inv a → (∀ t, Ev.start i t ∉ es) →
      (∃ x, a[i]? = some x ∧ x.st = .running ∧ x.o = o ∧ x.epoch = s) →
      (∃ x, (exec a es)[i]? = some x ∧ x.st = .running) ∨
        ∃ now, Ev.check now ∈ es ∧ s + o.time ≤ now i := by
    intro es
    induction es with
    | nil => intro a _ _ ⟨x, h1, h2, _⟩; exact .inl ⟨x, h1, h2⟩
    | cons e es ih =>
      intro a ha hs hx
      obtain ⟨x, hx, hr, hxo, hxe⟩ := hx
      by_cases hc : ∃ now, e = .check now
      · obtain ⟨now, rfl⟩ := hc
        have hck := C42_check_time (now := now) ha hx hr (by rw [hxo]; exact ht)
        by_cases hle : x.o.time ≤ now i - x.epoch
        · refine .inr ⟨now, List.mem_cons_self, ?_⟩
          rw [hxo, hxe] at hle
          omega
        · rw [if_neg hle] at hck
          rcases ih (step a (.check now)) (inv_step ha _)
            (fun t hm => hs t (List.mem_cons_of_mem _ hm)) ⟨x, hck, hr, hxo, hxe⟩ with h | ⟨n, h1, h2⟩
          · exact .inl h
          · exact .inr ⟨n, List.mem_cons_of_mem _ h1, h2⟩
      · obtain ⟨x', h1, h2, h3, h4⟩ := quiet e a (fun now he => hc ⟨now, he⟩)
          (fun t he => hs t (he ▸ List.mem_cons_self)) x hx hr
        rcases ih (step a e) (inv_step ha e) (fun t hm => hs t (List.mem_cons_of_mem _ hm))
          ⟨x', h1, h2, h3.trans hxo, h4.trans hxe⟩ with h | ⟨n, h1, h2⟩
        · exact .inl h
        · exact .inr ⟨n, List.mem_cons_of_mem _ h1, h2⟩
  have hlen : i < jobs.length := by
    have := (List.getElem?_eq_some_iff.mp ho).1
    rw [← hm, List.length_map] at this
    exact this
  have h0 : ∃ x, jobs[i]? = some x ∧ x.st = .running ∧ x.o = o := by
    have hxo : (jobs[i]'hlen).o = o := by
      have := ho
      rw [← hm, List.getElem?_map, List.getElem?_eq_getElem hlen] at this
      simpa using this
    refine ⟨jobs[i]'hlen, List.getElem?_eq_getElem hlen, ?_, hxo⟩
    rw [(hf _ (List.getElem_mem hlen)).st, hxo, if_pos (.inl ht)]
  obtain ⟨x, hx, hr, hxo⟩ := before pre jobs hpre h0
  have hexec : exec jobs (pre ++ Ev.start i s :: post) =
      exec (step (exec jobs pre) (.start i s)) post := by simp [exec, List.foldl_append]
  have hstep : (step (exec jobs pre) (.start i s))[i]? = some { x with epoch := s } := by
    simp only [step, hx]
    exact List.getElem?_set_self (List.getElem?_eq_some_iff.mp hx).1
  rw [hexec] at hj
  rcases after post _ (inv_step (inv_exec (inv_init h hu) pre) _) hpost
    ⟨_, hstep, hr, hxo, rfl⟩ with ⟨y, hy, hyr⟩ | h
  · rw [hj] at hy; cases hy
    exact absurd hyr hst
  · exact h

end Fio.Ramp
