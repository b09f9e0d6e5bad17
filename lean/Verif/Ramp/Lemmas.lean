import Verif.Ramp.Spec
/-
Lemmas about the ramp period.
-/
namespace Fio.Ramp

theorem markGroup_get (g : Nat) (jobs : List Job) (k : Nat) :
    (markGroup g jobs)[k]? = (jobs[k]?).map fun j => if j.o.group = g then j.finish else j := by
  simp [markGroup]

/-- The three things checkJob can do to the jobs. -/
inductive Did (now i : Nat) (jobs jobs' : List Job) : Prop where
  | nothing (h : jobs' = jobs)
  | one (j : Job) (hj : jobs[i]? = some j) (hr : j.st = .running) (h : jobs' = jobs.set i j.finish)
      (hw : (j.o.time ≠ 0 ∧ j.o.time ≤ now - j.epoch) ∨
        (j.o.rep = false ∧ j.o.size ≠ 0 ∧ j.o.size ≤ j.bytes))
  | group (j : Job) (hj : jobs[i]? = some j) (hr : j.st = .running) (hs : j.o.size ≠ 0)
      (hrep : j.o.rep = true) (h : jobs' = markGroup j.o.group (jobs.set i j.finish))

/-- Nobody of the group just marked is running. -/
def LocOK (jobs : List Job) (l : Loc) : Prop :=
  l.over = true → ∀ j ∈ jobs, l.prev = some j.o.group → j.st ≠ .running

theorem checkJob_did {now i : Nat} {s : List Job × Loc} (hl : LocOK s.1 s.2) :
    Did now i s.1 (checkJob now i s).1 ∧ LocOK (checkJob now i s).1 (checkJob now i s).2 := by
  obtain ⟨jobs, l⟩ := s
  simp only at hl ⊢
  unfold checkJob
  simp only
  cases hj : jobs[i]? with
  | none => exact ⟨.nothing rfl, hl⟩
  | some j =>
    simp only
    have hmem : j ∈ jobs := List.mem_of_getElem? hj
    split
    · exact ⟨.nothing rfl, hl⟩
    · next hr =>
      have hr : j.st = .running := by
        by_cases h : j.st = .running
        · exact h
        · exact absurd h hr
      split
      · next ht =>
        refine ⟨.one j hj hr rfl (.inl ht), ?_⟩
        intro ho k hk hp
        rcases List.mem_or_eq_of_mem_set hk with hk | rfl
        · exact hl ho k hk hp
        · simp [Job.finish]
      · split
        · next hs =>
          generalize hl' : (if j.o.rep = false ∨ l.prev ≠ some j.o.group then
            ({ bytes := 0, prev := some j.o.group, over := false } : Loc) else l) = l'
          have hprev : l'.prev = some j.o.group := by
            rw [← hl']
            split
            · rfl
            · next hc =>
              by_cases hp : l.prev = some j.o.group
              · exact hp
              · exact absurd (Or.inr hp) hc
          have hover : l'.over = false := by
            cases ho : l'.over with
            | false => rfl
            | true =>
              exfalso
              have : l' = l := by
                rw [← hl'] at ho ⊢
                split at ho
                · simp at ho
                · next hc => rw [if_neg hc]
              rw [this] at ho hprev
              exact hl ho j hmem hprev hr
          split
          · next hle =>
            split
            · next hrep =>
              refine ⟨.group j hj hr hs hrep.1 rfl, ?_⟩
              intro _ k hk hp
              simp only at hp
              rw [hprev] at hp
              simp only [markGroup, List.mem_map] at hk
              obtain ⟨k0, hk0, rfl⟩ := hk
              split
              · simp [Job.finish]
              · next hg =>
                rw [if_neg hg] at hp
                exact absurd (Option.some.inj hp).symm hg
            · next hrep =>
              have hrep' : j.o.rep = false := by
                cases h : j.o.rep with
                | false => rfl
                | true => exact absurd ⟨h, hover⟩ hrep
              refine ⟨.one j hj hr rfl (.inr ⟨hrep', hs, ?_⟩), ?_⟩
              · rw [if_pos (.inl hrep')] at hl'
                rw [← hl'] at hle
                simpa using hle
              intro ho
              simp only [hover] at ho
              cases ho
          · refine ⟨.nothing rfl, ?_⟩
            intro ho
            simp only [hover] at ho
            cases ho
        · exact ⟨.nothing rfl, hl⟩

/-- A property of the jobs kept by everything checkJob can do is kept by ramp_period_check. -/
theorem check_induct {P : List Job → Prop} (now : Nat → Nat) {jobs : List Job} (h0 : P jobs)
    (h : ∀ i a b, P a → Did (now i) i a b → P b) : P (check now jobs) := by
  have key : ∀ (is : List Nat) (s : List Job × Loc), P s.1 → LocOK s.1 s.2 →
      P (is.foldl (fun s i => checkJob (now i) i s) s).1 := by
    intro is
    induction is with
    | nil => intro s hs _; exact hs
    | cons i is ih =>
      intro s hs hl
      rw [List.foldl_cons]
      have hd := checkJob_did (now := now i) (i := i) hl
      exact ih _ (h i _ _ hs hd.1) hd.2
  exact key _ _ h0 (by intro ho; simp at ho)

/-- What holds of the jobs at any time. -/
structure Inv (jobs : List Job) : Prop where
  uni : ∀ a ∈ jobs, ∀ b ∈ jobs, a.o.group = b.o.group → a.o.size = b.o.size ∧ a.o.rep = b.o.rep
  ts : ∀ a ∈ jobs, a.o.time ≠ 0 → a.o.size = 0
  tog : ∀ a ∈ jobs, ∀ b ∈ jobs, a.o.group = b.o.group → a.o.size ≠ 0 → a.o.rep = true →
    a.st = .running → b.st = .running
  once : ∀ a ∈ jobs, a.resets ≤ 1 ∧ (a.st ≠ .done → a.resets = 0)

theorem inv_did {now i : Nat} {a b : List Job} (hi : Inv a) (hd : Did now i a b) : Inv b := by
  cases hd with
  | nothing h => rw [h]; exact hi
  | one j hj hr h hw =>
    subst h
    have hmem : j ∈ a := List.mem_of_getElem? hj
    have hfo : j.finish.o = j.o := rfl
    have back : ∀ x ∈ a.set i j.finish, ∃ y ∈ a, x.o = y.o ∧ (x = y ∨ (x = j.finish ∧ y = j)) := by
      intro x hx
      rcases List.mem_or_eq_of_mem_set hx with hx | rfl
      · exact ⟨x, hx, rfl, .inl rfl⟩
      · exact ⟨j, hmem, rfl, .inr ⟨rfl, rfl⟩⟩
    refine ⟨?_, ?_, ?_, ?_⟩
    · intro x hx y hy hg
      obtain ⟨x', hx', ex, _⟩ := back x hx
      obtain ⟨y', hy', ey, _⟩ := back y hy
      rw [ex, ey] at hg ⊢
      exact hi.uni x' hx' y' hy' hg
    · intro x hx
      obtain ⟨x', hx', ex, _⟩ := back x hx
      rw [ex]
      exact hi.ts x' hx'
    · intro x hx y hy hg hs hrep hrun
      obtain ⟨x', hx', ex, dx⟩ := back x hx
      obtain ⟨y', hy', ey, dy⟩ := back y hy
      have hxx : x = x' := by
        rcases dx with h | ⟨h, _⟩
        · exact h
        · rw [h] at hrun; simp [Job.finish] at hrun
      subst hxx
      rcases dy with h | ⟨h, h'⟩
      · rw [h]; rw [ey] at hg; exact hi.tog x hx' y' hy' hg hs hrep hrun
      · exfalso
        rw [h'] at ey hy'
        rw [ey] at hg
        have := hi.uni x hx' j hmem hg
        rcases hw with hw | hw
        · exact hs (this.1.trans (hi.ts j hmem hw.1))
        · have := hw.1; rw [← (hi.uni x hx' j hmem hg).2, hrep] at this; cases this
    · intro x hx
      obtain ⟨x', hx', ex, dx⟩ := back x hx
      rcases dx with h | ⟨h, h'⟩
      · rw [h]; exact hi.once x' hx'
      · have := (hi.once j hmem).2 (by rw [hr]; simp)
        rw [h]
        simp [Job.finish, this]
  | group j hj hr hs hrep h =>
    subst h
    have hmem : j ∈ a := List.mem_of_getElem? hj
    have back : ∀ x ∈ markGroup j.o.group (a.set i j.finish), ∃ y ∈ a, x.o = y.o ∧
        ((y.o.group ≠ j.o.group ∧ x = y) ∨ (y.o.group = j.o.group ∧ x = y.finish)) := by
      intro x hx
      simp only [markGroup, List.mem_map] at hx
      obtain ⟨z, hz, rfl⟩ := hx
      rcases List.mem_or_eq_of_mem_set hz with hz | rfl
      · refine ⟨z, hz, ?_, ?_⟩
        · split <;> rfl
        · split
          · next h => exact .inr ⟨h, rfl⟩
          · next h => exact .inl ⟨h, rfl⟩
      · refine ⟨j, hmem, ?_, ?_⟩
        · split <;> rfl
        · refine .inr ⟨rfl, ?_⟩
          rw [if_pos (show j.finish.o.group = j.o.group from rfl)]; rfl
    refine ⟨?_, ?_, ?_, ?_⟩
    · intro x hx y hy hg
      obtain ⟨x', hx', ex, _⟩ := back x hx
      obtain ⟨y', hy', ey, _⟩ := back y hy
      rw [ex, ey] at hg ⊢
      exact hi.uni x' hx' y' hy' hg
    · intro x hx
      obtain ⟨x', hx', ex, _⟩ := back x hx
      rw [ex]
      exact hi.ts x' hx'
    · intro x hx y hy hg hs' hrep' hrun
      obtain ⟨x', hx', ex, dx⟩ := back x hx
      obtain ⟨y', hy', ey, dy⟩ := back y hy
      rcases dx with ⟨g1, rfl⟩ | ⟨g1, rfl⟩
      · rcases dy with ⟨g2, rfl⟩ | ⟨g2, rfl⟩
        · exact hi.tog x hx' y hy' hg hs' hrep' hrun
        · exact absurd (hg.trans (ey ▸ g2)) g1
      · simp [Job.finish] at hrun
    · intro x hx
      obtain ⟨x', hx', ex, dx⟩ := back x hx
      rcases dx with ⟨g1, rfl⟩ | ⟨g1, rfl⟩
      · exact hi.once x hx'
      · have hrx := hi.tog j hmem x' hx' g1.symm hs hrep hr
        have := (hi.once x' hx').2 (by rw [hrx]; simp)
        simp [Job.finish, this]

theorem inv_set {jobs : List Job} {i : Nat} {j j' : Job} (hi : Inv jobs) (hj : jobs[i]? = some j)
    (ho : j'.o = j.o) (hst : j'.st = .running ↔ j.st = .running)
    (honce : j'.resets ≤ 1 ∧ (j'.st ≠ .done → j'.resets = 0)) : Inv (jobs.set i j') := by
  have hmem : j ∈ jobs := List.mem_of_getElem? hj
  have back : ∀ x ∈ jobs.set i j', ∃ y ∈ jobs, x.o = y.o ∧ (x.st = .running ↔ y.st = .running) := by
    intro x hx
    rcases List.mem_or_eq_of_mem_set hx with hx | rfl
    · exact ⟨x, hx, rfl, Iff.rfl⟩
    · exact ⟨j, hmem, ho, hst⟩
  refine ⟨?_, ?_, ?_, ?_⟩
  · intro x hx y hy hg
    obtain ⟨x', hx', ex, _⟩ := back x hx
    obtain ⟨y', hy', ey, _⟩ := back y hy
    rw [ex, ey] at hg ⊢
    exact hi.uni x' hx' y' hy' hg
  · intro x hx
    obtain ⟨x', hx', ex, _⟩ := back x hx
    rw [ex]
    exact hi.ts x' hx'
  · intro x hx y hy hg hs hrep hrun
    obtain ⟨x', hx', ex, dx⟩ := back x hx
    obtain ⟨y', hy', ey, dy⟩ := back y hy
    rw [ex] at hg hs hrep
    rw [ey] at hg
    exact dy.mpr (hi.tog x' hx' y' hy' hg hs hrep (dx.mp hrun))
  · intro x hx
    rcases List.mem_or_eq_of_mem_set hx with hx | rfl
    · exact hi.once x hx
    · exact honce

theorem inv_step {jobs : List Job} (hi : Inv jobs) (ev : Ev) : Inv (step jobs ev) := by
  cases ev with
  | check now => exact check_induct now hi (fun i a b => inv_did)
  | start i now =>
    simp only [step]
    split
    · exact hi
    · next j hj =>
      exact inv_set hi hj rfl Iff.rfl (hi.once j (List.mem_of_getElem? hj))
  | io i n =>
    simp only [step]
    split
    · exact hi
    · next j hj =>
      exact inv_set hi hj rfl Iff.rfl (hi.once j (List.mem_of_getElem? hj))
  | over i now =>
    simp only [step]
    split
    · exact hi
    · next j hj =>
      have ho := hi.once j (List.mem_of_getElem? hj)
      refine inv_set hi hj ?_ ?_ ?_
      · unfold over; split <;> rfl
      · unfold over; split <;> simp_all
      · unfold over
        split
        · exact ho
        · exact ho
        · next hf => simp [hf] at ho; simp [ho.2]

theorem inv_exec {jobs : List Job} (hi : Inv jobs) (evs : List Ev) : Inv (exec jobs evs) := by
  induction evs generalizing jobs with
  | nil => exact hi
  | cons e es ih => exact ih (inv_step hi e)

/-- A job just added. -/
structure Fresh (j : Job) : Prop where
  e : j.epoch = 0
  b : j.bytes = 0
  r : j.resets = 0
  st : j.st = if j.o.time ≠ 0 ∨ j.o.size ≠ 0 then .running else .done
  ts : j.o.time ≠ 0 → j.o.size = 0

theorem add_spec {jobs jobs' : List Job} {o : Opts} (h : add jobs o = some jobs') :
    ∃ j, jobs' = jobs ++ [j] ∧ j.o = o ∧ Fresh j := by
  unfold add at h
  split at h
  · next h1 =>
    split at h
    · cases h
    · next h2 =>
      split at h
      · cases h
      · cases h
        refine ⟨_, rfl, rfl, rfl, rfl, rfl, ?_, ?_⟩
        · simp only; rw [if_pos h1]
        · intro ht
          simp only at ht ⊢
          omega
  · next h1 =>
    cases h
    refine ⟨_, rfl, rfl, rfl, rfl, rfl, ?_, ?_⟩
    · simp only; rw [if_neg h1]
    · intro ht; simp only at ht; omega

theorem addAll_spec : ∀ {os : List Opts} {jobs jobs' : List Job}, addAll jobs os = some jobs' →
    (∀ j ∈ jobs, Fresh j) → (∀ j ∈ jobs', Fresh j) ∧ jobs'.map (·.o) = jobs.map (·.o) ++ os
  | [], jobs, jobs', h, hf => by
    simp only [addAll, Option.some.injEq] at h
    subst h
    exact ⟨hf, by simp⟩
  | o :: os, jobs, jobs', h, hf => by
    simp only [addAll, Option.bind_eq_bind] at h
    cases ha : add jobs o with
    | none => rw [ha] at h; cases h
    | some jobs1 =>
      rw [ha] at h
      simp only [Option.bind_some] at h
      obtain ⟨j, e1, e2, e3⟩ := add_spec ha
      have := addAll_spec h (by
        rw [e1]; intro x hx
        rcases List.mem_append.mp hx with hx | hx
        · exact hf x hx
        · rw [List.mem_singleton.mp hx]; exact e3)
      refine ⟨this.1, ?_⟩
      rw [this.2, e1]
      simp [e2]

theorem inv_init {os : List Opts} {jobs : List Job} (h : addAll [] os = some jobs)
    (hu : Uniform os) : Inv jobs := by
  obtain ⟨hf, hm⟩ := addAll_spec h (by simp)
  simp only [List.map_nil, List.nil_append] at hm
  have hin : ∀ j ∈ jobs, j.o ∈ os := by
    intro j hj
    rw [← hm]
    exact List.mem_map_of_mem hj
  refine ⟨?_, ?_, ?_, ?_⟩
  · intro a ha b hb hg
    exact hu _ (hin a ha) _ (hin b hb) hg
  · intro a ha
    exact (hf a ha).ts
  · intro a ha b hb hg hs _ _
    have := hu _ (hin a ha) _ (hin b hb) hg
    rw [(hf b hb).st, if_pos]
    right
    rw [← this.1]
    exact hs
  · intro a ha
    rw [(hf a ha).r]
    exact ⟨by omega, fun _ => rfl⟩

end Fio.Ramp
