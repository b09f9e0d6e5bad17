import Verif.Ramp.Props
/-
C42, continued: ramp_size with group_reporting.
-/
namespace Fio.Ramp

theorem take_groupBytes {jobs : List Job} {i g : Nat} {x : Job} (hx : jobs[i]? = some x) :
    groupBytes g (jobs.take (i + 1)) =
      groupBytes g (jobs.take i) + if x.o.group = g then x.bytes else 0 := by
  rw [List.take_add_one, hx]
  simp only [groupBytes, Option.toList_some, List.filter_append, List.map_append, List.sum_append]
  congr 1
  by_cases h : x.o.group = g <;> simp [h]

theorem take_groupBytes_zero {jobs : List Job} {i g : Nat}
    (h : ∀ m < i, ∀ k, jobs[m]? = some k → k.o.group ≠ g) : groupBytes g (jobs.take i) = 0 := by
  unfold groupBytes
  have : (jobs.take i).filter (fun j => j.o.group == g) = [] := by
    rw [List.filter_eq_nil_iff]
    intro k hk
    obtain ⟨m, hm, rfl⟩ := List.mem_iff_getElem.mp hk
    rw [List.length_take] at hm
    rw [List.getElem_take]
    have := h m (by omega) (jobs[m]'(by omega)) (List.getElem?_eq_getElem (by omega))
    simpa using this
  rw [this]
  rfl

/-- What holds of the loop of ramp_period_check before job `i`, for a group `g` that is running with
ramp_size `S`. -/
structure W (jobs : List Job) (g S i : Nat) (s : List Job × Loc) : Prop where
  inv : Inv s.1
  loc : LocOK s.1 s.2
  mem : ∀ (m : Nat) (k : Job), jobs[m]? = some k → k.o.group = g →
    s.1[m]? = some (if S ≤ groupBytes g (jobs.take i) then k.finish else k)
  opt : ∀ m : Nat, (s.1[m]?).map (·.o) = (jobs[m]?).map (·.o)
  prev : ∀ h, s.2.prev = some h → ∃ m < i, ∃ k, jobs[m]? = some k ∧ k.o.group = h
  acc : ¬ S ≤ groupBytes g (jobs.take i) → ∀ k, jobs[i]? = some k → k.o.group = g →
    (∃ m < i, ∃ k', jobs[m]? = some k' ∧ k'.o.group = g) →
    s.2.prev = some g ∧ s.2.bytes = groupBytes g (jobs.take i) ∧ s.2.over = false

theorem did_opt {now i : Nat} {a b : List Job} (hd : Did now i a b) (m : Nat) :
    (b[m]?).map (·.o) = (a[m]?).map (·.o) := by
  have hset : ∀ j, a[i]? = some j → ((a.set i j.finish)[m]?).map (·.o) = (a[m]?).map (·.o) := by
    intro j hj
    by_cases h : i = m
    · subst h
      rw [List.getElem?_set_self (List.getElem?_eq_some_iff.mp hj).1, hj]
      rfl
    · rw [List.getElem?_set_ne h]
  cases hd with
  | nothing h => rw [h]
  | one j hj _ h _ => rw [h]; exact hset j hj
  | group j hj _ _ _ h =>
    rw [h, markGroup_get, ← hset j hj, Option.map_map]
    congr 1
    funext k
    simp only [Function.comp_def]
    split <;> rfl

/-- A job of another group is left alone. -/
theorem did_apart {now i : Nat} {a b : List Job} {x k : Job} {m : Nat} (hd : Did now i a b)
    (hx : a[i]? = some x) (hk : a[m]? = some k) (hne : x.o.group ≠ k.o.group) : b[m]? = some k := by
  have him : i ≠ m := by
    rintro rfl
    rw [hx] at hk; cases hk
    exact hne rfl
  cases hd with
  | nothing h => rw [h]; exact hk
  | one j hj _ h _ => rw [h, List.getElem?_set_ne him]; exact hk
  | group j hj _ _ _ h =>
    rw [hx] at hj; cases hj
    rw [h, markGroup_get, List.getElem?_set_ne him, hk]
    simp only [Option.map_some, Option.some.injEq]
    rw [if_neg (fun h => hne h.symm)]

theorem checkJob_prev {now i : Nat} {s : List Job × Loc} {x : Job} (hx : s.1[i]? = some x) :
    (checkJob now i s).2.prev = s.2.prev ∨ (checkJob now i s).2.prev = some x.o.group := by
  unfold checkJob
  simp only [hx]
  split
  · exact .inl rfl
  · split
    · exact .inl rfl
    · split
      · split <;> split <;> try split
        all_goals first | exact .inr rfl | exact .inl rfl
      · exact .inl rfl

theorem w_step {jobs : List Job} {g S i now : Nat} {s : List Job × Loc} {x : Job}
    (hord : ∀ m n : Nat, m ≤ n → ∀ a b, jobs[m]? = some a → jobs[n]? = some b → a.o.group ≤ b.o.group)
    (hmem : ∀ k ∈ jobs, k.o.group = g → k.o.size = S ∧ k.o.rep = true ∧ k.st = .running)
    (hS : S ≠ 0) (hx : jobs[i]? = some x) (hw : W jobs g S i s) :
    W jobs g S (i + 1) (checkJob now i s) := by
  obtain ⟨hd, hl⟩ := checkJob_did (now := now) (i := i) hw.loc
  have hopt : ∀ m : Nat, ((checkJob now i s).1[m]?).map (·.o) = (jobs[m]?).map (·.o) :=
    fun m => (did_opt hd m).trans (hw.opt m)
  obtain ⟨y, hy, hyo⟩ : ∃ y, s.1[i]? = some y ∧ y.o = x.o := by
    have := hw.opt i
    rw [hx] at this
    cases h : s.1[i]? with
    | none => rw [h] at this; cases this
    | some y =>
      rw [h] at this
      exact ⟨y, rfl, by simpa using this⟩
  have hT := take_groupBytes (g := g) hx
  have hprev : ∀ h, (checkJob now i s).2.prev = some h →
      ∃ m < i + 1, ∃ k, jobs[m]? = some k ∧ k.o.group = h := by
    intro h hh
    rcases checkJob_prev (now := now) hy with hp | hp
    · rw [hp] at hh
      obtain ⟨m, hm, k, e1, e2⟩ := hw.prev h hh
      exact ⟨m, by omega, k, e1, e2⟩
    · rw [hp] at hh
      cases hh
      exact ⟨i, by omega, x, hx, by rw [hyo]⟩
  by_cases hg : x.o.group = g
  · rw [if_pos hg] at hT
    obtain ⟨hxS, hxrep, hxrun⟩ := hmem x (List.mem_of_getElem? hx) hg
    by_cases hdone : S ≤ groupBytes g (jobs.take i)
    · -- the group has been marked
      have hsx := hw.mem i x hx hg
      rw [if_pos hdone] at hsx
      have heq : checkJob now i s = s := by
        unfold checkJob
        simp [hsx, Job.finish]
      have hdone' : S ≤ groupBytes g (jobs.take (i + 1)) := by omega
      refine ⟨inv_did hw.inv hd, hl, ?_, hopt, hprev, fun h => absurd hdone' h⟩
      intro m k hk hkg
      rw [heq, if_pos hdone']
      have := hw.mem m k hk hkg
      rw [if_pos hdone] at this
      exact this
    · have hsx := hw.mem i x hx hg
      rw [if_neg hdone] at hsx
      have hxt : x.o.time = 0 := by
        have := hw.inv.ts x (List.mem_of_getElem? hsx)
        omega
      -- the local variables after the first part
      obtain ⟨l', hl', hb, hp, ho⟩ : ∃ l' : Loc,
          (if x.o.rep = false ∨ s.2.prev ≠ some x.o.group then
            ({ bytes := 0, prev := some x.o.group, over := false } : Loc) else s.2) = l' ∧
          l'.bytes = groupBytes g (jobs.take i) ∧ l'.prev = some g ∧ l'.over = false := by
        by_cases hex : ∃ m < i, ∃ k', jobs[m]? = some k' ∧ k'.o.group = g
        · obtain ⟨a1, a2, a3⟩ := hw.acc hdone x hx hg hex
          refine ⟨s.2, ?_, a2, a1, a3⟩
          rw [if_neg]
          rintro (h | h)
          · rw [hxrep] at h; cases h
          · exact h (by rw [hg]; exact a1)
        · refine ⟨_, rfl, ?_, ?_, ?_⟩
          all_goals rw [if_pos]
          · symm
            apply take_groupBytes_zero
            intro m hm k hk hkg
            exact hex ⟨m, hm, k, hk, hkg⟩
          · right
            intro hp
            obtain ⟨m, hm, k, e1, e2⟩ := hw.prev _ hp
            exact hex ⟨m, hm, k, e1, e2.trans hg⟩
          · simp [hg]
          · right
            intro hp
            obtain ⟨m, hm, k, e1, e2⟩ := hw.prev _ hp
            exact hex ⟨m, hm, k, e1, e2.trans hg⟩
          · right
            intro hp
            obtain ⟨m, hm, k, e1, e2⟩ := hw.prev _ hp
            exact hex ⟨m, hm, k, e1, e2.trans hg⟩
      have heq : checkJob now i s =
          if S ≤ groupBytes g (jobs.take (i + 1)) then
            (markGroup g (s.1.set i x.finish),
              { bytes := l'.bytes + x.bytes, prev := l'.prev, over := true })
          else (s.1, { bytes := l'.bytes + x.bytes, prev := l'.prev, over := l'.over }) := by
        unfold checkJob
        simp only [hsx, hxrun, hxt, hxS, ne_eq, not_true, if_false, hS, not_false_eq_true, if_true,
          false_and]
        rw [hl', hT, ← hb]
        split
        · rw [if_pos ⟨hxrep, ho⟩, hg]
        · rfl
      refine ⟨inv_did hw.inv hd, hl, ?_, hopt, hprev, ?_⟩
      · intro m k hk hkg
        have hsk := hw.mem m k hk hkg
        rw [if_neg hdone] at hsk
        rw [heq]
        split
        · rw [markGroup_get]
          by_cases him : i = m
          · subst him
            rw [hx] at hk; cases hk
            rw [List.getElem?_set_self (List.getElem?_eq_some_iff.mp hsx).1]
            simp only [Option.map_some, Option.some.injEq]
            split <;> rfl
          · rw [List.getElem?_set_ne him, hsk]
            simp only [Option.map_some, Option.some.injEq]
            rw [if_pos hkg]
        · exact hsk
      · intro hnd _ _ _ _
        rw [heq, if_neg hnd]
        exact ⟨hp, by rw [hb, hT], ho⟩
  · rw [if_neg hg, Nat.add_zero] at hT
    refine ⟨inv_did hw.inv hd, hl, ?_, hopt, hprev, ?_⟩
    · intro m k hk hkg
      have hsk := hw.mem m k hk hkg
      rw [hT]
      refine did_apart hd hy hsk ?_
      rw [hyo]
      intro h
      apply hg
      rw [h]
      split <;> exact hkg
    · intro _ k hk hkg ⟨m, hm, k', hk', hkg'⟩
      exfalso
      by_cases hmi : m = i
      · subst hmi
        rw [hx] at hk'; cases hk'
        exact hg hkg'
      · have h1 := hord m i (by omega) k' x hk' hx
        have h2 := hord i (i + 1) (by omega) x k hx hk
        omega

/-- **C42, ramp_size of a group.**  With group_reporting the ramp period ends for all the jobs of a
group together, exactly when all of them together have done ramp_size bytes. -/
theorem C42_check_group {now : Nat → Nat} {jobs : List Job} {j : Job} (hi : Inv jobs)
    (hord : Ordered (jobs.map (·.o))) (hj : j ∈ jobs) (hr : j.st = .running) (hs : j.o.size ≠ 0)
    (hrep : j.o.rep = true) {i : Nat} {k : Job} (hk : jobs[i]? = some k)
    (hg : k.o.group = j.o.group) :
    (check now jobs)[i]? =
      some (if j.o.size ≤ groupBytes j.o.group jobs then k.finish else k) := by
  have hord' : ∀ m n : Nat, m ≤ n → ∀ a b, jobs[m]? = some a → jobs[n]? = some b →
      a.o.group ≤ b.o.group := by
    intro m n hmn a b ha hb
    rcases Nat.eq_or_lt_of_le hmn with rfl | hlt
    · rw [ha] at hb; cases hb; exact Nat.le_refl _
    · obtain ⟨h1, rfl⟩ := List.getElem?_eq_some_iff.mp ha
      obtain ⟨h2, rfl⟩ := List.getElem?_eq_some_iff.mp hb
      have := (List.pairwise_iff_getElem.mp hord) m n (by simpa using h1) (by simpa using h2) hlt
      simpa using this
  have hmem : ∀ k ∈ jobs, k.o.group = j.o.group →
      k.o.size = j.o.size ∧ k.o.rep = true ∧ k.st = .running := by
    intro k hk hg
    have := hi.uni j hj k hk hg.symm
    exact ⟨this.1.symm, this.2.symm.trans hrep, hi.tog j hj k hk hg.symm hs hrep hr⟩
  have key : ∀ n ≤ jobs.length, W jobs j.o.group j.o.size n
      ((List.range n).foldl (fun s i => checkJob (now i) i s)
        (jobs, { bytes := 0, prev := none, over := false })) := by
    intro n
    induction n with
    | zero =>
      intro _
      refine ⟨hi, by intro ho; simp at ho, ?_, fun _ => rfl, by simp, ?_⟩
      · intro m k hk _
        have : ¬ j.o.size ≤ groupBytes j.o.group (jobs.take 0) := by
          simp [groupBytes]; omega
        rw [if_neg this]
        exact hk
      · intro _ _ _ _ ⟨m, hm, _⟩
        omega
    | succ n ih =>
      intro hn
      rw [List.range_succ, List.foldl_append]
      exact w_step hord' hmem hs (List.getElem?_eq_getElem (by omega)) (ih (by omega))
  have := (key jobs.length (Nat.le_refl _)).mem i k hk hg
  rw [List.take_length] at this
  exact this

/-- Two groups, the second with group_reporting: neither job has done 100 bytes alone. -/
def exJobs : List Job :=
  [⟨⟨5, 0, 0, true⟩, .running, 3, 7, 0⟩, ⟨⟨0, 100, 1, true⟩, .running, 3, 60, 0⟩,
   ⟨⟨0, 100, 1, true⟩, .running, 3, 40, 0⟩, ⟨⟨0, 50, 2, false⟩, .running, 3, 49, 0⟩]

example : check (fun _ => 7) exJobs =
    [⟨⟨5, 0, 0, true⟩, .running, 3, 7, 0⟩, ⟨⟨0, 100, 1, true⟩, .finishing, 3, 60, 0⟩,
     ⟨⟨0, 100, 1, true⟩, .finishing, 3, 40, 0⟩, ⟨⟨0, 50, 2, false⟩, .running, 3, 49, 0⟩] := by
  decide +kernel

/-- The hypotheses of the theorems are met by those jobs, and they come from a legal set of
options. -/
example : Inv exJobs ∧ Ordered (exJobs.map (·.o)) ∧ Uniform (exJobs.map (·.o)) ∧
    ∃ jobs, addAll [] (exJobs.map (·.o)) = some jobs ∧
      exec jobs [.start 0 3, .start 1 3, .start 2 3, .start 3 3, .io 0 7, .io 1 60, .io 2 40,
        .io 3 49] = exJobs := by
  refine ⟨⟨by decide, by decide, by decide, by decide⟩, by unfold Ordered; decide,
    by unfold Uniform; decide, _, rfl, by decide⟩

/-- A whole run: the job starts at time 10 with a ramp time of 5, and the helper looks at 14 and at
16. -/
example : ∃ jobs, addAll [] [⟨5, 0, 0, false⟩] = some jobs ∧
    (exec jobs ([] ++ .start 0 10 :: [.io 0 4, .check (fun _ => 14)])).map (·.st) = [.running] ∧
    (exec jobs ([] ++ .start 0 10 :: [.io 0 4, .check (fun _ => 14), .check (fun _ => 16)])).map
      (·.st) = [.finishing] ∧
    (exec jobs ([] ++ .start 0 10 :: [.io 0 4, .check (fun _ => 16), .over 0 17, .io 0 9])) =
      [⟨⟨5, 0, 0, false⟩, .done, 17, 9, 1⟩] :=
  ⟨_, rfl, by decide, by decide, by decide⟩

/-- **C42, the part that fails: a job that starts late has no ramp period.**  While it waits
(stonewall, startdelay, wait_for) its td->epoch is 0, so the first look at the clock ends its ramp
period although it has not even started; its first I/O counts.  Here ramp_time is 5 s, the job
starts 60 s after the origin of the clock, and one second later ramp_period_over already says
that the ramp period is over. -/
theorem C42_late_counterexample :
    ∃ jobs, addAll [] [⟨5000000, 0, 0, false⟩] = some jobs ∧
      (exec jobs [.check (fun _ => 30000000), .start 0 60000000]).map
        (fun j => (over 61000000 j).2) = [true] :=
  ⟨_, rfl, by decide⟩

/-- **C42, the part that fails: a job without a ramp period loses its statistics.**  A job that asks
for no ramp period is accepted in a group whose first job has ramp_size (the other order is
rejected); when that job has done its bytes the whole group is marked, and the second job, done
from the start, resets the statistics it has collected. -/
theorem C42_group_counterexample :
    ∃ jobs, addAll [] [⟨0, 100, 0, true⟩, ⟨0, 0, 0, true⟩] = some jobs ∧
      (exec jobs [.start 0 1, .start 1 1, .io 1 5000, .over 1 2]).map (fun j => (j.st, j.bytes)) =
        [(.running, 0), (.done, 5000)] ∧
      (exec jobs [.start 0 1, .start 1 1, .io 1 5000, .over 1 2, .io 0 100, .check (fun _ => 3),
        .over 1 4]).map (fun j => (j.st, j.bytes, j.resets)) =
        [(.finishing, 100, 0), (.done, 0, 1)] ∧
      addAll [] [⟨0, 0, 0, true⟩, ⟨0, 100, 0, true⟩] = none :=
  ⟨_, rfl, by decide, by decide, by decide⟩

end Fio.Ramp
