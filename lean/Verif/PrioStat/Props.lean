import Verif.PrioStat.Lemmas
/-!
# C104: statistics per priority count every I/O once and under its priority
-/

namespace Fio.PrioStat

/-- The priorities of an array. -/
def keys (c : Option PL) : Option (List Nat) := c.map fun l => l.map (·.1)

theorem keys_after (ix : Nat → Nat) (j : Job) (io : Io) (d : Nat) : keys (after ix j io d) = keys (j.cprio d) := by
  unfold after
  split
  · cases hc : j.cprio d with
    | none => rfl
    | some l =>
      cases he : l[io.idx]? with
      | none => simp only [he]
      | some e => simp only [he, keys, Option.map_some]; rw [set_keys l io.idx e he _]
  · rfl

theorem prioOf_keys (ioprio : Nat) (c c' : Nat → Option PL) (io : Io) (h : keys (c io.d) = keys (c' io.d)) :
    prioOf ioprio c io = prioOf ioprio c' io := by
  unfold prioOf
  cases h1 : c io.d with
  | none => cases h2 : c' io.d with
    | none => rfl
    | some l => rw [h1, h2] at h; cases h
  | some l => cases h2 : c' io.d with
    | none => rw [h1, h2] at h; cases h
    | some l' =>
      rw [h1, h2] at h
      simp only [keys, Option.map_some, Option.some.injEq] at h
      have h3 : (l.map (·.1))[io.idx]? = (l'.map (·.1))[io.idx]? := by rw [h]
      rw [List.getElem?_map, List.getElem?_map] at h3
      simp only
      cases h4 : l[io.idx]? <;> cases h5 : l'[io.idx]? <;> rw [h4, h5] at h3 <;> simp_all

theorem valid_keys (j j' : Job) (io : Io) (h : keys (j'.cprio io.d) = keys (j.cprio io.d)) (hv : Valid j io) : Valid j' io := by
  intro l hl
  rw [hl] at h
  cases hc : j.cprio io.d with
  | none => rw [hc] at h; cases h
  | some l0 =>
    rw [hc] at h
    simp only [keys, Option.map_some, Option.some.injEq] at h
    have := hv l0 hc
    have h2 : l.length = l0.length := by simpa using congrArg List.length h
    omega

theorem vals_cons (lp : Bool) (j : Job) (io : Io) (ios : List Io) (d p : Nat) :
    vals lp ⟨j, io :: ios⟩ d p = vals lp ⟨j, [io]⟩ d p ++ vals lp ⟨j, ios⟩ d p := by
  unfold vals
  simp only
  split
  · rfl
  · simp only [List.filter_cons, List.filter_nil]
    rw [← List.map_append]
    congr 1
    by_cases h : io.d = d ∧ prioOf j.ioprio j.cprio io = p
    · simp [h]
    · simp [h]

theorem vals_keys (lp : Bool) (j j' : Job) (ios : List Io) (d p : Nat) (hc : j'.cfg = j.cfg) (hp : j'.ioprio = j.ioprio)
    (h : ∀ d, keys (j'.cprio d) = keys (j.cprio d)) : vals lp ⟨j', ios⟩ d p = vals lp ⟨j, ios⟩ d p := by
  unfold vals
  simp only [hc, hp]
  have : ∀ io, prioOf j.ioprio j'.cprio io = prioOf j.ioprio j.cprio io := fun io => prioOf_keys _ _ _ io (h io.d)
  simp only [this]

theorem vals_one (j : Job) (io : Io) (d p : Nat) :
    vals j.cfg.latPct ⟨j, [io]⟩ d p = if d = io.d ∧ measured j.cfg then (if prioOf j.ioprio j.cprio io = p then [value j.cfg io] else []) else [] := by
  unfold vals measured value
  by_cases hd : d = io.d
  · subst hd
    cases j.cfg.latPct <;> cases j.cfg.noLat <;> cases j.cfg.noClat <;> simp [List.filter_cons] <;> split <;> rfl
  · have hd' : ¬ io.d = d := fun h => hd h.symm
    simp [hd, hd']

theorem job_step (ix : Nat → Nat) (j j' : Job) (io : Io) (hv : Valid j io) (h : account ix j io = some j') (M : Nat → Nat → List Nat)
    (hj : ∀ d, JobCounts ix (hasHist j.cfg) j d (M d)) :
    (j'.cfg = j.cfg ∧ j'.ioprio = j.ioprio ∧ ∀ d, keys (j'.cprio d) = keys (j.cprio d)) ∧
    ∀ d, JobCounts ix (hasHist j.cfg) j' d (fun p => M d p ++ vals j.cfg.latPct ⟨j, [io]⟩ d p) := by
  obtain ⟨j1, e, e1, e2, e3, e4⟩ := account_eq ix j io hv
  rw [h, Option.some.injEq] at e
  subst e
  refine ⟨⟨e1, e2, fun d => by rw [e3, keys_after]⟩, ?_⟩
  intro d
  simp only [vals_one]
  by_cases hd : d = io.d ∧ measured j.cfg
  · refine ⟨?_, ?_⟩
    · intro l' hl'
      rw [e3, after, if_pos hd] at hl'
      cases hc : j.cprio d with
      | none => rw [hc] at hl'; cases hl'
      | some l =>
        have hlt : io.idx < l.length := hv l (by rw [← hd.1]; exact hc)
        have he := List.getElem?_eq_getElem hlt
        rw [hc] at hl'
        simp only [he, Option.some.injEq] at hl'
        subst hl'
        have hp : prioOf j.ioprio j.cprio io = (l[io.idx]).1 := by
          unfold prioOf
          rw [← hd.1, hc]
          simp only [he]
        have hcl := (hj d).arr l hc
        apply counts_set ix _ l io.idx _ he _ (M d) _ hcl
        · simp only [if_pos hd, hp, if_true]
          exact is_add ix _ _ _ _ (hcl.is l rfl _ (List.getElem_mem hlt))
        · intro p hpn
          have hpn' : ¬ (l[io.idx]).1 = p := fun h => hpn h.symm
          simp only [if_pos hd, hp, if_neg hpn', List.append_nil]
    · intro hn
      have hc : j.cprio d = none := by
        have h1 : keys (j'.cprio d) = keys (j.cprio d) := by rw [e3, keys_after]
        rw [hn] at h1
        cases hc : j.cprio d with
        | none => rfl
        | some l => rw [hc] at h1; cases h1
      have hp : prioOf j.ioprio j.cprio io = j.ioprio := by unfold prioOf; rw [← hd.1, hc]
      obtain ⟨o1, o2⟩ := (hj d).one hc
      rw [e1, e4 d, if_pos hd, e2]
      simp only [if_pos hd, hp, if_true]
      refine ⟨is_add ix _ _ _ _ o1, ?_⟩
      intro p hpn
      have hpn' : ¬ j.ioprio = p := fun h => hpn h.symm
      rw [o2 p hpn, if_neg hpn']; rfl
  · simp only [if_neg hd, List.append_nil]
    refine ⟨?_, ?_⟩
    · intro l hl
      rw [e3, after, if_neg hd] at hl
      exact (hj d).arr l hl
    · intro hn
      rw [e3, after, if_neg hd] at hn
      rw [e1, e4 d, if_neg hd, e2]
      exact (hj d).one hn

theorem job_run (ix : Nat → Nat) (ios : List Io) (j : Job) (hv : ∀ io ∈ ios, Valid j io) (M : Nat → Nat → List Nat)
    (hj : ∀ d, JobCounts ix (hasHist j.cfg) j d (M d)) :
    ∃ j', ios.foldlM (account ix) j = some j' ∧ ∀ d, JobCounts ix (hasHist j.cfg) j' d (fun p => M d p ++ vals j.cfg.latPct ⟨j, ios⟩ d p) := by
  induction ios generalizing j M with
  | nil =>
    refine ⟨j, rfl, fun d => ?_⟩
    have : (fun p => M d p ++ vals j.cfg.latPct ⟨j, []⟩ d p) = M d := by funext p; simp [vals]
    rw [this]; exact hj d
  | cons io ios ih =>
    obtain ⟨j1, e, -⟩ := account_eq ix j io (hv io (by simp))
    obtain ⟨⟨c1, c2, c3⟩, c4⟩ := job_step ix j j1 io (hv io (by simp)) e M hj
    obtain ⟨j2, f1, f2⟩ := ih j1 (fun x hx => valid_keys j j1 x (c3 x.d) (hv x (List.mem_cons_of_mem _ hx))) _ (by rw [c1]; exact c4)
    refine ⟨j2, by rw [List.foldlM_cons, e]; exact f1, fun d => ?_⟩
    have := f2 d
    rw [c1] at this
    have hfun : (fun p => M d p ++ vals j.cfg.latPct ⟨j, [io]⟩ d p ++ vals j.cfg.latPct ⟨j1, ios⟩ d p) =
        (fun p => M d p ++ vals j.cfg.latPct ⟨j, io :: ios⟩ d p) := by
      funext p
      rw [vals_keys _ j j1 ios d p c1 c2 c3, List.append_assoc, ← vals_cons]
    rw [hfun] at this
    exact this

theorem fresh_counts (ix : Nat → Nat) (b : Bool) (j : Job) (h : Fresh j) (d : Nat) : JobCounts ix b j d (fun _ => []) := by
  refine ⟨?_, ?_⟩
  · intro l hl
    obtain ⟨h1, h2⟩ := h.cprio d l hl
    exact ⟨fun l' e => by cases e; exact h1, fun l' e x hx => by cases e; rw [h2 x hx]; exact is_init ix b, fun _ _ => rfl⟩
  · intro _
    refine ⟨?_, fun _ _ => rfl⟩
    split
    · rw [h.lat]; exact is_init ix b
    · rw [h.clat]; exact is_init ix b

/-- A job runs: all its I/Os complete (/repo/io_u.c:2090-2126 for each). -/
def runJob (ix : Nat → Nat) (r : Run) : Option Job := r.ios.foldlM (account ix) r.job

/-- The jobs of an entry of the report: they start with nothing counted and use priorities they have, and agree on the latency that is
reported and on its histogram. -/
def Same (lp b : Bool) (rs : List Run) : Prop :=
  ∀ r ∈ rs, Fresh r.job ∧ (∀ io ∈ r.ios, Valid r.job io) ∧ r.job.cfg.latPct = lp ∧ hasHist r.job.cfg = b

theorem entry_counts (ix : Nat → Nat) (alloc : Nat → Bool) (ha : ∀ n, alloc n = true) (lp b mixed : Bool) (k : Nat) (rs : List Run)
    (h : Same lp b rs) (dst : Option PL) (L : Nat → List Nat) (hc : Counts ix b dst L) :
    ∃ js, rs.mapM (runJob ix) = some js ∧
      Counts ix b (js.foldl (sumJob alloc mixed k) dst) (fun p => L p ++ (rs.map fun r => ((into mixed k).map fun d => vals lp r d p).flatten).flatten) := by
  induction rs generalizing dst L with
  | nil => exact ⟨[], rfl, counts_ext ix b dst L _ hc (by intro p; simp)⟩
  | cons r rs ih =>
    obtain ⟨h1, h2, h3, h4⟩ := h r (by simp)
    obtain ⟨j, e, hj⟩ := job_run ix r.ios r.job h2 (fun _ _ => []) (fun d => fresh_counts ix _ r.job h1 d)
    have hj' : ∀ d, JobCounts ix b j d (fun p => vals lp r d p) := by
      intro d
      have := hj d
      rw [h4, h3] at this
      simpa using this
    have hd : ∀ (ds : List Nat) (dst : Option PL) (L : Nat → List Nat), Counts ix b dst L →
        Counts ix b (ds.foldl (fun dst d => sumPrio alloc dst j d) dst) (fun p => L p ++ (ds.map fun d => vals lp r d p).flatten) := by
      intro ds
      induction ds with
      | nil => intro dst L hc; exact counts_ext ix b dst L _ hc (by intro p; simp)
      | cons d ds ihd =>
        intro dst L hc
        have := ihd _ _ (counts_sumPrio ix b alloc ha dst j d L _ hc (hj' d))
        apply counts_ext ix b _ _ _ this
        intro p
        simp
    obtain ⟨js, f1, f2⟩ := ih (fun x hx => h x (List.mem_cons_of_mem _ hx)) (sumJob alloc mixed k dst j) _ (hd (into mixed k) dst L hc)
    refine ⟨j :: js, ?_, ?_⟩
    · rw [List.mapM_cons, show runJob ix r = some j from e, f1]; rfl
    · apply counts_ext ix b _ _ _ f2
      intro p
      simp

/-- Every entry of the report has, for each direction, the statistics of the I/Os of each priority of its jobs, and no priority twice. -/
theorem C104_counts_partial (ix : Nat → Nat) (alloc : Nat → Bool) (ha : ∀ n, alloc n = true) (lp b : Bool) (rs : List Run) (h : Same lp b rs)
    (k : Nat) :
    ∃ js, rs.mapM (runJob ix) = some js ∧ Counts ix b (js.foldl (sumJob alloc false k) none) (fun p => (rs.map fun r => vals lp r k p).flatten) := by
  obtain ⟨js, e, hc⟩ := entry_counts ix alloc ha lp b false k rs h none (fun _ => [])
    ⟨fun _ h => (by cases h), fun _ h => (by cases h), fun _ _ => rfl⟩
  refine ⟨js, e, counts_ext ix b _ _ _ hc ?_⟩
  intro p
  simp [into]

/-- With `unified_rw_reporting=mixed`, those of all directions together in the first. -/
theorem C104_mixed_partial (ix : Nat → Nat) (alloc : Nat → Bool) (ha : ∀ n, alloc n = true) (lp b : Bool) (rs : List Run) (h : Same lp b rs) :
    ∃ js, rs.mapM (runJob ix) = some js ∧
      Counts ix b (js.foldl (sumJob alloc true 0) none) (fun p => (rs.map fun r => vals lp r 0 p ++ vals lp r 1 p ++ vals lp r 2 p).flatten) := by
  obtain ⟨js, e, hc⟩ := entry_counts ix alloc ha lp b true 0 rs h none (fun _ => [])
    ⟨fun _ h => (by cases h), fun _ h => (by cases h), fun _ _ => rfl⟩
  refine ⟨js, e, counts_ext ix b _ _ _ hc ?_⟩
  intro p
  simp [into]

/-- No statistics per priority are made only if all jobs have one and the same priority. -/
theorem C104_disabled (js : List Job) (h : perPrio js = false) (j j' : Job) (hj : j ∈ js) (hj' : j' ∈ js) (io io' : Io) (hd : io.d < 3)
    (hd' : io'.d < 3) : prioOf j.ioprio j.cprio io = prioOf j'.ioprio j'.cprio io' := by
  cases js with
  | nil => cases hj
  | cons a r =>
    simp only [perPrio, Bool.or_eq_false_iff, List.any_eq_false] at h
    obtain ⟨h1, h2⟩ := h
    have hp : ∀ x ∈ a :: r, x.ioprio = a.ioprio := by
      intro x hx
      rcases List.mem_cons.1 hx with rfl | hx
      · rfl
      · simpa using h1 x hx
    have hn : ∀ x ∈ a :: r, ∀ d, d < 3 → x.cprio d = none := by
      intro x hx d hd
      have := h2 x hx
      simp at this
      have : d = 0 ∨ d = 1 ∨ d = 2 := by omega
      rcases this with rfl | rfl | rfl <;> simp_all
    have hq : ∀ x ∈ a :: r, ∀ io : Io, io.d < 3 → prioOf x.ioprio x.cprio io = a.ioprio := by
      intro x hx io hio
      unfold prioOf
      rw [hn x hx io.d hio]
      exact hp x hx
    rw [hq j hj io hd, hq j' hj' io' hd']

/-! ## Examples and counterexamples -/

def cfg0 : Cfg := { latPct := false, clatPct := true, noLat := false, noClat := false }

/-- A job of priority `p`, with `cmdprio` to `q` for its reads if there is one. -/
def job (c : Cfg) (p : Nat) (q : Option Nat) : Job :=
  { cfg := c, ioprio := p, lat := fun _ => Hist.init, clat := fun _ => Hist.init,
    cprio := fun d => if d = 0 then q.map fun q => [(p, Hist.init), (q, Hist.init)] else none }

/-- Three jobs: reads with priorities 5 and 7, reads and a write with priority 7, reads with priorities 9 and 5. -/
def exRuns : List Run :=
  [⟨job cfg0 5 (some 7), [⟨0, 0, 30, 20⟩, ⟨0, 1, 50, 40⟩, ⟨0, 1, 12, 11⟩]⟩, ⟨job cfg0 7 none, [⟨0, 0, 9, 8⟩, ⟨1, 0, 6, 5⟩]⟩,
    ⟨job cfg0 9 (some 5), [⟨0, 0, 90, 80⟩, ⟨0, 1, 70, 60⟩]⟩]

theorem fresh_job (c : Cfg) (p : Nat) (q : Option Nat) (h : q ≠ some p) : Fresh (job c p q) := by
  refine ⟨fun _ => rfl, fun _ => rfl, ?_⟩
  intro d l hl
  simp only [job] at hl
  split at hl
  · cases q with
    | none => cases hl
    | some q =>
      simp only [Option.map_some, Option.some.injEq] at hl
      subst hl
      refine ⟨?_, by simp⟩
      have : p ≠ q := fun e => h (by rw [e])
      simp [this]
  · cases hl

/-- The hypotheses are met. -/
theorem exRuns_same : Same false true exRuns := by
  intro r hr
  simp only [exRuns, List.mem_cons, List.not_mem_nil, or_false] at hr
  rcases hr with rfl | rfl | rfl
  · exact ⟨fresh_job _ _ _ (by decide), by simp [Valid, job], rfl, rfl⟩
  · exact ⟨fresh_job _ _ _ (by decide), by simp [Valid, job], rfl, rfl⟩
  · exact ⟨fresh_job _ _ _ (by decide), by simp [Valid, job], rfl, rfl⟩

/-- What is shown of an array: priority, samples, smallest, largest, a bucket. -/
def shown (c : Option PL) (k : Nat) : Option (List (List Nat)) := c.map fun l => l.map fun e => [e.1, e.2.n, e.2.mn, e.2.mx, e.2.plat k]

/-- The reads of these jobs (buckets of ten). -/
theorem C104_example :
    (exRuns.mapM (runJob (· / 10))).map (fun js => shown (js.foldl (sumJob (fun _ => true) false 0) none) 4) =
      some (some [[5, 2, 20, 60, 0], [7, 3, 8, 40, 1], [9, 1, 80, 80, 0]]) := by decide +kernel

/-- A job with `lat_percentiles` and one without it in an entry: a priority has total latencies of the one and completion latencies of the
other. -/
theorem C104_kinds_counterexample :
    ([⟨job cfg0 5 none, [⟨0, 0, 100, 1⟩]⟩, ⟨job { cfg0 with latPct := true } 5 none, [⟨0, 0, 100, 1⟩]⟩, ⟨job cfg0 6 none, [⟨0, 0, 2, 1⟩]⟩].mapM
      (runJob (· / 10))).map (fun js => (perPrio js, shown (js.foldl (sumJob (fun _ => true) false 0) none) 0)) =
      some (true, some [[5, 2, 1, 100, 1], [6, 1, 1, 1, 1]]) := by decide +kernel

/-- A job without percentiles and one with them: the samples of a priority are more than its histogram has, of which the percentiles are
made. -/
theorem C104_percentiles_counterexample :
    ([⟨job { cfg0 with clatPct := false } 5 none, [⟨0, 0, 2, 1⟩, ⟨0, 0, 2, 1⟩]⟩, ⟨job cfg0 5 none, [⟨0, 0, 2, 1⟩]⟩, ⟨job cfg0 6 none, [⟨0, 0, 2, 1⟩]⟩].mapM
      (runJob (· / 10))).map (fun js => shown (js.foldl (sumJob (fun _ => true) false 0) none) 0) =
      some (some [[5, 3, 1, 1, 1], [6, 1, 1, 1, 1]]) := by decide +kernel

/-- The shared memory is full: I/Os of the second priority and of all that follow in the job are not counted, and the report is made without
them (with one priority left, without any statistics per priority). -/
theorem C104_memory_counterexample :
    (exRuns.mapM (runJob (· / 10))).map (fun js => shown (js.foldl (sumJob (fun n => n ≤ 2) false 0) none) 4) =
      some (some [[5, 1, 20, 20, 0], [7, 3, 8, 40, 1]]) := by decide +kernel

end Fio.PrioStat
