import Verif.VAsync.Lemmas
/-!
# Properties of the threads of `verify_async` (C86)
-/

namespace Fio.VAsync

open Spec

/-- **C86.**  With any number of threads and in any order of events, every unit handed over is in exactly one place: in the list, with
one thread, or verified and given back; in particular none is verified twice. -/
theorem C86_once (c : Cfg) (n : Nat) (es : List Ev) :
    (List.range (run c (init n) es).handed).Perm
      ((run c (init n) es).list ++ owned (run c (init n) es) ++ (run c (init n) es).freed) ∧
    (run c (init n) es).freed.Nodup := by
  have h := (inv_run c es (init n) (inv_init c n)).cons
  have hp : (List.range (run c (init n) es).handed).Perm
      ((run c (init n) es).list ++ owned (run c (init n) es) ++ (run c (init n) es).freed) := by
    rw [List.perm_iff_count]
    intro u
    simp only [List.count_append, owned]
    exact h u
  refine ⟨hp, ?_⟩
  have := hp.nodup_iff.1 (List.nodup_range)
  exact (List.nodup_append.1 this).2.1

theorem alive_zero {ts : List Pc} (h : aliveN ts = 0) : ∀ t ∈ ts, t = .ended := by
  intro t ht
  unfold aliveN at h
  have := List.length_eq_zero_iff.1 h
  rw [List.filter_eq_nil_iff] at this
  simpa using this t ht

/-- **C86.**  When `verify_async_exit` is through, all threads have ended, and a unit that is not verified is one left in the list. -/
theorem C86_after_exit (c : Cfg) (n : Nat) (es : List Ev) (h : (run c (init n) es).main = .done) :
    (∀ t ∈ (run c (init n) es).ts, t = .ended) ∧
    (List.range (run c (init n) es).handed).Perm ((run c (init n) es).list ++ (run c (init n) es).freed) := by
  have hi := inv_run c es (init n) (inv_init c n)
  have h0 : ∀ t ∈ (run c (init n) es).ts, t = .ended := by
    apply alive_zero
    rw [← hi.nr]
    exact hi.done h
  refine ⟨h0, ?_⟩
  have := (C86_once c n es).1
  have ho : owned (run c (init n) es) = [] := by
    unfold owned
    rw [List.flatMap_eq_nil_iff]
    intro t ht
    rw [h0 t ht]; rfl
  rw [ho, List.append_nil] at this
  exact this

theorem verifyOne_list (c : Cfg) (s : St) (i u : Nat) (l : List Nat) :
    (verifyOne c s i u l).list = s.list ∧ (verifyOne c s i u l).main = s.main ∧ (verifyOne c s i u l).handed = s.handed := by
  unfold verifyOne
  cases l <;> by_cases hg : c.go = true <;> by_cases hb : c.bad u = true <;> simp [hg, hb]

theorem tstep_list (c : Cfg) (s : St) (i : Nat) :
    ((tstep c s i).list = s.list ∨ (tstep c s i).list = []) ∧ (tstep c s i).main = s.main ∧ (tstep c s i).handed = s.handed := by
  unfold tstep
  split
  · split <;> simp
  · split
    · simp
    · split <;> simp
  · rename_i u l r hi
    have := verifyOne_list c s i u l
    simp [this]
  · simp
  · simp

theorem step_list_exit (c : Cfg) (s : St) (e : Ev) (hm : s.main ≠ .running) (hl : s.list = []) :
    (step c s e).main ≠ .running ∧ (step c s e).list = [] := by
  cases e with
  | hand w => simp [step, hm, hl]
  | exit => simp [step, hm, hl]
  | finish =>
    simp only [step]
    split <;> simp [hm, hl]
  | thread i =>
    have := tstep_list c s i
    simp only [step]
    rw [this.2.1]
    refine ⟨hm, ?_⟩
    rcases this.1 with h | h <;> simp [h, hl]
  | spurious i => simp [step, hm, hl]

theorem run_list_exit (c : Cfg) (es : List Ev) (s : St) (hm : s.main ≠ .running) (hl : s.list = []) :
    (run c s es).list = [] := by
  induction es generalizing s with
  | nil => exact hl
  | cons e es ih =>
    have := step_list_exit c s e hm hl
    exact ih _ this.1 this.2

/-- **C86.**  If the list is empty when `verify_async_exit` is called, all units are verified when it is through. -/
theorem C86_exit_empty (c : Cfg) (n : Nat) (es es' : List Ev) (hl : (run c (init n) es).list = [])
    (h : (run c (init n) (es ++ .exit :: es')).main = .done) :
    (List.range (run c (init n) (es ++ .exit :: es')).handed).Perm (run c (init n) (es ++ .exit :: es')).freed := by
  have h1 := (C86_after_exit c n _ h).2
  have h2 : (run c (init n) (es ++ .exit :: es')).list = [] := by
    have e : run c (init n) (es ++ .exit :: es') = run c (step c (run c (init n) es) .exit) es' := by
      simp [run, List.foldl_append]
    rw [e]
    apply run_list_exit
    · simp only [step]
      split <;> simp_all
    · simp only [step]
      split <;> simp [hl]
  rw [h2, List.nil_append] at h1
  exact h1

/-- **C86.**  No wake-up is lost: as long as the job runs and no error is set, units in the list will be looked at by a thread that
does not sleep. -/
theorem C86_wakeup (c : Cfg) (n : Nat) (hn : 0 < n) (es : List Ev) (hm : (run c (init n) es).main = .running)
    (he : (run c (init n) es).err = false) (hl : (run c (init n) es).list ≠ []) :
    ∃ t ∈ (run c (init n) es).ts, awake t = true := by
  have hi := inv_run c es (init n) (inv_init c n)
  have hlen : ∀ (es : List Ev) (s : St), (run c s es).ts.length = s.ts.length := by
    intro es
    induction es with
    | nil => intro s; rfl
    | cons e es ih =>
      intro s
      show (run c (step c s e) es).ts.length = _
      rw [ih]
      have hw : ∀ ts w, (wake ts w).length = ts.length := by
        intro ts w; unfold wake; split <;> simp
      have hs : ∀ ts w, (signal ts w).length = ts.length := by
        intro ts w; unfold signal; split <;> simp [hw]
      cases e with
      | hand w => simp only [step]; split <;> simp [hs]
      | exit => simp only [step]; split <;> simp [broadcast]
      | finish => simp only [step]; split <;> simp
      | spurious i => simp [step, hw]
      | thread i =>
        simp only [step, tstep]
        split
        · split <;> simp
        · split
          · simp
          · split <;> simp
        · rename_i u l r hi
          unfold verifyOne
          cases l <;> by_cases hg : c.go = true <;> by_cases hb : c.bad u = true <;> simp [hg, hb]
        · simp
        · rfl
  have hx : (run c (init n) es).exit ≠ true := fun h => hi.exitMain.1 h hm
  have hne : (run c (init n) es).ts ≠ [] := by
    intro h
    have := hlen es (init n)
    rw [h] at this
    simp [init] at this
    omega
  obtain ⟨t, ht⟩ := List.exists_mem_of_ne_nil _ hne
  cases hta : t with
  | top => exact ⟨t, ht, by rw [hta]; rfl⟩
  | check => exact ⟨t, ht, by rw [hta]; rfl⟩
  | busy l r => exact ⟨t, ht, by rw [hta]; rfl⟩
  | wait =>
    rcases hi.woken hl (hta ▸ ht) with h | h
    · exact ⟨_, h, rfl⟩
    · exact ⟨_, h, rfl⟩
  | ending =>
    rcases hi.ending (Or.inl (hta ▸ ht)) with h | h
    · exact absurd h hx
    · rw [he] at h; simp at h
  | ended =>
    rcases hi.ending (Or.inr (hta ▸ ht)) with h | h
    · exact absurd h hx
    · rw [he] at h; simp at h

theorem drain_check (c : Cfg) (s : St) (i : Nat) (hi : s.ts[i]? = some .check) (hl : s.list ≠ []) :
    (run c s (List.replicate 1 (.thread i))).list = [] := by
  simp [run, step, tstep, hi, hl]

theorem drain_top (c : Cfg) (s : St) (i : Nat) (hi : s.ts[i]? = some .top) (hl : s.list ≠ []) (hx : s.exit = false) :
    (run c s (List.replicate 2 (.thread i))).list = [] := by
  have hlt : i < s.ts.length := (List.getElem?_eq_some_iff.1 hi).1
  have h1 : step c s (.thread i) = { s with ts := s.ts.set i .check } := by simp [step, tstep, hi, hx]
  have : run c s (List.replicate 2 (.thread i)) = run c (step c s (.thread i)) (List.replicate 1 (.thread i)) := rfl
  rw [this, h1]
  exact drain_check c _ i (by simp [hlt]) hl

theorem drain_busy (c : Cfg) (l : List Nat) (s : St) (i : Nat) (r : Bool) (hi : s.ts[i]? = some (.busy l r)) (hne : l ≠ [])
    (hl : s.list ≠ []) (hx : s.exit = false) (hg : c.go = true) :
    ∃ k, (run c s (List.replicate k (.thread i))).list = [] := by
  induction l generalizing s r with
  | nil => exact absurd rfl hne
  | cons u l ih =>
    have hlt : i < s.ts.length := (List.getElem?_eq_some_iff.1 hi).1
    have h1 : step c s (.thread i) = verifyOne c s i u l := by simp [step, tstep, hi]
    have h2 : (verifyOne c s i u l).list ≠ [] := by rw [(verifyOne_list c s i u l).1]; exact hl
    have h3 : (verifyOne c s i u l).exit = false := by
      unfold verifyOne
      cases l <;> by_cases hb : c.bad u = true <;> simp [hg, hb, hx]
    cases l with
    | nil =>
      have h4 : (verifyOne c s i u []).ts[i]? = some .top := by
        unfold verifyOne
        by_cases hb : c.bad u = true <;> simp [hg, hb, hlt]
      exact ⟨3, by
        have := drain_top c _ i h4 h2 h3
        rw [← h1] at this
        exact this⟩
    | cons v l =>
      have h4 : ∃ r, (verifyOne c s i u (v :: l)).ts[i]? = some (.busy (v :: l) r) := by
        unfold verifyOne
        by_cases hb : c.bad u = true <;> simp [hg, hb, hlt]
      obtain ⟨r', h4⟩ := h4
      obtain ⟨k, hk⟩ := ih _ r' h4 (by simp) h2 h3
      exact ⟨k + 1, by rw [← h1] at hk; exact hk⟩

/-- **C86.**  And that thread takes the list after finitely many steps of its own (errors not being fatal). -/
theorem C86_drained (c : Cfg) (n : Nat) (hn : 0 < n) (es : List Ev) (hm : (run c (init n) es).main = .running)
    (hg : c.go = true) (hl : (run c (init n) es).list ≠ []) :
    ∃ i k, (run c (run c (init n) es) (List.replicate k (.thread i))).list = [] := by
  have hi := inv_run c es (init n) (inv_init c n)
  have hx : (run c (init n) es).exit = false := by
    have : (run c (init n) es).exit ≠ true := fun h => hi.exitMain.1 h hm
    simpa using this
  have he : (run c (init n) es).err = false := by
    cases h : (run c (init n) es).err with
    | false => rfl
    | true =>
      have := (hi.errGo h).1
      rw [hg] at this
      simp at this
  obtain ⟨t, ht, ha⟩ := C86_wakeup c n hn es hm he hl
  obtain ⟨i, h1, h2⟩ := List.getElem_of_mem ht
  have h3 : (run c (init n) es).ts[i]? = some t := by rw [List.getElem?_eq_getElem h1, h2]
  refine ⟨i, ?_⟩
  cases t with
  | top => exact ⟨2, drain_top c _ i h3 hl hx⟩
  | check => exact ⟨1, drain_check c _ i h3 hl⟩
  | busy l r =>
    refine drain_busy c l _ i r h3 ?_ hl hx hg
    intro e
    subst e
    exact hi.busy r ht
  | wait => simp [awake] at ha
  | ending => simp [awake] at ha
  | ended => simp [awake] at ha

/-- **C86.**  An error is set only if a unit that was verified is bad. -/
theorem C86_no_false_error (c : Cfg) (n : Nat) (es : List Ev) (h : (run c (init n) es).err = true) :
    c.go = false ∧ ∃ u ∈ (run c (init n) es).freed, c.bad u = true :=
  (inv_run c es (init n) (inv_init c n)).errGo h

/-- **C86.**  With `continue_on_error=verify` every bad unit that was verified is counted once. -/
theorem C86_counted (c : Cfg) (n : Nat) (es : List Ev) (hg : c.go = true) :
    (run c (init n) es).count = ((run c (init n) es).freed.filter c.bad).length := by
  have := (inv_run c es (init n) (inv_init c n)).count
  rw [if_pos hg] at this
  exact this

/-! ## The end -/

theorem left_set (ts : List Pc) (i : Nat) (t t' : Pc) (h : ts[i]? = some t) :
    ((ts.set i t').map left).sum + left t = (ts.map left).sum + left t' := by
  induction ts generalizing i with
  | nil => simp at h
  | cons a ts ih =>
    cases i with
    | zero =>
      simp at h
      subst h
      simp only [List.set_cons_zero, List.map_cons, List.sum_cons]
      omega
    | succ i =>
      have := ih i (by simpa using h)
      simp only [List.set_cons_succ, List.map_cons, List.sum_cons]
      omega

theorem verifyOne_ts (c : Cfg) (s : St) (i u : Nat) (l : List Nat) :
    ∃ t', (verifyOne c s i u l).ts = s.ts.set i t' ∧ left t' ≤ 2 + l.length := by
  unfold verifyOne
  cases l with
  | nil =>
    by_cases hb : (c.bad u && !c.go) = true
    · refine ⟨.ending, ?_, by simp [left]⟩
      by_cases hg : c.go = true <;> by_cases hb' : c.bad u = true <;> simp_all
    · refine ⟨.top, ?_, by simp [left]⟩
      by_cases hg : c.go = true <;> by_cases hb' : c.bad u = true <;> simp_all
  | cons v l =>
    refine ⟨.busy (v :: l) (c.bad u && !c.go), ?_, by simp [left]⟩
    by_cases hg : c.go = true <;> by_cases hb' : c.bad u = true <;> simp_all

/-- A step of a thread that is told to end leaves less to do. -/
theorem work_thread (c : Cfg) (s : St) (i : Nat) (hx : s.exit = true) :
    work (tstep c s i) < work s ∨ tstep c s i = s := by
  unfold tstep
  split
  · rename_i hi
    rw [if_pos hx]
    have := left_set s.ts i .top .ending hi
    simp only [left] at this
    simp only [work]
    omega
  · rename_i hi
    rw [if_neg (by simp [hx])]
    split
    · have := left_set s.ts i .check .top hi
      simp only [left] at this
      simp only [work]
      omega
    · have := left_set s.ts i .check (.busy s.list false) hi
      simp only [left] at this
      simp only [work, List.length_nil]
      omega
  · rename_i u l r hi
    obtain ⟨t', h1, h2⟩ := verifyOne_ts c s i u l
    have := left_set s.ts i (.busy (u :: l) r) t' hi
    have hlf : left (.busy (u :: l) r) = 2 + (l.length + 1) := rfl
    rw [hlf] at this
    simp only [work, (verifyOne_list c s i u l).1, h1]
    omega
  · rename_i hi
    have := left_set s.ts i .ending .ended hi
    simp only [left] at this
    simp only [work]
    omega
  · exact Or.inr rfl

theorem work_wake (ts : List Pc) (w : Nat) : ((wake ts w).map left).sum ≤ (ts.map left).sum := by
  unfold wake
  split
  · rename_i h
    have := left_set ts w .wait .check h
    simp only [left] at this
    omega
  · exact Nat.le_refl _

theorem work_step (c : Cfg) (s : St) (e : Ev) (h : Inv c s) (hx : s.exit = true) :
    work (step c s e) + moved c s e ≤ work s ∧ (step c s e).exit = true := by
  have hm := h.exitMain.1 hx
  have hx' : (step c s e).exit = true := by
    rw [(inv_step c s e h).exitMain]
    cases e with
    | hand w => simp [step, hm]
    | exit => simp [step, hm]
    | finish => simp only [step]; split <;> simp [hm]
    | thread i => simp only [step]; rw [(tstep_list c s i).2.1]; exact hm
    | spurious i => exact hm
  refine ⟨?_, hx'⟩
  cases e with
  | hand w => simp [step, hm, moved]
  | exit => simp [step, hm, moved]
  | finish => simp only [step, moved]; split <;> simp [work]
  | thread i =>
    simp only [moved]
    split
    · rename_i h
      rw [h]
      simp
    · rename_i hne
      have := work_thread c s i hx
      simp only [step] at hne ⊢
      rcases this with h | h
      · omega
      · exact absurd h hne
  | spurious i =>
    have := work_wake s.ts i
    simp only [step, moved, work]
    omega

/-- **C86.**  After `verify_async_exit` was called, all threads together take at most `work` further steps, whatever happens. -/
theorem C86_exit_bounded (c : Cfg) (n : Nat) (es es' : List Ev) (hx : (run c (init n) es).exit = true) :
    moves c (run c (init n) es) es' ≤ work (run c (init n) es) := by
  have hi := inv_run c es (init n) (inv_init c n)
  generalize run c (init n) es = s at hi hx
  induction es' generalizing s with
  | nil => simp [moves]
  | cons e es ih =>
    have := work_step c s e hi hx
    have := ih (step c s e) (inv_step c s e hi) this.2
    simp only [moves]
    omega

theorem tstep_moves (c : Cfg) (s : St) (i : Nat) (t : Pc) (hi : s.ts[i]? = some t) (hx : s.exit = true) (h1 : t ≠ .ended) (h2 : t ≠ .wait)
    (h3 : ∀ r, t ≠ .busy [] r) : tstep c s i ≠ s := by
  intro h
  have key : ∀ t', t' ≠ t → (tstep c s i).ts = s.ts.set i t' → False := by
    intro t' hne he
    rw [h] at he
    have hlt : i < s.ts.length := (List.getElem?_eq_some_iff.1 hi).1
    have : (s.ts.set i t')[i]? = some t' := List.getElem?_set_self hlt
    rw [← he, hi] at this
    exact hne (Option.some.inj this).symm
  cases t with
  | top => exact key .ending (by simp) (by simp [tstep, hi, hx])
  | check =>
    by_cases hl : s.list = []
    · exact key .top (by simp) (by simp [tstep, hi, hx, hl])
    · exact key (.busy s.list false) (by simp) (by simp [tstep, hi, hl])
  | wait => exact h2 rfl
  | ending => exact key .ended (by simp) (by simp [tstep, hi])
  | ended => exact h1 rfl
  | busy l r =>
    cases l with
    | nil => exact h3 r rfl
    | cons u l =>
      obtain ⟨t', h4, h5⟩ := verifyOne_ts c s i u l
      refine key t' ?_ (by simp only [tstep, hi]; exact h4)
      intro e
      rw [e] at h5
      simp [left] at h5
      omega

/-- **C86.**  `verify_async_exit` never waits for a thread that cannot go on: while threads are left, one of them can take a step;
when none is left, the wait ends. -/
theorem C86_exit_progress (c : Cfg) (n : Nat) (es : List Ev) (hx : (run c (init n) es).main = .exiting) :
    (∃ i, step c (run c (init n) es) (.thread i) ≠ run c (init n) es) ∨
    (step c (run c (init n) es) .finish).main = .done := by
  have hi := inv_run c es (init n) (inv_init c n)
  generalize run c (init n) es = s at hi hx
  have hex : s.exit = true := hi.exitMain.2 (by rw [hx]; simp)
  by_cases h0 : s.nr = 0
  · exact Or.inr (by simp [step, hx, h0])
  · left
    rw [hi.nr] at h0
    have : ∃ t ∈ s.ts, t ≠ .ended := by
      unfold aliveN at h0
      have hne : s.ts.filter (fun t => t ≠ .ended) ≠ [] := fun e => h0 (by rw [e]; rfl)
      obtain ⟨t, ht⟩ := List.exists_mem_of_ne_nil _ hne
      have := List.mem_filter.1 ht
      exact ⟨t, this.1, by simpa using this.2⟩
    obtain ⟨t, ht, hne⟩ := this
    obtain ⟨i, hi1, hi2⟩ := List.getElem_of_mem ht
    refine ⟨i, tstep_moves c s i t (by rw [List.getElem?_eq_getElem hi1, hi2]) hex hne ?_ ?_⟩
    · intro e
      exact hi.noWait hex (e ▸ ht)
    · intro r e
      exact hi.busy r (e ▸ ht)

/-! ## Errors that are reported -/

/-- **C86 (partial).**  A bad unit that is the last of those a thread took sets the error, if it is fatal. -/
theorem C86_error_last_partial (c : Cfg) (s : St) (i u : Nat) (r : Bool) (hi : s.ts[i]? = some (.busy [u] r)) (hb : c.bad u = true)
    (hg : c.go = false) : (step c s (.thread i)).err = true ∧ u ∈ (step c s (.thread i)).freed := by
  simp [step, tstep, hi, verifyOne, hb, hg]

theorem run_snoc (c : Cfg) (s : St) (es : List Ev) (e : Ev) : run c s (es ++ [e]) = step c (run c s es) e := by
  simp [run, List.foldl_append]

theorem mem_set' {ts : List Pc} {i : Nat} {t x : Pc} (h : x ∈ ts.set i t) : x ∈ ts ∨ x = t := List.mem_or_eq_of_mem_set h

/-- Single units: what holds if the list never has more than one. -/
def One (c : Cfg) (s : St) : Prop :=
  (∀ l r, Pc.busy l r ∈ s.ts → l.length = 1) ∧ ((∃ u ∈ s.freed, c.bad u = true) → s.err = true)

theorem one_step (c : Cfg) (s : St) (e : Ev) (hg : c.go = false) (h : One c s) (hl : s.list.length ≤ 1) : One c (step c s e) := by
  obtain ⟨h1, h2⟩ := h
  cases e with
  | hand w =>
    simp only [step]
    split
    · refine ⟨?_, h2⟩
      intro l r hm
      rcases mem_signal hm with h | h
      · exact h1 l r h
      · simp at h
    · exact ⟨h1, h2⟩
  | exit =>
    simp only [step]
    split
    · refine ⟨?_, h2⟩
      intro l r hm
      rcases (mem_broadcast hm).1 with h | h
      · exact h1 l r h
      · simp at h
    · exact ⟨h1, h2⟩
  | finish =>
    simp only [step]
    split <;> exact ⟨h1, h2⟩
  | spurious i =>
    refine ⟨?_, h2⟩
    intro l r hm
    rcases mem_wake hm with h | h
    · exact h1 l r h
    · simp at h
  | thread i =>
    simp only [step, tstep]
    split
    · split <;> refine ⟨?_, h2⟩ <;> intro l r hm <;> rcases mem_set' hm with h | h
      · exact h1 l r h
      · simp at h
      · exact h1 l r h
      · simp at h
    · split
      · refine ⟨?_, h2⟩
        intro l r hm
        rcases mem_set' hm with h | h
        · exact h1 l r h
        · simp at h
      · split
        · refine ⟨?_, h2⟩
          intro l r hm
          rcases mem_set' hm with h | h
          · exact h1 l r h
          · simp at h
        · rename_i hne
          refine ⟨?_, h2⟩
          intro l r hm
          rcases mem_set' hm with h | h
          · exact h1 l r h
          · simp only [Pc.busy.injEq] at h
            rw [h.1]
            have := List.length_pos_iff.2 hne
            omega
    · rename_i u l r hi
      have hl1 := h1 _ _ (List.mem_of_getElem? hi)
      have : l = [] := by
        cases l with
        | nil => rfl
        | cons a l => simp at hl1
      subst this
      unfold verifyOne
      by_cases hb : c.bad u = true
      · simp only [hb, hg]
        refine ⟨?_, ?_⟩
        · intro l r hm
          simp at hm
          rcases mem_set' hm with h | h
          · exact h1 l r h
          · simp at h
        · intro _
          simp
      · simp only [hb, hg]
        refine ⟨?_, ?_⟩
        · intro l r hm
          simp at hm
          rcases mem_set' hm with h | h
          · exact h1 l r h
          · simp at h
        · rintro ⟨x, hx, hbx⟩
          have hx : x ∈ s.freed ++ [u] := by simpa using hx
          rcases List.mem_append.1 hx with hx | hx
          · simpa using h2 ⟨x, hx, hbx⟩
          · rw [List.mem_singleton] at hx
            subst hx
            exact absurd hbx hb
    · refine ⟨?_, h2⟩
      intro l r hm
      rcases mem_set' hm with h | h
      · exact h1 l r h
      · simp at h
    · exact ⟨h1, h2⟩

/-- **C86 (partial).**  If the list never has more than one unit, the error is set exactly if a bad unit was verified.  (Not so with
more: see `C86_error_lost_counterexample`.) -/
theorem C86_error_single_partial (c : Cfg) (n : Nat) (es : List Ev) (hg : c.go = false)
    (h1 : ∀ k, (run c (init n) (es.take k)).list.length ≤ 1) :
    (run c (init n) es).err = true ↔ ∃ u ∈ (run c (init n) es).freed, c.bad u = true := by
  refine ⟨fun h => (C86_no_false_error c n es h).2, ?_⟩
  have key : ∀ k, One c (run c (init n) (es.take k)) := by
    intro k
    induction k with
    | zero =>
      refine ⟨?_, ?_⟩
      · intro l r h
        have := List.eq_of_mem_replicate h
        simp at this
      · rintro ⟨u, h, _⟩
        simp [run, init] at h
    | succ k ih =>
      by_cases hk : k < es.length
      · rw [List.take_add_one, List.getElem?_eq_getElem hk]
        simp only [Option.toList_some]
        rw [run_snoc]
        exact one_step c _ _ hg ih (h1 k)
      · rw [List.take_of_length_le (by omega)] at ih ⊢
        exact ih
  have := key es.length
  rw [List.take_length] at this
  exact this.2

/-! ## One thread -/

/-- What holds with one thread. -/
def Fifo (s : St) : Prop := ∃ t, s.ts = [t] ∧ s.freed ++ own t ++ s.list = List.range s.handed

theorem fifo_step (c : Cfg) (s : St) (e : Ev) (h : Fifo s) : Fifo (step c s e) := by
  obtain ⟨t, h1, h2⟩ := h
  cases e with
  | hand w =>
    simp only [step]
    split
    · have hs : ∃ t', signal s.ts w = [t'] ∧ own t' = own t := by
        rw [h1]
        unfold signal wake
        by_cases ht : t = .wait
        · subst ht
          cases w with
          | zero => exact ⟨.check, by simp, rfl⟩
          | succ w => exact ⟨.check, by simp, rfl⟩
        · refine ⟨t, ?_, rfl⟩
          cases w with
          | zero => simp [ht]
          | succ w => simp [ht]
      obtain ⟨t', h3, h4⟩ := hs
      refine ⟨t', h3, ?_⟩
      rw [h4]
      simp only [List.range_succ, ← h2, List.append_assoc]
    · exact ⟨t, h1, h2⟩
  | exit =>
    simp only [step]
    split
    · by_cases ht : t = .wait
      · subst ht
        exact ⟨.check, by simp [broadcast, h1], h2⟩
      · exact ⟨t, by simp [broadcast, h1, ht], h2⟩
    · exact ⟨t, h1, h2⟩
  | finish =>
    simp only [step]
    split <;> exact ⟨t, h1, h2⟩
  | spurious i =>
    simp only [step]
    unfold wake
    split
    · rename_i hi
      rw [h1] at hi
      cases i with
      | zero =>
        simp at hi
        subst hi
        exact ⟨.check, by simp [h1], h2⟩
      | succ i => simp at hi
    · exact ⟨t, h1, h2⟩
  | thread i =>
    simp only [step]
    cases i with
    | succ i => 
      have : s.ts[i + 1]? = none := by rw [h1]; rfl
      simp only [tstep, this]
      exact ⟨t, h1, h2⟩
    | zero =>
      have h0 : s.ts[0]? = some t := by rw [h1]; rfl
      simp only [tstep, h0]
      cases t with
      | top =>
        simp only
        split
        · exact ⟨.ending, by simp [h1], h2⟩
        · exact ⟨.check, by simp [h1], h2⟩
      | check =>
        simp only
        split
        · exact ⟨.wait, by simp [h1], h2⟩
        · split
          · exact ⟨.top, by simp [h1], h2⟩
          · refine ⟨.busy s.list false, by simp [h1], ?_⟩
            simpa [own] using h2
      | wait => exact ⟨_, h1, h2⟩
      | ending => exact ⟨.ended, by simp [h1], h2⟩
      | ended => exact ⟨_, h1, h2⟩
      | busy l r =>
        cases l with
        | nil => exact ⟨_, h1, h2⟩
        | cons u l =>
          simp only [own] at h2
          simp only [verifyOne]
          cases l with
          | nil =>
            by_cases hg : c.go = true <;> by_cases hb : c.bad u = true
            · exact ⟨.top, by simp [h1, hg, hb], by simpa [own, hg, hb] using h2⟩
            · exact ⟨.top, by simp [h1, hg, hb], by simpa [own, hg, hb] using h2⟩
            · exact ⟨.ending, by simp [h1, hg, hb], by simpa [own, hg, hb] using h2⟩
            · exact ⟨.top, by simp [h1, hg, hb], by simpa [own, hg, hb] using h2⟩
          | cons v l =>
            by_cases hg : c.go = true <;> by_cases hb : c.bad u = true <;>
              exact ⟨.busy (v :: l) (c.bad u && !c.go), by simp [h1, hg, hb], by simpa [own, hg, hb] using h2⟩

/-- **C86.**  With one thread, units are verified in the order in which they were handed over. -/
theorem C86_fifo (c : Cfg) (es : List Ev) :
    (run c (init 1) es).freed <+: List.range (run c (init 1) es).handed := by
  have key : ∀ (es : List Ev) (s : St), Fifo s → Fifo (run c s es) := by
    intro es
    induction es with
    | nil => intro s h; exact h
    | cons e es ih => intro s h; exact ih _ (fifo_step c s e h)
  obtain ⟨t, _, h⟩ := key es (init 1) ⟨.top, rfl, rfl⟩
  rw [← h, List.append_assoc]
  exact List.prefix_append _ _

end Fio.VAsync
