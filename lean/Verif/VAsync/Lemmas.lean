import Verif.VAsync.Spec
/-!
# Lemmas on the threads of `verify_async`
-/

namespace Fio.VAsync

open Spec

theorem own_set (ts : List Pc) (i : Nat) (t t' : Pc) (h : ts[i]? = some t) (u : Nat) :
    ((ts.set i t').flatMap own).count u + (own t).count u = (ts.flatMap own).count u + (own t').count u := by
  induction ts generalizing i with
  | nil => simp at h
  | cons a ts ih =>
    cases i with
    | zero =>
      simp at h
      subst h
      simp only [List.set_cons_zero, List.flatMap_cons, List.count_append]
      omega
    | succ i =>
      have := ih i (by simpa using h)
      simp only [List.set_cons_succ, List.flatMap_cons, List.count_append]
      omega

def aliveN (ts : List Pc) : Nat := (ts.filter (fun t => t ≠ .ended)).length

def isAlive (t : Pc) : Nat := if t = .ended then 0 else 1

theorem aliveN_cons (a : Pc) (ts : List Pc) : aliveN (a :: ts) = isAlive a + aliveN ts := by
  unfold aliveN isAlive
  by_cases h : a = .ended
  · simp [h]
  · simp [h]
    omega

theorem aliveN_set (ts : List Pc) (i : Nat) (t t' : Pc) (h : ts[i]? = some t) :
    aliveN (ts.set i t') + isAlive t = aliveN ts + isAlive t' := by
  induction ts generalizing i with
  | nil => simp at h
  | cons a ts ih =>
    cases i with
    | zero =>
      simp at h
      subst h
      simp only [List.set_cons_zero, aliveN_cons]
      omega
    | succ i =>
      have := ih i (by simpa using h)
      simp only [List.set_cons_succ, aliveN_cons]
      omega

theorem own_wake (ts : List Pc) (w : Nat) (u : Nat) : ((wake ts w).flatMap own).count u = (ts.flatMap own).count u := by
  unfold wake
  split
  · rename_i h
    have := own_set ts w .wait .check h u
    simp [own] at this
    exact this
  · rfl

theorem own_signal (ts : List Pc) (w : Nat) (u : Nat) : ((signal ts w).flatMap own).count u = (ts.flatMap own).count u := by
  unfold signal
  split
  · rename_i h
    have := own_set ts w .wait .check h u
    simp [own] at this
    exact this
  · exact own_wake _ _ _

theorem own_broadcast (ts : List Pc) : (broadcast ts).flatMap own = ts.flatMap own := by
  unfold broadcast
  induction ts with
  | nil => rfl
  | cons a ts ih =>
    simp only [List.map_cons, List.flatMap_cons, ih]
    congr 1
    by_cases h : a = .wait
    · subst h; rfl
    · simp [h]

theorem alive_wake (ts : List Pc) (w : Nat) : aliveN (wake ts w) = aliveN ts := by
  unfold wake
  split
  · rename_i h
    have := aliveN_set ts w .wait .check h
    simp [isAlive] at this
    exact this
  · rfl

theorem alive_signal (ts : List Pc) (w : Nat) : aliveN (signal ts w) = aliveN ts := by
  unfold signal
  split
  · rename_i h
    have := aliveN_set ts w .wait .check h
    simp [isAlive] at this
    exact this
  · exact alive_wake _ _

theorem alive_broadcast (ts : List Pc) : aliveN (broadcast ts) = aliveN ts := by
  unfold broadcast
  induction ts with
  | nil => rfl
  | cons a ts ih =>
    simp only [List.map_cons, aliveN_cons, ih]
    congr 1
    by_cases h : a = .wait
    · subst h; rfl
    · simp [h]

/-- A thread after a wake-up is one that was there, or tests the list. -/
theorem mem_wake {ts : List Pc} {w : Nat} {t : Pc} (h : t ∈ wake ts w) : t ∈ ts ∨ t = .check := by
  unfold wake at h
  split at h
  · exact List.mem_or_eq_of_mem_set h
  · exact Or.inl h

theorem mem_signal {ts : List Pc} {w : Nat} {t : Pc} (h : t ∈ signal ts w) : t ∈ ts ∨ t = .check := by
  unfold signal at h
  split at h
  · exact List.mem_or_eq_of_mem_set h
  · exact mem_wake h

theorem mem_broadcast {ts : List Pc} {t : Pc} (h : t ∈ broadcast ts) : (t ∈ ts ∨ t = .check) ∧ t ≠ .wait := by
  unfold broadcast at h
  obtain ⟨a, h1, h2⟩ := List.mem_map.1 h
  by_cases h3 : a = .wait
  · simp [h3] at h2
    subst h2
    exact ⟨Or.inr rfl, by simp⟩
  · simp [h3] at h2
    subst h2
    exact ⟨Or.inl h1, h3⟩

theorem check_mem_set {ts : List Pc} {w : Nat} {t t' : Pc} (h : ts[w]? = some t) : t' ∈ ts.set w t' := by
  have hw : w < ts.length := by
    have := List.getElem?_eq_some_iff.1 h
    exact this.1
  exact List.mem_set hw t'

/-- A signal wakes a thread if one sleeps. -/
theorem signal_wakes (ts : List Pc) (w : Nat) (h : Pc.wait ∈ ts) : Pc.check ∈ signal ts w := by
  unfold signal
  split
  · rename_i h1
    exact check_mem_set h1
  · unfold wake
    have h2 : ts.findIdx (· = .wait) < ts.length := List.findIdx_lt_length_of_exists ⟨.wait, h, by simp⟩
    have h3 : ts[ts.findIdx (· = .wait)]? = some .wait := by
      have := List.findIdx_getElem (w := h2) (p := fun t => decide (t = Pc.wait))
      rw [List.getElem?_eq_getElem h2]
      simpa using this
    rw [if_pos h3]
    exact check_mem_set h3

/-- A thread other than the one that is set is still there. -/
theorem mem_set_other {ts : List Pc} {i : Nat} {t t' x : Pc} (h : ts[i]? = some t) (hx : x ∈ ts) (hne : x ≠ t) : x ∈ ts.set i t' := by
  obtain ⟨j, hj, hjx⟩ := List.getElem_of_mem hx
  have hij : i ≠ j := by
    intro e
    subst e
    rw [List.getElem?_eq_getElem hj] at h
    exact hne (by rw [← hjx]; exact Option.some.inj h)
  have : (ts.set i t')[j]? = some x := by
    rw [List.getElem?_set_ne hij, List.getElem?_eq_getElem hj, hjx]
  exact List.mem_of_getElem? this

/-- What holds of every state that is reached. -/
structure Inv (c : Cfg) (s : St) : Prop where
  cons : ∀ u, (List.range s.handed).count u = s.list.count u + (s.ts.flatMap own).count u + s.freed.count u
  nr : s.nr = aliveN s.ts
  busy : ∀ r, Pc.busy [] r ∉ s.ts
  exitMain : s.exit = true ↔ s.main ≠ .running
  noWait : s.exit = true → Pc.wait ∉ s.ts
  woken : s.list ≠ [] → Pc.wait ∈ s.ts → Pc.top ∈ s.ts ∨ Pc.check ∈ s.ts
  count : s.count = if c.go then (s.freed.filter c.bad).length else 0
  errGo : s.err = true → c.go = false ∧ ∃ u ∈ s.freed, c.bad u = true
  ending : (Pc.ending ∈ s.ts ∨ Pc.ended ∈ s.ts) → s.exit = true ∨ s.err = true
  done : s.main = .done → s.nr = 0

theorem inv_init (c : Cfg) (n : Nat) : Inv c (init n) := by
  have h1 : ∀ (t : Pc), t ∈ List.replicate n Pc.top → t = .top := fun t h => List.eq_of_mem_replicate h
  refine ⟨?_, ?_, ?_, ?_, ?_, ?_, ?_, ?_, ?_, ?_⟩
  · intro u
    have : ((List.replicate n Pc.top).flatMap own) = [] := by
      rw [List.flatMap_eq_nil_iff]
      intro t h
      rw [h1 t h]; rfl
    simp [init, this]
  · simp only [init]
    induction n with
    | zero => rfl
    | succ n ih =>
      rw [List.replicate_succ, aliveN_cons, ← ih (fun t h => List.eq_of_mem_replicate h)]
      simp [isAlive]; omega
  · intro r h
    exact absurd (h1 _ h) (by simp)
  · simp [init]
  · simp [init]
  · simp [init]
  · simp [init]
  · simp [init]
  · rintro (h | h) <;> exact absurd (h1 _ h) (by simp)
  · simp [init]

theorem inv_hand (c : Cfg) (s : St) (w : Nat) (h : Inv c s) : Inv c (step c s (.hand w)) := by
  simp only [step]
  split
  · rename_i hm
    obtain ⟨h1, h2, h3, h4, h5, h6, h7, h8, h9, h10⟩ := h
    refine ⟨?_, ?_, ?_, h4, ?_, ?_, h7, h8, ?_, ?_⟩
    · intro u
      have := h1 u
      simp only [List.range_succ, List.count_append, own_signal]
      omega
    · simp only [alive_signal]; exact h2
    · intro r hr
      rcases mem_signal hr with h | h
      · exact h3 r h
      · simp at h
    · intro he hw
      exact absurd hm (h4.1 he)
    · intro _ hw
      rcases mem_signal hw with h | h
      · exact Or.inr (signal_wakes _ _ h)
      · simp at h
    · intro he
      apply h9
      rcases he with h | h <;> rcases mem_signal h with h | h <;> simp_all
    · intro hd
      simp [hm] at hd
  · exact h

theorem inv_exit (c : Cfg) (s : St) (h : Inv c s) : Inv c (step c s .exit) := by
  simp only [step]
  split
  · rename_i hm
    obtain ⟨h1, h2, h3, h4, h5, h6, h7, h8, h9, h10⟩ := h
    refine ⟨?_, ?_, ?_, ?_, ?_, ?_, h7, h8, ?_, ?_⟩
    · simp only [own_broadcast]; exact h1
    · simp only [alive_broadcast]; exact h2
    · intro r hr
      rcases (mem_broadcast hr).1 with h | h
      · exact h3 r h
      · simp at h
    · simp
    · intro _ hw
      exact (mem_broadcast hw).2 rfl
    · intro _ hw
      exact absurd rfl (mem_broadcast hw).2
    · intro _; exact Or.inl rfl
    · intro hd
      simp at hd
  · exact h

theorem inv_finish (c : Cfg) (s : St) (h : Inv c s) : Inv c (step c s .finish) := by
  simp only [step]
  split
  · rename_i hm
    obtain ⟨h1, h2, h3, h4, h5, h6, h7, h8, h9, h10⟩ := h
    refine ⟨h1, h2, h3, ?_, h5, h6, h7, h8, h9, fun _ => hm.2⟩
    have := h4.2 (by rw [hm.1]; simp)
    simp [this]
  · exact h

theorem inv_spurious (c : Cfg) (s : St) (i : Nat) (h : Inv c s) : Inv c (step c s (.spurious i)) := by
  simp only [step]
  obtain ⟨h1, h2, h3, h4, h5, h6, h7, h8, h9, h10⟩ := h
  refine ⟨?_, ?_, ?_, h4, ?_, ?_, h7, h8, ?_, h10⟩
  · simp only [own_wake]; exact h1
  · simp only [alive_wake]; exact h2
  · intro r hr
    rcases mem_wake hr with h | h
    · exact h3 r h
    · simp at h
  · intro he hw
    rcases mem_wake hw with h | h
    · exact h5 he h
    · simp at h
  · intro hl hw
    unfold wake at hw ⊢
    split
    · rename_i hi
      exact Or.inr (check_mem_set hi)
    · rename_i hi
      rw [if_neg hi] at hw
      exact h6 hl hw
  · intro he
    apply h9
    rcases he with h | h <;> rcases mem_wake h with h | h <;> simp_all

/-- What a thread's step keeps when only its place changes. -/
theorem inv_move (c : Cfg) (s : St) (i : Nat) (t t' : Pc) (hi : s.ts[i]? = some t) (h : Inv c s) (hown : own t = own t')
    (hal : isAlive t = isAlive t') (hb : ∀ r, t' ≠ .busy [] r) (hw : t' = .wait → s.exit = false ∧ s.list = [])
    (hk : (t = .top ∨ t = .check) → s.list = [] ∨ s.exit = true ∨ t' = .top ∨ t' = .check)
    (he : t' = .ending ∨ t' = .ended → s.exit = true ∨ s.err = true) : Inv c { s with ts := s.ts.set i t' } := by
  obtain ⟨h1, h2, h3, h4, h5, h6, h7, h8, h9, h10⟩ := h
  refine ⟨?_, ?_, ?_, h4, ?_, ?_, h7, h8, ?_, h10⟩
  · intro u
    have := own_set s.ts i t t' hi u
    rw [hown] at this
    have := h1 u
    simp only
    omega
  · have := aliveN_set s.ts i t t' hi
    simp only
    omega
  · intro r hr
    rcases List.mem_or_eq_of_mem_set hr with h | h
    · exact h3 r h
    · exact hb r h.symm
  · intro hx hm
    rcases List.mem_or_eq_of_mem_set hm with h | h
    · exact h5 hx h
    · have := (hw h.symm).1
      simp only at hx
      rw [hx] at this
      simp at this
  · intro hl hm
    rcases List.mem_or_eq_of_mem_set hm with h | h
    · by_cases hx : s.exit = true
      · exact absurd h (h5 hx)
      · by_cases ht : t = .top ∨ t = .check
        · rcases hk ht with h' | h' | h' | h'
          · exact absurd h' hl
          · exact absurd h' hx
          · exact Or.inl (h' ▸ check_mem_set hi)
          · exact Or.inr (h' ▸ check_mem_set hi)
        · rcases h6 hl h with h' | h'
          · exact Or.inl (mem_set_other hi h' (fun e => ht (Or.inl e.symm)))
          · exact Or.inr (mem_set_other hi h' (fun e => ht (Or.inr e.symm)))
    · exact absurd (hw h.symm).2 hl
  · intro hm
    rcases hm with hm | hm <;> rcases List.mem_or_eq_of_mem_set hm with h | h
    · exact h9 (Or.inl h)
    · exact he (Or.inl h.symm)
    · exact h9 (Or.inr h)
    · exact he (Or.inr h.symm)

theorem inv_verifyOne (c : Cfg) (s : St) (i u : Nat) (l : List Nat) (r : Bool) (hi : s.ts[i]? = some (.busy (u :: l) r)) (h : Inv c s) :
    Inv c (verifyOne c s i u l) := by
  obtain ⟨h1, h2, h3, h4, h5, h6, h7, h8, h9, h10⟩ := h
  have key : ∀ t' : Pc, own t' = l → isAlive t' = 1 → (∀ r, t' ≠ .busy [] r) → t' ≠ .wait → ∀ e : Bool,
      (e = true → s.err = true ∨ (c.bad u = true ∧ c.go = false)) → (s.err = true → e = true) → (t' = .ending ∨ t' = .ended → e = true) →
      Inv c { s with freed := s.freed ++ [u], count := s.count + (if c.bad u = true ∧ c.go = true then 1 else 0), ts := s.ts.set i t', err := e } := by
    intro t' ho ha hb hw e he1 he2 he3
    refine ⟨?_, ?_, ?_, h4, ?_, ?_, ?_, ?_, ?_, h10⟩
    · intro x
      have a := own_set s.ts i _ t' hi x
      have b := h1 x
      rw [ho] at a
      simp only [own, List.count_cons] at a
      simp only [List.count_append, List.count_cons, List.count_nil]
      omega
    · have := aliveN_set s.ts i _ t' hi
      rw [ha] at this
      simp [isAlive] at this
      simp only
      omega
    · intro r hr
      rcases List.mem_or_eq_of_mem_set hr with h | h
      · exact h3 r h
      · exact hb r h.symm
    · intro hx hm
      rcases List.mem_or_eq_of_mem_set hm with h | h
      · exact h5 hx h
      · exact hw h.symm
    · intro hl hm
      rcases List.mem_or_eq_of_mem_set hm with h | h
      · rcases h6 hl h with h' | h'
        · exact Or.inl (mem_set_other hi h' (by simp))
        · exact Or.inr (mem_set_other hi h' (by simp))
      · exact absurd h.symm hw
    · simp only [h7, List.filter_append, List.length_append]
      by_cases hg : c.go = true <;> by_cases hb : c.bad u = true <;> simp [hg, hb]
    · intro he
      rcases he1 he with h | h
      · obtain ⟨a, x, b, d⟩ := h8 h
        exact ⟨a, x, List.mem_append_left _ b, d⟩
      · exact ⟨h.2, u, by simp, h.1⟩
    · intro hm
      have : s.exit = true ∨ s.err = true ∨ t' = .ending ∨ t' = .ended := by
        rcases hm with hm | hm <;> rcases List.mem_or_eq_of_mem_set hm with h | h
        · rcases h9 (Or.inl h) with h | h <;> simp [h]
        · simp [← h]
        · rcases h9 (Or.inr h) with h | h <;> simp [h]
        · simp [← h]
      rcases this with h | h | h
      · exact Or.inl h
      · exact Or.inr (he2 h)
      · exact Or.inr (he3 h)
  unfold verifyOne
  cases l with
  | nil =>
    by_cases hg : c.go = true <;> by_cases hb : c.bad u = true
    · have := key .top rfl rfl (by simp) (by simp) s.err (fun h => Or.inl h) id (by simp)
      simpa [hg, hb] using this
    · have := key .top rfl rfl (by simp) (by simp) s.err (fun h => Or.inl h) id (by simp)
      simpa [hg, hb] using this
    · have := key .ending rfl rfl (by simp) (by simp) true (fun _ => Or.inr ⟨hb, by simpa using hg⟩) (fun _ => rfl) (fun _ => rfl)
      simpa [hg, hb] using this
    · have := key .top rfl rfl (by simp) (by simp) s.err (fun h => Or.inl h) id (by simp)
      simpa [hg, hb] using this
  | cons v l =>
    have := key (.busy (v :: l) (c.bad u && !c.go)) rfl rfl (by simp) (by simp) s.err (fun h => Or.inl h) id (by simp)
    by_cases hg : c.go = true <;> by_cases hb : c.bad u = true <;> simpa [hg, hb] using this

theorem inv_splice (c : Cfg) (s : St) (i : Nat) (hi : s.ts[i]? = some .check) (hl : s.list ≠ []) (h : Inv c s) :
    Inv c { s with list := [], ts := s.ts.set i (.busy s.list false) } := by
  obtain ⟨h1, h2, h3, h4, h5, h6, h7, h8, h9, h10⟩ := h
  refine ⟨?_, ?_, ?_, h4, ?_, ?_, h7, h8, ?_, h10⟩
  · intro x
    have a := own_set s.ts i _ (.busy s.list false) hi x
    have b := h1 x
    simp only [own, List.count_nil] at a ⊢
    omega
  · have := aliveN_set s.ts i _ (.busy s.list false) hi
    simp [isAlive] at this
    simp only
    omega
  · intro r hr
    rcases List.mem_or_eq_of_mem_set hr with h | h
    · exact h3 r h
    · simp only [Pc.busy.injEq] at h
      exact hl h.1.symm
  · intro hx hm
    rcases List.mem_or_eq_of_mem_set hm with h | h
    · exact h5 hx h
    · simp at h
  · intro h; simp at h
  · intro hm
    apply h9
    rcases hm with hm | hm <;> rcases List.mem_or_eq_of_mem_set hm with h | h <;> simp_all

theorem inv_ended (c : Cfg) (s : St) (i : Nat) (hi : s.ts[i]? = some .ending) (h : Inv c s) :
    Inv c { s with ts := s.ts.set i .ended, nr := s.nr - 1 } := by
  obtain ⟨h1, h2, h3, h4, h5, h6, h7, h8, h9, h10⟩ := h
  refine ⟨?_, ?_, ?_, h4, ?_, ?_, h7, h8, ?_, ?_⟩
  · intro x
    have a := own_set s.ts i _ .ended hi x
    have b := h1 x
    simp only [own, List.count_nil] at a ⊢
    omega
  · have := aliveN_set s.ts i _ .ended hi
    simp [isAlive] at this
    simp only
    omega
  · intro r hr
    rcases List.mem_or_eq_of_mem_set hr with h | h
    · exact h3 r h
    · simp at h
  · intro hx hm
    rcases List.mem_or_eq_of_mem_set hm with h | h
    · exact h5 hx h
    · simp at h
  · intro hl hm
    rcases List.mem_or_eq_of_mem_set hm with h | h
    · rcases h6 hl h with h' | h'
      · exact Or.inl (mem_set_other hi h' (by simp))
      · exact Or.inr (mem_set_other hi h' (by simp))
    · simp at h
  · intro _
    exact h9 (Or.inl (List.mem_of_getElem? hi))
  · intro hd
    have := h10 hd
    simp only
    omega

theorem inv_thread (c : Cfg) (s : St) (i : Nat) (h : Inv c s) : Inv c (step c s (.thread i)) := by
  simp only [step]
  unfold tstep
  split
  · rename_i hi
    split
    · rename_i hx
      exact inv_move c s i .top .ending hi h rfl rfl (by simp) (by simp) (fun _ => Or.inr (Or.inl hx)) (fun _ => Or.inl hx)
    · exact inv_move c s i .top .check hi h rfl rfl (by simp) (by simp) (by simp) (by simp)
  · rename_i hi
    split
    · rename_i hx
      exact inv_move c s i .check .wait hi h rfl rfl (by simp) (fun _ => ⟨hx.2, hx.1⟩) (fun _ => Or.inl hx.1) (by simp)
    · split
      · rename_i hx hl
        exact inv_move c s i .check .top hi h rfl rfl (by simp) (by simp) (fun _ => Or.inl hl) (by simp)
      · rename_i hl
        exact inv_splice c s i hi hl h
  · rename_i u l r hi
    exact inv_verifyOne c s i u l r hi h
  · rename_i hi
    exact inv_ended c s i hi h
  · exact h

theorem inv_step (c : Cfg) (s : St) (e : Ev) (h : Inv c s) : Inv c (step c s e) := by
  cases e with
  | hand w => exact inv_hand c s w h
  | exit => exact inv_exit c s h
  | finish => exact inv_finish c s h
  | thread i => exact inv_thread c s i h
  | spurious i => exact inv_spurious c s i h

theorem inv_run (c : Cfg) (es : List Ev) (s : St) (h : Inv c s) : Inv c (run c s es) := by
  induction es generalizing s with
  | nil => exact h
  | cons e es ih => exact ih _ (inv_step c s e h)

end Fio.VAsync
