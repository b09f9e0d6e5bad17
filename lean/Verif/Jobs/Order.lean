import Verif.Jobs.Keep
namespace Fio.Jobs

variable {c : Cfg} {s s' : St}

/-- Started and not yet reaped. -/
def Rs.active (r : Rs) : Bool := r.isStarted || r.isRunning

/-- What holds of the jobs before job `i` in the loop that creates. -/
def Passed (c : Cfg) (s : St) (i : Nat) : Prop :=
  (∀ k, k < i → (s.job k).rs = .notCreated → ∃ m, m < k ∧ (s.job m).rs.active = true) ∧
  ∀ j, j < i → (c.job j).stonewall = true → (s.job j).rs ≠ .notCreated

structure Ord (c : Cfg) (s : St) : Prop where
  at_ : (∀ i map, s.pc = .create i map → Passed c s i) ∧ ∀ i map, s.pc = .sem i map → Passed c s (i + 1)
  waits : StonewallWaits c s.log
  holds : StonewallHolds c s.log

theorem Passed.mono {i : Nat} (h : Passed c s i)
    (h1 : ∀ k, (s'.job k).rs = .notCreated → (s.job k).rs = .notCreated)
    (h2 : ∀ k, (s.job k).rs.active = true → (s'.job k).rs.active = true) : Passed c s' i := by
  refine ⟨fun k hk hn => ?_, fun j hj hs hn => h.2 j hj hs (h1 j hn)⟩
  obtain ⟨m, hm, ha⟩ := h.1 k hk (h1 k hn)
  exact ⟨m, hm, h2 m ha⟩

theorem swaits_cons {l : List Ev} {e : Ev} (h : StonewallWaits c l)
    (he : ∀ j, e = .create j → (c.job j).stonewall = true → ∀ k, k < j → Over c l k) :
    StonewallWaits c (e :: l) := by
  intro post pre j hl hs k hk
  rcases split_cons hl with ⟨h1, h2⟩ | ⟨post', h2⟩
  · subst h2; exact he j h1 hs k hk
  · exact h post' pre j h2 hs k hk

theorem sholds_cons {l : List Ev} {e : Ev} (h : StonewallHolds c l)
    (he : ∀ k, e = .create k → ∀ j, j < k → (c.job j).stonewall = true → .create j ∈ l ∨ (c.job j).failed = true) :
    StonewallHolds c (e :: l) := by
  intro post pre j hl k hk
  rcases split_cons hl with ⟨h1, h2⟩ | ⟨post', h2⟩
  · subst h2; exact he j h1 k hk
  · exact h post' pre j h2 k hk

/-- A step of somebody else than the main thread. -/
theorem Ord.env (hO : Ord c s) (hpc : s'.pc = s.pc)
    (hlog : s'.log = s.log ∨ ∃ e : Ev, (∀ j, e ≠ .create j) ∧ s'.log = e :: s.log)
    (h1 : ∀ k, (s'.job k).rs = .notCreated → (s.job k).rs = .notCreated)
    (h2 : ∀ k, (s.job k).rs.active = true → (s'.job k).rs.active = true) : Ord c s' := by
  refine ⟨⟨fun i map h => (hO.at_.1 i map (by rw [← hpc]; exact h)).mono h1 h2,
    fun i map h => (hO.at_.2 i map (by rw [← hpc]; exact h)).mono h1 h2⟩, ?_, ?_⟩
  · rcases hlog with h | ⟨e, he, h⟩ <;> rw [h]
    · exact hO.waits
    · exact swaits_cons hO.waits (fun j h => absurd h (he j))
  · rcases hlog with h | ⟨e, he, h⟩ <;> rw [h]
    · exact hO.holds
    · exact sholds_cons hO.holds (fun j h => absurd h (he j))

/-- A step of the main thread out of or beside the loop that creates. -/
theorem Ord.other (hO : Ord c s) (h1 : ∀ i map, s'.pc ≠ .create i map) (h2 : ∀ i map, s'.pc ≠ .sem i map)
    (hlog : s'.log = s.log ∨ ∃ e : Ev, (∀ j, e ≠ .create j) ∧ s'.log = e :: s.log) : Ord c s' := by
  refine ⟨⟨fun i map h => absurd h (h1 i map), fun i map h => absurd h (h2 i map)⟩, ?_, ?_⟩
  · rcases hlog with h | ⟨e, he, h⟩ <;> rw [h]
    · exact hO.waits
    · exact swaits_cons hO.waits (fun j h => absurd h (he j))
  · rcases hlog with h | ⟨e, he, h⟩ <;> rw [h]
    · exact hO.holds
    · exact sholds_cons hO.holds (fun j h => absurd h (he j))

theorem waitee_ex {i : Nat} (h : waiteeRunning c s i = true) :
    ∃ w k, (c.job i).waitFor = some w ∧ k < c.n ∧ (c.job k).name = w ∧ (c.job i).name ≠ w ∧
      (s.job k).rs.over = false := by
  unfold waiteeRunning at h
  split at h
  · cases h
  · next w hw =>
    rw [List.any_eq_true] at h
    obtain ⟨k, hk, h⟩ := h
    rw [List.mem_range] at hk
    simp at h
    exact ⟨w, k, hw, hk, h.1.2, fun e => h.1.1 (by rw [h.1.2, e]), h.2⟩

theorem ord_create {i : Nat} {map : List Nat} (hd : NoDelay c) (hw : WaitsBack c) (hI : Inv c s) (hK : Keep c s)
    (hO : Ord c s) (hpc : s.pc = .create i map) : Ord c (createStep c s i map) := by
  have hp := hO.at_.1 i map hpc
  unfold createStep
  split
  · next hi =>
    split
    · next hnc =>
      refine ⟨⟨fun i' map' h => ?_, fun i' map' h => by cases h⟩, hO.waits, hO.holds⟩
      injection h with h1 _; subst h1
      refine ⟨fun k hk hn => ?_, fun j hj hs => ?_⟩
      · by_cases hki : k = i
        · subst hki; exact absurd hn hnc
        · exact hp.1 k (by omega) hn
      · by_cases hki : j = i
        · subst hki; exact hnc
        · exact hp.2 j (by omega) hs
    next hnc =>
    have hnc : (s.job i).rs = .notCreated := Decidable.of_not_not hnc
    split
    · next ht => exact absurd hnc (hK.alive i hi ht)
    next ht =>
    split
    · next h => exact absurd (hd i) h.1
    split
    · exact hO.other (fun _ _ h => by cases h) (fun _ _ h => by cases h) (Or.inl rfl)
    next hst =>
    have hidle : (c.job i).stonewall = true → ∀ k, (s.job k).rs = .notCreated ∨ (s.job k).rs = .reaped := by
      intro h k
      exact hI.idle (by grind) (by grind) k
    have hnone : (c.job i).stonewall = true → ∀ m, (s.job m).rs.active = false := by
      intro h m
      rcases hidle h m with h | h <;> rw [h] <;> rfl
    split
    · next hwt =>
      obtain ⟨w, k, hw1, hk, hk1, hk2, hk3⟩ := waitee_ex hwt
      have hlt := hw i w k hi hw1 hk hk1 hk2
      have hex : ∃ m, m < i ∧ (s.job m).rs.active = true := by
        cases hq : (s.job k).rs <;> rw [hq] at hk3
        · obtain ⟨m, hm, ha⟩ := hp.1 k hlt hq
          exact ⟨m, by omega, ha⟩
        · exact ⟨k, hlt, by rw [hq]; rfl⟩
        · exact ⟨k, hlt, by rw [hq]; rfl⟩
        · exact ⟨k, hlt, by rw [hq]; rfl⟩
        · cases hk3
        · cases hk3
      refine ⟨⟨fun i' map' h => ?_, fun i' map' h => by cases h⟩, hO.waits, hO.holds⟩
      injection h with h1 _; subst h1
      refine ⟨fun k hk hn => ?_, fun j hj hs => ?_⟩
      · by_cases hki : k = i
        · subst hki; exact hex
        · exact hp.1 k (by omega) hn
      · by_cases hki : j = i
        · subst hki
          obtain ⟨m, _, ha⟩ := hex
          rw [hnone hs m] at ha; cases ha
        · exact hp.2 j (by omega) hs
    next hwt =>
    refine ⟨⟨(fun i' map' h => by cases h), fun i' map' h => ?_⟩, ?_, ?_⟩
    · injection h with h1 _; subst h1
      have hne : ∀ k, k ≠ i → (s.upd i (fun j => { j with rs := .created })).job k = s.job k :=
        fun k hk => upd_ne s _ hk
      have heq : ((s.upd i (fun j => { j with rs := .created })).job i).rs = .created := by rw [upd_eq]
      refine ⟨fun k hk hn => ?_, fun j hj hs => ?_⟩
      · change ((s.upd i (fun j => { j with rs := .created })).job k).rs = _ at hn
        show ∃ m, m < k ∧ ((s.upd i (fun j => { j with rs := .created })).job m).rs.active = true
        by_cases hki : k = i
        · subst hki; rw [heq] at hn; cases hn
        · rw [hne k hki] at hn
          obtain ⟨m, hm, ha⟩ := hp.1 k (by omega) hn
          exact ⟨m, hm, by rw [hne m (by omega)]; exact ha⟩
      · show ((s.upd i (fun j => { j with rs := .created })).job j).rs ≠ _
        by_cases hki : j = i
        · subst hki; rw [heq]; exact fun h => by cases h
        · rw [hne j hki]; exact hp.2 j (by omega) hs
    · refine swaits_cons hO.waits (fun j hj hs k hk => ?_)
      injection hj with hj; subst hj
      rcases hidle hs k with h | h
      · obtain ⟨m, _, ha⟩ := hp.1 k hk h
        rw [hnone hs m] at ha; cases ha
      · exact hI.over (by rw [h]; rfl)
    · refine sholds_cons hO.holds (fun k hk j hj hs => ?_)
      injection hk with hk; subst hk
      have hnj := hp.2 j hj hs
      cases hf : (c.job j).failed
      · left
        have := (hI.job j).lc
        rw [if_pos ⟨hnj, hf⟩] at this
        exact List.count_pos_iff.1 (by omega)
      · exact Or.inr rfl
  · exact hO.other (fun _ _ h => by cases h) (fun _ _ h => by cases h) (Or.inl rfl)

theorem ord_main (hn : c.n ≤ 4096) (hd : NoDelay c) (hw : WaitsBack c) (hI : Inv c s) (hK : Keep c s)
    (hO : Ord c s) (h : mainStep c s = some s') : Ord c s' := by
  unfold mainStep at h
  cases hpc : s.pc with
  | top =>
    rw [hpc] at h; injection h with h; subst h
    by_cases ht : s.todo = 0
    · refine hO.other (fun _ _ h => ?_) (fun _ _ h => ?_) (Or.inl rfl) <;> simp [ht] at h
    · refine ⟨⟨fun i map h => ?_, fun i map h => ?_⟩, hO.waits, hO.holds⟩
      · simp [ht] at h
        obtain ⟨h1, _⟩ := h; subst h1
        exact ⟨fun k hk => by omega, fun j hj => by omega⟩
      · simp [ht] at h
  | create i map => rw [hpc] at h; injection h with h; subst h; exact ord_create hd hw hI hK hO hpc
  | sem i map =>
    rw [hpc] at h
    simp only at h
    split at h
    · injection h with h; subst h
      refine ⟨⟨fun i' map' h => ?_, fun i' map' h => by cases h⟩, hO.waits, hO.holds⟩
      injection h with h1 _; subst h1
      exact hO.at_.2 i map hpc
    · cases h
  | wait map =>
    rw [hpc] at h; injection h with h; subst h
    have hp := (inv_wait hn hI hpc).2
    refine hO.other (fun _ _ h => ?_) (fun _ _ h => ?_) (Or.inl ?_)
    · rw [hp] at h; cases h
    · rw [hp] at h; cases h
    · unfold waitStep
      rw [hI.abort, if_neg (by decide)]
      simp only
      split <;> rfl
  | start i =>
    rw [hpc] at h; injection h with h; subst h
    unfold startStep
    split
    · split <;> exact hO.other (fun _ _ h => by cases h) (fun _ _ h => by cases h) (Or.inl rfl)
    · exact hO.other (fun _ _ h => by cases h) (fun _ _ h => by cases h) (Or.inl rfl)
  | reap i p d =>
    rw [hpc] at h; injection h with h; subst h
    unfold reapStep
    split
    · split
      · exact hO.other (fun _ _ h => by cases h) (fun _ _ h => by cases h) (Or.inl rfl)
      split
      · exact hO.other (fun _ _ h => by cases h) (fun _ _ h => by cases h) (Or.inl rfl)
      split
      · exact hO.other (fun _ _ h => by cases h) (fun _ _ h => by cases h)
          (Or.inr ⟨.reap i, (fun _ h => by cases h), rfl⟩)
      split <;> exact hO.other (fun _ _ h => by cases h) (fun _ _ h => by cases h) (Or.inl rfl)
    · refine hO.other (fun _ _ h => ?_) (fun _ _ h => ?_) (Or.inl ?_)
      · cases d <;> cases h
      · cases d <;> cases h
      · simp only
        split <;> rfl
  | drain =>
    rw [hpc] at h; injection h with h; subst h
    by_cases hr : s.nrRunning = 0
    · refine hO.other (fun _ _ h => ?_) (fun _ _ h => ?_) (Or.inl rfl) <;> simp [hr] at h
    · refine hO.other (fun _ _ h => ?_) (fun _ _ h => ?_) (Or.inl rfl) <;> simp [hr] at h
  | done => rw [hpc] at h; cases h

/-- What the others do to the jobs: none becomes not created, none that is active ceases to be. -/
theorem env_mono {a : Act} (ha : a ≠ .main) (hP : Calm s a) (h : step c s a = some s') :
    s'.pc = s.pc ∧ (s'.log = s.log ∨ ∃ e : Ev, (∀ j, e ≠ .create j) ∧ s'.log = e :: s.log) ∧
    (∀ k, (s'.job k).rs = .notCreated → (s.job k).rs = .notCreated) ∧
    ∀ k, (s.job k).rs.active = true → (s'.job k).rs.active = true := by
  cases a with
  | main => exact absurd rfl ha
  | semTimeout => exact hP.elim
  | stuck j => exact hP.elim
  | jobInit j =>
    simp only [step] at h
    split at h
    · next hc =>
      injection h with h; subst h
      refine ⟨rfl, Or.inl rfl, fun k => ?_, fun k => ?_⟩ <;> by_cases hk : k = j
      · subst hk; rw [upd_eq]; intro h; cases h
      · rw [upd_ne s _ hk]; exact id
      · subst hk; rw [upd_eq]; intro _; rfl
      · rw [upd_ne s _ hk]; exact id
    · cases h
  | jobExit j =>
    simp only [step] at h
    split at h
    · next hc =>
      injection h with h; subst h
      refine ⟨rfl, Or.inr ⟨.exit j, (fun _ h => by cases h), rfl⟩, fun k => ?_, fun k => ?_⟩ <;>
        by_cases hk : k = j
      · subst hk
        show ((s.upd k (fun q => { q with rs := .exited, ended := true })).job k).rs = _ → _
        rw [upd_eq]; intro h; cases h
      · show ((s.upd j (fun q => { q with rs := .exited, ended := true })).job k).rs = _ → _
        rw [upd_ne s _ hk]; exact id
      · subst hk
        show _ → ((s.upd k (fun q => { q with rs := .exited, ended := true })).job k).rs.active = _
        rw [upd_eq]; intro _; rfl
      · show _ → ((s.upd j (fun q => { q with rs := .exited, ended := true })).job k).rs.active = _
        rw [upd_ne s _ hk]; exact id
    · cases h
  | die j =>
    simp only [step] at h
    split at h
    · next hc =>
      injection h with h; subst h
      have hrs : ∀ k, ((s.upd j (fun q => { q with dead := true })).job k).rs = (s.job k).rs := by
        intro k
        by_cases hk : k = j
        · subst hk; rw [upd_eq]
        · rw [upd_ne s _ hk]
      refine ⟨rfl, Or.inr ⟨.die j, (fun _ h => by cases h), rfl⟩, fun k => ?_, fun k => ?_⟩
      · show ((s.upd j (fun q => { q with dead := true })).job k).rs = _ → _
        rw [hrs]; exact id
      · show _ → ((s.upd j (fun q => { q with dead := true })).job k).rs.active = _
        rw [hrs]; exact id
    · cases h
  | term j =>
    simp only [step] at h
    split at h
    · next hc =>
      injection h with h; subst h
      have hrs : ∀ k, ((s.upd j (fun q => { q with terminate := true })).job k).rs = (s.job k).rs := by
        intro k
        by_cases hk : k = j
        · subst hk; rw [upd_eq]
        · rw [upd_ne s _ hk]
      refine ⟨rfl, Or.inl rfl, fun k => ?_, fun k => ?_⟩
      · rw [hrs]; exact id
      · rw [hrs]; exact id
    · cases h
  | tick d =>
    simp only [step] at h
    injection h with h; subst h
    exact ⟨rfl, Or.inl rfl, fun _ => id, fun _ => id⟩

theorem ord_step {a : Act} (hn : c.n ≤ 4096) (hd : NoDelay c) (hw : WaitsBack c) (hI : Inv c s) (hK : Keep c s)
    (hO : Ord c s) (hP : Kept s a) (h : step c s a = some s') : Ord c s' := by
  by_cases ha : a = .main
  · subst ha; exact ord_main hn hd hw hI hK hO h
  · obtain ⟨h1, h2, h3, h4⟩ := env_mono ha (kept_calm hP) h
    exact hO.env h1 h2 h3 h4

theorem ord_init (c : Cfg) : Ord c (init c) := by
  refine ⟨⟨(fun _ _ h => by cases h), (fun _ _ h => by cases h)⟩, ?_, ?_⟩
  · intro post pre j h; simp [init] at h
  · intro post pre j h; simp [init] at h

theorem ord_reach (hn : c.n ≤ 4096) (hd : NoDelay c) (hw : WaitsBack c) (h : Reach c Kept s) : Ord c s := by
  induction h with
  | init => exact ord_init c
  | step a hr hP hs ih => exact ord_step hn hd hw (kept_inv hn hr) (keep_reach hn hr) ih hP hs

end Fio.Jobs
