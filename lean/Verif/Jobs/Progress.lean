import Verif.Jobs.Order
namespace Fio.Jobs

variable {c : Cfg} {s s' : St}

theorem cnt_none {p : Nat → Bool} : ∀ {n}, (∀ k, k < n → p k = false) → cnt n p = 0
  | 0, _ => rfl
  | n + 1, h => by
    rw [cnt, cnt_none (n := n) (fun k hk => h k (by omega)), h n (by omega)]; rfl

/-- If no job is active then all have been created. -/
def AllBorn (c : Cfg) (s : St) : Prop :=
  (∀ k, k < c.n → (s.job k).rs.active = false) → ∀ k, k < c.n → (s.job k).rs ≠ .notCreated

/-- Not to be reaped. -/
def Lives (c : Cfg) (s : St) (k : Nat) : Prop :=
  (s.job k).rs ≠ .exited ∧ ((s.job k).rs = .running → (c.job k).useThread = false → (s.job k).dead = false)

/-- What holds of the place where the main thread is if nothing has happened since the log was `L`. -/
def QuietPc (c : Cfg) (s : St) : Prop :=
  match s.pc with
  | .create _ _ => ∀ k, k < c.n → (s.job k).rs.isStarted = false
  | .sem _ _ => False
  | .wait _ => (∀ k, k < c.n → (s.job k).rs.isStarted = false) ∧ AllBorn c s
  | .start _ => (∀ k, k < c.n → (s.job k).rs.isStarted = false) ∧ AllBorn c s
  | .reap i _ _ => AllBorn c s ∧ ∀ k, k < i → k < c.n → Lives c s k
  | .top => AllBorn c s ∧ ∀ k, k < c.n → Lives c s k
  | .drain => AllBorn c s ∧ ∀ k, k < c.n → Lives c s k
  | .done => True

def Quiet (c : Cfg) (L : List Ev) (s : St) : Prop := L.length ≤ s.log.length ∧ (s.log = L → QuietPc c s)

/-- A step that adds an event. -/
theorem Quiet.event {L : List Ev} (h : Quiet c L s) {e : Ev} (hl : s'.log = e :: s.log) : Quiet c L s' := by
  have h1 := h.1
  refine ⟨by rw [hl, List.length_cons]; omega, fun h => ?_⟩
  rw [hl] at h
  rw [← h, List.length_cons] at h1
  omega

theorem lives_of {k : Nat} (h : reapable c s k = false) : Lives c s k := by
  unfold reapable at h
  refine ⟨fun he => ?_, fun _ ht => ?_⟩
  · rw [he] at h
    split at h <;> simp at h
  · rw [ht] at h
    cases hd : (s.job k).dead
    · rfl
    · rw [hd] at h; simp at h

theorem started_ahead {r : Rs} (h : r.active = false) : r.isStarted = false ∧ r.isRunning = false := by
  unfold Rs.active at h
  simpa using h

theorem quiet_main {L : List Ev} (hn : c.n ≤ 4096) (hI : Inv c s) (hK : Keep c s) (hO : Ord c s)
    (hQ : Quiet c L s) (h : mainStep c s = some s') : Quiet c L s' := by
  obtain ⟨hl, hq⟩ := hQ
  unfold mainStep at h
  cases hpc : s.pc with
  | top =>
    rw [hpc] at h; injection h with h; subst h
    refine ⟨hl, fun hL => ?_⟩
    have hq := hq hL
    have hp := hI.pc
    unfold QuietPc at *
    unfold PcOk at hp
    rw [hpc] at hq hp
    by_cases ht : s.todo = 0
    · simp only [ht, if_true]; exact hq
    · simp only [ht, if_false]; exact hp
  | create i map =>
    rw [hpc] at h; injection h with h; subst h
    have hp := hO.at_.1 i map hpc
    have hadv : Quiet c L { s with pc := .create (i + 1) map } := by
      refine ⟨hl, fun hL => ?_⟩
      have hq := hq hL
      unfold QuietPc at *
      rw [hpc] at hq
      exact hq
    unfold createStep
    split
    · next hi =>
      split
      · exact hadv
      next hnc =>
      have hnc : (s.job i).rs = .notCreated := Decidable.of_not_not hnc
      split
      · next ht => exact absurd hnc (hK.alive i hi ht)
      split
      · exact hadv
      split
      · next hst =>
        refine ⟨hl, fun hL => ?_⟩
        have hq := hq hL
        unfold QuietPc at *
        rw [hpc] at hq
        refine ⟨hq, fun hno => ?_⟩
        exfalso
        have h1 : s.nrStarted = 0 := by
          rw [hI.started]; exact cnt_none (fun k hk => (started_ahead (hno k hk)).1)
        have h2 : s.nrRunning = 0 := by
          rw [hI.running]; exact cnt_none (fun k hk => (started_ahead (hno k hk)).2)
        rcases hst.2 with h | h
        · exact h h1
        · exact h h2
      split
      · exact hadv
      exact Quiet.event (s := s) ⟨hl, hq⟩ (e := .create i) rfl
    · next hi =>
      refine ⟨hl, fun hL => ?_⟩
      have hq := hq hL
      unfold QuietPc at *
      rw [hpc] at hq
      refine ⟨hq, fun hno k hk hnc => ?_⟩
      obtain ⟨m, hm, ha⟩ := hp.1 k (by omega) hnc
      have := hno m (by omega)
      change (s.job m).rs.active = false at this
      rw [this] at ha; cases ha
  | sem i map =>
    rw [hpc] at h
    simp only at h
    split at h
    · injection h with h; subst h
      refine ⟨hl, fun hL => ?_⟩
      have hq := hq hL
      unfold QuietPc at hq
      rw [hpc] at hq
      exact hq.elim
    · cases h
  | wait map =>
    rw [hpc] at h; injection h with h; subst h
    have hle : s.todo ≤ c.n := by rw [hK.todo]; exact cnt_le _ _
    have hw := wait_todo hI hpc (by omega)
    have hp := (inv_wait hn hI hpc).2
    refine ⟨by rw [hw.2.2]; exact hl, fun hL => ?_⟩
    have hq := hq (by rw [← hw.2.2]; exact hL)
    unfold QuietPc AllBorn at *
    rw [hp, hw.2.1]
    rw [hpc] at hq
    exact hq
  | start i =>
    rw [hpc] at h; injection h with h; subst h
    unfold startStep
    split
    · next hi =>
      split
      · next hin =>
        refine ⟨hl, fun hL => ?_⟩
        have hq := hq hL
        unfold QuietPc at hq
        rw [hpc] at hq
        have := hq.1 i hi
        rw [hin] at this; cases this
      · refine ⟨hl, fun hL => ?_⟩
        have hq := hq hL
        unfold QuietPc at *
        rw [hpc] at hq
        exact hq
    · refine ⟨hl, fun hL => ?_⟩
      have hq := hq hL
      unfold QuietPc at *
      rw [hpc] at hq
      exact ⟨hq.2, fun k hk => by omega⟩
  | reap i p d =>
    rw [hpc] at h; injection h with h; subst h
    have hadv : ∀ p', (i < c.n → Lives c s i) →
        Quiet c L { s with pc := .reap (i + 1) p' d } := by
      intro p' hi
      refine ⟨hl, fun hL => ?_⟩
      have hq := hq hL
      unfold QuietPc at *
      rw [hpc] at hq
      refine ⟨hq.1, fun k hk hkn => ?_⟩
      by_cases hki : k = i
      · subst hki; exact hi hkn
      · exact hq.2 k (by omega) hkn
    unfold reapStep
    split
    · next hi =>
      split
      · next hpid =>
        refine hadv _ (fun _ => ?_)
        have hj := hI.job i
        have hne : (s.job i).rs ≠ .exited := by
          intro h
          have := hj.endp (hj.endx h)
          have := hj.go.1 this
          have := hj.pid.2 ⟨this.1, this.2.1, this.2.2.2⟩
          rw [hpid] at this; cases this
        have hnd : (s.job i).dead = false := by
          cases hd : (s.job i).dead
          · rfl
          · rw [hj.deadp hd] at hpid; cases hpid
        exact ⟨hne, fun _ _ => hnd⟩
      split
      · next hr =>
        refine hadv _ (fun _ => ⟨by rw [hr]; decide, fun h => ?_⟩)
        rw [hr] at h; cases h
      split
      · next hre => exact Quiet.event (s := s) ⟨hl, hq⟩ (e := .reap i) rfl
      next hre =>
      have hre : reapable c s i = false := by cases h : reapable c s i <;> simp_all
      split <;> exact hadv _ (fun _ => lives_of hre)
    · next hi =>
      have hA : ∀ s1 : St, (∀ k, (s1.job k).rs = (s.job k).rs ∧ (s1.job k).dead = (s.job k).dead) →
          AllBorn c s ∧ (∀ k, k < i → k < c.n → Lives c s k) →
          AllBorn c s1 ∧ ∀ k, k < c.n → Lives c s1 k := by
        intro s1 h1 h
        unfold AllBorn Lives at *
        refine ⟨fun hno k hk => ?_, fun k hk => ?_⟩
        · rw [(h1 k).1]
          exact h.1 (fun k hk => by rw [← (h1 k).1]; exact hno k hk) k hk
        · rw [(h1 k).1, (h1 k).2]
          exact h.2 k (by omega) hk
      have hB : ∀ s1 : St, (∀ k, (s1.job k).rs = (s.job k).rs ∧ (s1.job k).dead = (s.job k).dead) →
          s1.log = s.log → (s1.pc = if d then Pc.drain else Pc.top) → Quiet c L s1 := by
        intro s1 h1 h2 h3
        refine ⟨by rw [h2]; exact hl, fun hL => ?_⟩
        have hq := hq (by rw [← h2]; exact hL)
        unfold QuietPc at *
        rw [hpc] at hq
        rw [h3]
        cases d
        · exact hA s1 h1 hq
        · exact hA s1 h1 hq
      refine hB _ (fun k => ?_) ?_ rfl
      · dsimp only
        split <;> exact ⟨rfl, rfl⟩
      · dsimp only
        split <;> rfl
  | drain =>
    rw [hpc] at h; injection h with h; subst h
    refine ⟨hl, fun hL => ?_⟩
    have hq := hq hL
    unfold QuietPc at *
    rw [hpc] at hq
    by_cases ht : s.nrRunning = 0
    · simp only [ht, if_true]
    · simp only [ht, if_false]
      exact ⟨hq.1, fun k hk => by omega⟩
  | done => rw [hpc] at h; cases h

theorem quiet_step {L : List Ev} {a : Act} (hn : c.n ≤ 4096) (hI : Inv c s) (hK : Keep c s) (hO : Ord c s)
    (hP : Kept s a) (hQ : Quiet c L s) (h : step c s a = some s') : Quiet c L s' := by
  have hsame : (∀ k, (s'.job k).rs = (s.job k).rs ∧ (s'.job k).dead = (s.job k).dead) → s'.log = s.log →
      s'.pc = s.pc → Quiet c L s' := by
    intro h1 h2 h3
    refine ⟨by rw [h2]; exact hQ.1, fun hL => ?_⟩
    have hq := hQ.2 (by rw [← h2]; exact hL)
    unfold QuietPc AllBorn Lives at *
    rw [h3]
    simp only [fun k => (h1 k).1, fun k => (h1 k).2]
    exact hq
  cases a with
  | main => exact quiet_main hn hI hK hO hQ h
  | semTimeout => exact hP.elim
  | stuck j => exact hP.elim
  | jobInit j =>
    simp only [step] at h
    split at h
    · next hc =>
      injection h with h; subst h
      refine ⟨hQ.1, fun hL => ?_⟩
      have hq := hQ.2 hL
      have hp := hI.pc
      have hst : (s.job j).rs.isStarted = true := by rw [hc.2.1]; rfl
      exfalso
      unfold QuietPc at hq
      unfold PcOk at hp
      cases hpc : s.pc <;> rw [hpc] at hq hp
      · rw [hp j hc.1] at hst; cases hst
      · rw [hq j hc.1] at hst; cases hst
      · exact hq
      · rw [hq.1 j hc.1] at hst; cases hst
      · rw [hq.1 j hc.1] at hst; cases hst
      · rw [hp j hc.1] at hst; cases hst
      · rw [hp j hc.1] at hst; cases hst
      · rw [hp j hc.1] at hst; cases hst
    · cases h
  | jobExit j =>
    simp only [step] at h
    split at h
    · injection h with h; subst h
      exact hQ.event (e := .exit j) rfl
    · cases h
  | die j =>
    simp only [step] at h
    split at h
    · injection h with h; subst h
      exact hQ.event (e := .die j) rfl
    · cases h
  | term j =>
    simp only [step] at h
    split at h
    · injection h with h; subst h
      refine hsame (fun k => ?_) rfl rfl
      by_cases hk : k = j
      · subst hk; rw [upd_eq]; exact ⟨rfl, rfl⟩
      · rw [upd_ne s _ hk]; exact ⟨rfl, rfl⟩
    · cases h
  | tick d =>
    simp only [step] at h
    injection h with h; subst h
    exact hsame (fun k => ⟨rfl, rfl⟩) rfl rfl

theorem steps_reach {P : St → Act → Prop} (hr : Reach c P s) (h : Steps c P s s') : Reach c P s' := by
  induction h with
  | refl => exact hr
  | step a _ hP hs ih => exact .step a ih hP hs

theorem quiet_steps {L : List Ev} (hn : c.n ≤ 4096) (hd : NoDelay c) (hw : WaitsBack c) (hr : Reach c Kept s)
    (hQ : Quiet c L s) (h : Steps c Kept s s') : Quiet c L s' := by
  induction h with
  | refl => exact hQ
  | step a hst hP hs ih =>
    have hr1 := steps_reach hr hst
    exact quiet_step hn (kept_inv hn hr1) (keep_reach hn hr1) (ord_reach hn hd hw hr1) hP ih hs

end Fio.Jobs
