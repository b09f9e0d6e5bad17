import Verif.Jobs.Safe
namespace Fio.Jobs

variable {c : Cfg} {s s' : St}

/-- Counted in todo. -/
def Rs.ahead : Rs → Bool
  | .notCreated => true
  | .created => true
  | .initialized => true
  | _ => false

/-- What holds if no job is terminated before it has been created. -/
structure Keep (c : Cfg) (s : St) : Prop where
  alive : ∀ j, j < c.n → (s.job j).terminate = true → (s.job j).rs ≠ .notCreated
  todo : s.todo = cnt c.n (fun j => (s.job j).rs.ahead)
  reap : ∀ i p d, s.pc = .reap i p d → p = 0 → ∀ k, k < i → k < c.n → (s.job k).pid = true
  fin : (s.pc = .drain ∨ s.pc = .done ∨ ∃ i p, s.pc = .reap i p true) → s.todo = 0

theorem Keep.upd (hK : Keep c s) (i : Nat) (f : Job → Job) (hi : i < c.n)
    (hjob : s'.job = (s.upd i f).job)
    (hal : (f (s.job i)).terminate = true → (f (s.job i)).rs ≠ .notCreated)
    (htd : s'.todo + (s.job i).rs.ahead.toNat = s.todo + (f (s.job i)).rs.ahead.toNat)
    (hre : ∀ n p d, s'.pc = .reap n p d → p = 0 → ∀ k, k < n → k < c.n → (s'.job k).pid = true)
    (hfin : (s'.pc = .drain ∨ s'.pc = .done ∨ ∃ i p, s'.pc = .reap i p true) → s'.todo = 0) : Keep c s' := by
  have hne : ∀ k, k ≠ i → s'.job k = s.job k := fun k hk => by rw [hjob, upd_ne s f hk]
  have heq : s'.job i = f (s.job i) := by rw [hjob, upd_eq]
  refine ⟨fun j hj => ?_, ?_, hre, hfin⟩
  · by_cases h : j = i
    · subst h; rw [heq]; exact hal
    · rw [hne j h]; exact hK.alive j hj
  · have := cnt_upd (p := fun j => (s.job j).rs.ahead) (q := fun j => (s'.job j).rs.ahead) hi
      (fun k hk => by show (s'.job k).rs.ahead = (s.job k).rs.ahead; rw [hne k hk])
    rw [b2n, b2n, ← hK.todo, heq] at this
    omega

/-- A step of somebody else than the main thread. -/
theorem Keep.env (hK : Keep c s) (i : Nat) (f : Job → Job) (hi : i < c.n)
    (hjob : s'.job = (s.upd i f).job)
    (hal : (f (s.job i)).terminate = true → (f (s.job i)).rs ≠ .notCreated)
    (htd : (s.job i).rs.ahead = (f (s.job i)).rs.ahead)
    (hpid : (s.job i).pid = true → (f (s.job i)).pid = true)
    (hpc : s'.pc = s.pc) (htodo : s'.todo = s.todo) : Keep c s' := by
  refine hK.upd i f hi hjob hal (by rw [htd, htodo]) ?_ (by rw [hpc, htodo]; exact hK.fin)
  intro n p d h hp k hk hkn
  have := hK.reap n p d (by rw [← hpc]; exact h) hp k hk hkn
  rw [hjob]
  by_cases hki : k = i
  · subst hki; rw [upd_eq]; exact hpid this
  · rw [upd_ne s f hki]; exact this

/-- A step that changes no job. -/
theorem Keep.same (hK : Keep c s) (hjob : s'.job = s.job) (htd : s'.todo = s.todo)
    (hre : ∀ n p d, s'.pc = .reap n p d → p = 0 → ∀ k, k < n → k < c.n → (s'.job k).pid = true)
    (hfin : (s'.pc = .drain ∨ s'.pc = .done ∨ ∃ i p, s'.pc = .reap i p true) → s'.todo = 0) : Keep c s' :=
  ⟨by rw [hjob]; exact hK.alive, by rw [htd, hjob]; exact hK.todo, hre, hfin⟩

theorem keep_init (c : Cfg) : Keep c (init c) := by
  refine ⟨fun j _ h => (by cases h), ?_, fun _ _ _ h => (by cases h), ?_⟩
  · show c.n - cnt c.n (fun j => (c.job j).failed) = _
    have h1 : cnt c.n (fun j => ((init c).job j).rs.ahead) = cnt c.n (fun j => !(c.job j).failed) :=
      cnt_congr (fun k _ => by cases hf : (c.job k).failed <;> simp [init, hf, Rs.ahead])
    have := cnt_add (p := fun j => !(c.job j).failed) (q := fun j => (c.job j).failed) (n := c.n) (fun _ _ => rfl)
    omega
  · rintro (h | h | ⟨_, _, h⟩) <;> cases h

theorem keep_create {i : Nat} {map : List Nat} (hK : Keep c s) :
    Keep c (createStep c s i map) := by
  unfold createStep
  split
  · next hi =>
    split
    · exact hK.same rfl rfl (fun _ _ _ h => by cases h) (by rintro (h | h | ⟨_, _, h⟩) <;> cases h)
    next hnc =>
    have hnc : (s.job i).rs = .notCreated := Decidable.of_not_not hnc
    split
    · next ht => exact absurd hnc (hK.alive i hi ht)
    next ht =>
    split
    · exact hK.same rfl rfl (fun _ _ _ h => by cases h) (by rintro (h | h | ⟨_, _, h⟩) <;> cases h)
    split
    · exact hK.same rfl rfl (fun _ _ _ h => by cases h) (by rintro (h | h | ⟨_, _, h⟩) <;> cases h)
    split
    · exact hK.same rfl rfl (fun _ _ _ h => by cases h) (by rintro (h | h | ⟨_, _, h⟩) <;> cases h)
    exact hK.upd i (fun j => { j with rs := .created }) hi rfl (fun _ h => by cases h) (by rw [hnc]; rfl)
      (fun _ _ _ h => by cases h) (by rintro (h | h | ⟨_, _, h⟩) <;> cases h)
  · exact hK.same rfl rfl (fun _ _ _ h => by cases h) (by rintro (h | h | ⟨_, _, h⟩) <;> cases h)

theorem keep_start {i : Nat} (hn : c.n ≤ 4096) (hK : Keep c s) :
    Keep c (startStep c s i) := by
  have ht : s.todo ≤ c.n := by rw [hK.todo]; exact cnt_le _ _
  unfold startStep
  split
  · next hi =>
    split
    · next hin =>
      have hpos : 0 < s.todo := by rw [hK.todo]; exact cnt_pos hi (by rw [hin]; rfl)
      refine hK.upd i (fun j => { j with rs := .running, go := true }) hi rfl (fun _ h => by cases h) ?_
        (fun _ _ _ h => by cases h) (by rintro (h | h | ⟨_, _, h⟩) <;> cases h)
      show dec s.todo + _ = _
      have := dec_succ hpos (by omega)
      rw [hin]; show dec s.todo + 1 = s.todo + 0; omega
    · exact hK.same rfl rfl (fun _ _ _ h => by cases h) (by rintro (h | h | ⟨_, _, h⟩) <;> cases h)
  · exact hK.same rfl rfl (fun n p d h hp k hk => by injection h with h1 h2 h3; omega)
      (by rintro (h | h | ⟨_, _, h⟩) <;> cases h)

theorem keep_reap {i p : Nat} {d : Bool} (hI : Inv c s) (hK : Keep c s) (hpc : s.pc = .reap i p d) :
    Keep c (reapStep c s i p d) := by
  have hr := hK.reap i p d hpc
  have hfin : d = true → s.todo = 0 := fun h => hK.fin (Or.inr (Or.inr ⟨i, p, by rw [hpc, h]⟩))
  have hfin' : ∀ (s1 : St) (i' p' : Nat), s1.pc = .reap i' p' d → s1.todo = s.todo →
      (s1.pc = .drain ∨ s1.pc = .done ∨ ∃ i p, s1.pc = .reap i p true) → s1.todo = 0 := by
    rintro s1 i' p' h1 h2 (h | h | ⟨_, _, h⟩) <;> rw [h1] at h
    · cases h
    · cases h
    · injection h with _ _ h; rw [h2]; exact hfin h
  have hadv : ∀ (p' : Nat), (p' = 0 → p = 0 ∧ (s.job i).pid = true) →
      Keep c { s with pc := .reap (i + 1) p' d } := by
    intro p' hp'
    refine hK.same rfl rfl (fun n q e h hq k hk hkn => ?_) (hfin' _ _ _ rfl rfl)
    injection h with h1 h2 h3
    subst h1 h2
    have := hp' hq
    by_cases hki : k = i
    · subst hki; exact this.2
    · exact hr this.1 k (by omega) hkn
  unfold reapStep
  split
  · next hi =>
    split
    · exact hadv _ (fun h => by omega)
    next hpid =>
    have hpid : (s.job i).pid = true := by cases h : (s.job i).pid <;> simp_all
    split
    · exact hadv _ (fun h => ⟨h, hpid⟩)
    next hnr =>
    split
    · next hre =>
      have hni : (s.job i).rs.isStarted = false := by
        have hp := hI.pc
        unfold PcOk at hp
        rw [hpc] at hp
        exact hp i hi
      have hne := ((hI.job i).pid.1 hpid).1
      refine hK.upd i (fun j => { j with rs := .reaped }) hi rfl (fun _ h => by cases h) ?_ ?_ (hfin' _ _ _ rfl rfl)
      · show s.todo + _ = s.todo + 0
        have : (s.job i).rs.ahead = false := by
          cases hq : (s.job i).rs <;> simp [hq, Rs.isStarted] at hni hne ⊢ <;> rfl
        rw [this]; rfl
      · intro n q e h hq k hk hkn
        injection h with h1 h2 h3
        subst h1 h2
        show ((s.upd i (fun j => { j with rs := .reaped })).job k).pid = true
        by_cases hki : k = i
        · subst hki; rw [upd_eq]; exact hpid
        · rw [upd_ne s _ hki]; exact hr hq k (by omega) hkn
    · split
      · exact hadv _ (fun h => ⟨h, hpid⟩)
      · exact hadv _ (fun h => by omega)
  · next hi =>
    generalize hb : (if d then Pc.drain else Pc.top) = pc'
    have hpc' : (pc' = .drain ∧ d = true) ∨ (pc' = .top ∧ d = false) := by rw [← hb]; cases d <;> simp
    have hf : ∀ s1 : St, s1.todo = s.todo → s1.pc = pc' →
        (s1.pc = .drain ∨ s1.pc = .done ∨ ∃ i p, s1.pc = .reap i p true) → s1.todo = 0 := by
      intro s1 h1 h2 h
      rw [h2] at h; rw [h1]
      rcases hpc' with h' | h'
      · exact hfin h'.2
      · rw [h'.1] at h; rcases h with (h | h | ⟨_, _, h⟩) <;> cases h
    have hg : ∀ s1 : St, s1.pc = pc' →
        ∀ n p d, s1.pc = .reap n p d → p = 0 → ∀ k, k < n → k < c.n → (s1.job k).pid = true := by
      intro s1 h2 n p d h
      rw [h2] at h
      rcases hpc' with h' | h' <;> rw [h'.1] at h <;> cases h
    show Keep c { (if _ then termAll s else s) with pc := pc' }
    split
    · next hcond =>
      refine ⟨fun j hj _ => ?_, hK.todo, hg _ rfl, hf _ rfl rfl⟩
      show (s.job j).rs ≠ _
      exact ((hI.job j).pid.1 (hr hcond.2.1 j (by omega) hj)).1
    · exact hK.same rfl rfl (hg _ rfl) (hf _ rfl rfl)

theorem keep_main (hn : c.n ≤ 4096) (hI : Inv c s) (hK : Keep c s) (h : mainStep c s = some s') : Keep c s' := by
  unfold mainStep at h
  cases hpc : s.pc with
  | top =>
    rw [hpc] at h; injection h with h; subst h
    by_cases ht : s.todo = 0
    · refine hK.same rfl rfl ?_ (fun _ => ht)
      intro n p d h; simp [ht] at h
    · refine hK.same rfl rfl ?_ ?_
      · intro n p d h; simp [ht] at h
      · intro h; simp [ht] at h
  | create i map => rw [hpc] at h; injection h with h; subst h; exact keep_create hK
  | sem i map =>
    rw [hpc] at h
    simp only at h
    split at h
    · injection h with h; subst h
      exact hK.same rfl rfl (fun _ _ _ h => by cases h) (by rintro (h | h | ⟨_, _, h⟩) <;> cases h)
    · cases h
  | wait map =>
    rw [hpc] at h; injection h with h; subst h
    have hle : s.todo ≤ c.n := by rw [hK.todo]; exact cnt_le _ _
    have hw := wait_todo hI hpc (by omega)
    have hp := (inv_wait hn hI hpc).2
    refine hK.same hw.2.1 hw.1 ?_ ?_
    · intro n p d h; rw [hp] at h; cases h
    · rw [hp]; rintro (h | h | ⟨_, _, h⟩) <;> cases h
  | start i => rw [hpc] at h; injection h with h; subst h; exact keep_start hn hK
  | reap i p d => rw [hpc] at h; injection h with h; subst h; exact keep_reap hI hK hpc
  | drain =>
    rw [hpc] at h; injection h with h; subst h
    have ht := hK.fin (Or.inl hpc)
    by_cases hr : s.nrRunning = 0
    · refine hK.same rfl rfl ?_ (fun _ => ht)
      intro n p d h; simp [hr] at h
    · refine hK.same rfl rfl ?_ (fun _ => ht)
      intro n p d h hp k hk; simp [hr] at h; omega
  | done => rw [hpc] at h; cases h

theorem keep_step {a : Act} (hn : c.n ≤ 4096) (hI : Inv c s) (hK : Keep c s) (hP : Kept s a)
    (h : step c s a = some s') : Keep c s' := by
  cases a with
  | main => exact keep_main hn hI hK h
  | semTimeout => exact hP.elim
  | stuck j => exact hP.elim
  | jobInit j =>
    simp only [step] at h
    split at h
    · next hc =>
      injection h with h; subst h
      exact hK.env j _ hc.1 rfl (fun _ h => by cases h) (by rw [hc.2.1]; rfl) (fun _ => rfl) rfl rfl
    · cases h
  | jobExit j =>
    simp only [step] at h
    split at h
    · next hc =>
      injection h with h; subst h
      have h4 := (hI.job j).go.1 hc.2.1
      refine hK.env j (fun q => { q with rs := .exited, ended := true }) hc.1 rfl (fun _ h => by cases h) ?_
        (fun h => h) rfl rfl
      cases hq : (s.job j).rs <;> simp [hq] at h4 ⊢ <;> rfl
    · cases h
  | die j =>
    simp only [step] at h
    split at h
    · next hc =>
      injection h with h; subst h
      exact hK.env j (fun q => { q with dead := true }) hc.1 rfl (hK.alive j hc.1) rfl (fun h => h) rfl rfl
    · cases h
  | term j =>
    simp only [step] at h
    split at h
    · next hc =>
      injection h with h; subst h
      exact hK.env j _ hc rfl (fun _ => hP) rfl (fun h => h) rfl rfl
    · cases h
  | tick d =>
    simp only [step] at h
    injection h with h; subst h
    exact hK.same rfl rfl hK.reap hK.fin

theorem kept_calm {a : Act} (h : Kept s a) : Calm s a := by
  cases a <;> first | exact h | trivial

theorem reach_mono {P Q : St → Act → Prop} (hPQ : ∀ s a, P s a → Q s a) (h : Reach c P s) : Reach c Q s := by
  induction h with
  | init => exact .init
  | step a _ hP hs ih => exact .step a ih (hPQ _ _ hP) hs

theorem kept_inv (hn : c.n ≤ 4096) (h : Reach c Kept s) : Inv c s :=
  inv_reach hn (reach_mono (fun _ _ h => kept_calm h) h)

theorem keep_reach (hn : c.n ≤ 4096) (h : Reach c Kept s) : Keep c s := by
  induction h with
  | init => exact keep_init c
  | step a hr hP hs ih => exact keep_step hn (kept_inv hn hr) ih hP hs

end Fio.Jobs
