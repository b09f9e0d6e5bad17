import Verif.Jobs.Step
namespace Fio.Jobs

variable {c : Cfg} {s s' : St}

theorem waitMap_init : ∀ {map : List Nat}, (∀ k ∈ map, (s.job k).rs = .initialized) → waitMap s map = ([], 0)
  | [], _ => rfl
  | j :: r, h => by
    have hj := h j (List.mem_cons_self)
    have hr := waitMap_init (map := r) (fun k hk => h k (List.mem_cons_of_mem _ hk))
    rw [waitMap, hr, if_pos hj]

theorem inv_wait {map : List Nat} (hn : c.n ≤ 4096) (hI : Inv c s) (hpc : s.pc = .wait map) :
    Inv c (waitStep s map) ∧ (waitStep s map).pc = .start 0 := by
  have hp := hI.pc
  unfold PcOk at hp
  rw [hpc] at hp
  obtain ⟨hp1, hp2⟩ := hp
  have hr : s.nrRunning ≤ c.n := by rw [hI.running]; exact cnt_le _ _
  unfold waitStep
  rw [hI.abort, if_neg (by decide), waitMap_init hp2]
  refine ⟨?_, rfl⟩
  exact hI.same (fun k => ⟨(s.job k).terminate, rfl⟩) rfl ⟨hp1, fun k hk => by omega⟩ rfl
    (by show (s.nrRunning + 0) % 4294967296 = _; omega) (by show false = s.abort; exact hI.abort.symm)
    (fun h => by cases h)

theorem wait_todo {map : List Nat} (hI : Inv c s) (hpc : s.pc = .wait map) (ht : s.todo < 4294967296) :
    (waitStep s map).todo = s.todo ∧ (waitStep s map).job = s.job ∧ (waitStep s map).log = s.log := by
  have hp := hI.pc
  unfold PcOk at hp
  rw [hpc] at hp
  unfold waitStep
  rw [hI.abort, if_neg (by decide), waitMap_init hp.2]
  refine ⟨?_, rfl, rfl⟩
  show (s.todo + 4294967295 * 0) % 4294967296 = s.todo
  omega

theorem inv_start {i : Nat} (hn : c.n ≤ 4096) (hI : Inv c s) (hpc : s.pc = .start i) : Inv c (startStep c s i) := by
  have hp := hI.pc
  unfold PcOk at hp
  rw [hpc] at hp
  obtain ⟨hp1, hp2⟩ := hp
  have hr : s.nrRunning ≤ c.n := by rw [hI.running]; exact cnt_le _ _
  have hs : s.nrStarted ≤ c.n := by rw [hI.started]; exact cnt_le _ _
  unfold startStep
  split
  · next hi =>
    split
    · next hin =>
      have hpos : 0 < s.nrStarted := by
        rw [hI.started]; exact cnt_pos hi (by rw [hin]; rfl)
      obtain ⟨h1, h2, h3, h4, h5, h6, h7, h8, h9, h10, h11, h12, h13, h14, h15⟩ := hI.job i
      refine hI.upd i (fun j => { j with rs := .running, go := true }) hi rfl (Or.inl rfl) ?_ ?_ ?_ ?_ rfl
        hI.alone hI.waits (fun h => by cases h) (by simp [evs, hin, St.upd])
      · constructor <;> grind [St.upd]
      · refine ⟨fun k => ?_, fun k hk hkn => ?_⟩
        · show ((s.upd i (fun j => { j with rs := .running, go := true })).job k).rs ≠ _
          by_cases hki : k = i
          · subst hki; rw [upd_eq]; exact fun h => by cases h
          · rw [upd_ne s _ hki]; exact hp1 k
        · show ((s.upd i (fun j => { j with rs := .running, go := true })).job k).rs ≠ _
          by_cases hki : k = i
          · subst hki; rw [upd_eq]; exact fun h => by cases h
          · rw [upd_ne s _ hki]; exact hp2 k (by omega) hkn
      · show dec s.nrStarted + _ = _
        have := dec_succ hpos (by omega)
        rw [hin]; show dec s.nrStarted + 1 = s.nrStarted + 0; omega
      · show inc s.nrRunning + _ = _
        rw [hin, inc_eq (by omega)]; rfl
    · next hni =>
      refine hI.same (fun k => ⟨(s.job k).terminate, rfl⟩) rfl ⟨hp1, fun k hk hkn => ?_⟩ rfl rfl rfl
        (fun h => by cases h)
      by_cases hki : k = i
      · subst hki; exact hni
      · exact hp2 k (by omega) hkn
  · next hi =>
    refine hI.same (fun k => ⟨(s.job k).terminate, rfl⟩) rfl (fun k hk => ?_) rfl rfl rfl (fun h => by cases h)
    have a := hp1 k
    have b := hp2 k (by omega) hk
    show (s.job k).rs.isStarted = false
    cases hq : (s.job k).rs <;> simp [hq] at a b ⊢ <;> rfl

theorem inv_reap {i p : Nat} {d : Bool} (hn : c.n ≤ 4096) (hI : Inv c s) (hpc : s.pc = .reap i p d) :
    Inv c (reapStep c s i p d) := by
  have hp := hI.pc
  unfold PcOk at hp
  rw [hpc] at hp
  have hr : s.nrRunning ≤ c.n := by rw [hI.running]; exact cnt_le _ _
  have hadv : ∀ p', Inv c { s with pc := .reap (i + 1) p' d } := fun p' =>
    hI.same (fun k => ⟨(s.job k).terminate, rfl⟩) rfl hp rfl rfl rfl (fun h => by cases h)
  unfold reapStep
  split
  · next hi =>
    split
    · exact hadv _
    next hpid =>
    have hpid : (s.job i).pid = true := by cases h : (s.job i).pid <;> simp_all
    split
    · exact hadv _
    next hnr =>
    split
    · next hre =>
      obtain ⟨h1, h2, h3, h4, h5, h6, h7, h8, h9, h10, h11, h12, h13, h14, h15⟩ := hI.job i
      have hni := hp i hi
      have hrun : (s.job i).rs.isRunning = true := by
        have := h3.1 hpid
        cases hq : (s.job i).rs <;> simp [hq, Rs.isStarted] at this hni hnr ⊢ <;> rfl
      have hpos : 0 < s.nrRunning := by rw [hI.running]; exact cnt_pos hi hrun
      have hgone : (s.job i).ended = true ∨ (s.job i).dead = true := by
        unfold reapable at hre
        split at hre
        · exact Or.inl (h6 (by simpa using hre))
        · simp only [Bool.or_eq_true, Bool.and_eq_true, beq_iff_eq, h8] at hre
          rcases hre with (h | h) | h
          · exact Or.inl (h6 h)
          · exact Or.inr h
          · exact absurd h.2 (by decide)
      refine hI.upd i (fun j => { j with rs := .reaped }) hi rfl (Or.inr ⟨_, rfl, rfl⟩) ?_ ?_ ?_ ?_ rfl ?_ ?_
        (fun h => by cases h) ?_
      · have hc : (s.job i).rs = .running ∨ (s.job i).rs = .exited := by
          cases hq : (s.job i).rs <;> simp [hq, Rs.isRunning] at hrun ⊢
        have hf := (h3.1 hpid).2.2
        have hg : (s.job i).go = true := h4.2 ⟨(h3.1 hpid).1, (h3.1 hpid).2.1, (by
          rcases hc with h | h <;> rw [h] <;> decide), hf⟩
        clear hp hadv hI h3 h4
        rcases hc with hc | hc <;> constructor <;> grind
      · intro k hk
        show ((s.upd i (fun j => { j with rs := .reaped })).job k).rs.isStarted = false
        by_cases hki : k = i
        · subst hki; rw [upd_eq]; rfl
        · rw [upd_ne s _ hki]; exact hp k hk
      · show s.nrStarted + _ = _
        rw [hni]; rfl
      · show dec s.nrRunning + _ = _
        have := dec_succ hpos (by omega)
        rw [hrun]; show dec s.nrRunning + 1 = s.nrRunning + 0; omega
      · exact alone_cons hI.alone (fun _ h => by cases h)
      · exact waits_cons hI.waits (fun _ _ h => by cases h)
      · have hne := (h3.1 hpid).1
        have hf := (h3.1 hpid).2.2
        simp [evs, hnr, hne, hf]; omega
    · split
      · exact hadv _
      · exact hadv _
  · generalize hb : (if d then Pc.drain else Pc.top) = pc'
    have hpc' : pc' = .drain ∨ pc' = .top := by rw [← hb]; cases d <;> simp
    have hpok : ∀ s1 : St, (∀ k, (s1.job k).rs = (s.job k).rs) → PcOk c { s1 with pc := pc' } := by
      intro s1 h1
      rcases hpc' with h | h <;> subst h <;> intro k hk <;> show (s1.job k).rs.isStarted = false <;>
        rw [h1] <;> exact hp k hk
    show Inv c { (if _ then termAll s else s) with pc := pc' }
    split
    · refine hI.same (fun k => ⟨true, rfl⟩) rfl (hpok (termAll s) (fun _ => rfl)) rfl rfl rfl (fun h => ?_)
      rcases hpc' with h' | h' <;> rw [h'] at h <;> cases h
    · refine hI.same (fun k => ⟨(s.job k).terminate, rfl⟩) rfl (hpok s (fun _ => rfl)) rfl rfl rfl (fun h => ?_)
      rcases hpc' with h' | h' <;> rw [h'] at h <;> cases h

theorem inv_main (hn : c.n ≤ 4096) (hI : Inv c s) (h : mainStep c s = some s') : Inv c s' := by
  have hp := hI.pc
  unfold PcOk at hp
  unfold mainStep at h
  cases hpc : s.pc with
  | top =>
    rw [hpc] at h hp; injection h with h; subst h
    refine hI.same (fun k => ⟨(s.job k).terminate, rfl⟩) rfl ?_ rfl rfl rfl ?_
    · by_cases ht : s.todo = 0
      · rw [if_pos ht]; exact hp
      · rw [if_neg ht]
        refine ⟨fun k h => ?_, fun k hk => absurd hk (by simp)⟩
        by_cases hk : k < c.n
        · have := hp k hk; rw [show (s.job k).rs = .created from h] at this; cases this
        · rcases hI.far k (by omega) with h' | h' <;> rw [show (s.job k).rs = .created from h] at h' <;> cases h'
    · intro h; by_cases ht : s.todo = 0
      · rw [if_pos ht] at h; cases h
      · rw [if_neg ht] at h; cases h
  | create i map => rw [hpc] at h; injection h with h; subst h; exact inv_create hn hI hpc
  | sem i map =>
    rw [hpc] at h hp
    simp only at h
    obtain ⟨hi, hs, h1, h2⟩ := hp
    split at h
    · next hin =>
      injection h with h; subst h
      refine hI.same (fun k => ⟨(s.job k).terminate, rfl⟩) rfl ⟨fun k => ?_, fun k hk => ?_⟩ rfl rfl rfl
        (fun h => by cases h)
      · by_cases hk : k = i
        · subst hk; show (s.job k).rs ≠ _; rw [hin]; exact fun h => by cases h
        · exact h1 k hk
      · rcases h2 k hk with h | h
        · subst h; exact hin
        · exact h
    · cases h
  | wait map => rw [hpc] at h; injection h with h; subst h; exact (inv_wait hn hI hpc).1
  | start i => rw [hpc] at h; injection h with h; subst h; exact inv_start hn hI hpc
  | reap i p d => rw [hpc] at h; injection h with h; subst h; exact inv_reap hn hI hpc
  | drain =>
    rw [hpc] at h hp; injection h with h; subst h
    refine hI.same (fun k => ⟨(s.job k).terminate, rfl⟩) rfl ?_ rfl rfl rfl ?_
    · by_cases ht : s.nrRunning = 0
      · rw [if_pos ht]; exact hp
      · rw [if_neg ht]; exact hp
    · intro h; by_cases ht : s.nrRunning = 0
      · exact ht
      · rw [if_neg ht] at h; cases h
  | done => rw [hpc] at h; cases h

theorem inv_step {a : Act} (hn : c.n ≤ 4096) (hI : Inv c s) (hP : Calm s a) (h : step c s a = some s') :
    Inv c s' := by
  cases a with
  | main => exact inv_main hn hI h
  | semTimeout => exact hP.elim
  | jobInit j => exact inv_jobInit hI h
  | jobExit j => exact inv_jobExit hI h
  | die j => exact inv_die hI h
  | term j => exact inv_term hI h
  | stuck j => exact hP.elim
  | tick d => exact inv_tick hI h

theorem inv_reach (hn : c.n ≤ 4096) (h : Reach c Calm s) : Inv c s := by
  induction h with
  | init => exact inv_init c
  | step a _ hP hs ih => exact inv_step hn ih hP hs

end Fio.Jobs
