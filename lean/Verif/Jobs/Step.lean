import Verif.Jobs.Lemmas
namespace Fio.Jobs

variable {c : Cfg} {s s' : St}

theorem PcOk.swap (h : PcOk c s) {j : Nat} (hrs : ∀ k, k ≠ j → (s'.job k).rs = (s.job k).rs)
    (h1 : (s.job j).rs.isStarted = false) (h2 : (s'.job j).rs.isStarted = false) (hpc : s'.pc = s.pc) :
    PcOk c s' := by
  have a1 : (s.job j).rs ≠ .created := fun h => by rw [h] at h1; cases h1
  have a2 : (s.job j).rs ≠ .initialized := fun h => by rw [h] at h1; cases h1
  have a3 : (s'.job j).rs ≠ .created := fun h => by rw [h] at h2; cases h2
  have a4 : (s'.job j).rs ≠ .initialized := fun h => by rw [h] at h2; cases h2
  unfold PcOk at *
  rw [hpc]
  cases hq : s.pc <;> simp only [hq] at h ⊢ <;> grind

theorem inv_jobInit {j : Nat} (hI : Inv c s) (h : step c s (.jobInit j) = some s') : Inv c s' := by
  simp only [step] at h
  split at h
  · next hc =>
    obtain ⟨hj, hr, hd⟩ := hc
    injection h with h; subst h
    obtain ⟨h1, h2, h3, h4, h5, h6, h7, h8, h9, h10, h11, h12, h13, h14, h15⟩ := hI.job j
    refine hI.upd j _ hj rfl (Or.inl rfl) ?_ ?_ ?_ ?_ rfl hI.alone hI.waits hI.done
      (by simp [evs, hr, St.upd])
    · constructor <;> grind [St.upd]
    · have hp := hI.pc
      unfold PcOk at *
      have e : (s.upd j (fun q => { q with rs := .initialized, pid := true })).pc = s.pc := rfl
      rw [e]
      cases hpc : s.pc <;> simp only [hpc] at hp ⊢ <;> grind [St.upd, Rs.isStarted]
    · rw [hr]; rfl
    · rw [hr]; rfl
  · cases h

theorem inv_jobExit {j : Nat} (hI : Inv c s) (h : step c s (.jobExit j) = some s') : Inv c s' := by
  simp only [step] at h
  split at h
  · next hc =>
    obtain ⟨hj, hr, he, hd⟩ := hc
    injection h with h; subst h
    obtain ⟨h1, h2, h3, h4, h5, h6, h7, h8, h9, h10, h11, h12, h13, h14, h15⟩ := hI.job j
    have hrs : (s.job j).rs = .running := by
      cases hq : (s.job j).rs <;> grind
    refine hI.upd j (fun q => { q with rs := .exited, ended := true }) hj rfl (Or.inr ⟨_, rfl, rfl⟩) ?_ ?_ ?_ ?_ rfl ?_ ?_ hI.done ?_
    · constructor <;> grind [St.upd]
    · refine hI.pc.swap (j := j) (fun k hk => ?_) (by rw [hrs]; rfl) ?_ rfl
      · show ((s.upd j (fun q => { q with rs := .exited, ended := true })).job k).rs = _
        rw [upd_ne s _ hk]
      · show ((s.upd j (fun q => { q with rs := .exited, ended := true })).job j).rs.isStarted = _
        rw [upd_eq]; rfl
    · rw [hrs]; rfl
    · rw [hrs]; rfl
    · exact alone_cons hI.alone (fun _ h => by cases h)
    · exact waits_cons hI.waits (fun _ _ h => by cases h)
    · simp [evs, hrs, he]; omega
  · cases h

theorem inv_die {j : Nat} (hI : Inv c s) (h : step c s (.die j) = some s') : Inv c s' := by
  simp only [step] at h
  split at h
  · next hc =>
    obtain ⟨hj, ht, hr, he, hd⟩ := hc
    injection h with h; subst h
    obtain ⟨h1, h2, h3, h4, h5, h6, h7, h8, h9, h10, h11, h12, h13, h14, h15⟩ := hI.job j
    refine hI.upd j (fun q => { q with dead := true }) hj rfl (Or.inr ⟨_, rfl, rfl⟩) ?_ ?_ ?_ ?_ rfl ?_ ?_ hI.done ?_
    · constructor <;> grind [St.upd]
    · refine hI.pc.of_rs (fun k => ?_) rfl
      show ((s.upd j (fun q => { q with dead := true })).job k).rs = _
      by_cases hk : k = j
      · subst hk; rw [upd_eq]
      · rw [upd_ne s _ hk]
    · rfl
    · rfl
    · exact alone_cons hI.alone (fun _ h => by cases h)
    · exact waits_cons hI.waits (fun _ _ h => by cases h)
    · simp [evs, hd]; omega
  · cases h

theorem inv_term {j : Nat} (hI : Inv c s) (h : step c s (.term j) = some s') : Inv c s' := by
  simp only [step] at h
  split at h
  · injection h with h; subst h
    refine hI.same (fun k => ?_) rfl (hI.pc.of_rs (fun k => ?_) rfl) rfl rfl rfl hI.done
    · by_cases hk : k = j
      · subst hk; exact ⟨true, upd_eq _ _ _⟩
      · exact ⟨(s.job k).terminate, by rw [upd_ne s _ hk]⟩
    · by_cases hk : k = j
      · subst hk; rw [upd_eq]
      · rw [upd_ne s _ hk]
  · cases h

theorem inv_tick {d : Nat} (hI : Inv c s) (h : step c s (.tick d) = some s') : Inv c s' := by
  simp only [step] at h
  injection h with h; subst h
  exact hI.same (fun k => ⟨(s.job k).terminate, rfl⟩) rfl (hI.pc.of_rs (fun _ => rfl) rfl) rfl rfl rfl hI.done

/-- With no job created or initialized and none running, all are not yet created or reaped. -/
theorem Inv.idle (hI : Inv c s) (h1 : s.nrStarted = 0) (h2 : s.nrRunning = 0) (k : Nat) :
    (s.job k).rs = .notCreated ∨ (s.job k).rs = .reaped := by
  by_cases hk : k < c.n
  · have a := cnt_zero (by rw [← hI.started]; exact h1) k hk
    have b := cnt_zero (by rw [← hI.running]; exact h2) k hk
    cases hq : (s.job k).rs <;> simp [hq, Rs.isStarted, Rs.isRunning] at a b ⊢
  · exact hI.far k (by omega)

theorem Inv.over (hI : Inv c s) {k : Nat} (h : (s.job k).rs.over = true) : Over c s.log k := by
  obtain ⟨h1, h2, h3, h4, h5, h6, h7, h8, h9, h10, h11, h12, h13, h14, h15⟩ := hI.job k
  unfold Over
  rw [h14, h15]
  cases hq : (s.job k).rs <;> rw [hq] at h <;> simp [Rs.over] at h <;> cases hf : (c.job k).failed <;> grind

theorem not_waitee (h : waiteeRunning c s i = false) {w k : Nat} (hw : (c.job i).waitFor = some w)
    (hk : k < c.n) (hn : (c.job k).name = w) (hne : (c.job i).name ≠ w) : (s.job k).rs.over = true := by
  unfold waiteeRunning at h
  rw [hw] at h
  simp only [List.any_eq_false, List.mem_range] at h
  have := h k hk
  cases hq : (s.job k).rs.over
  · exfalso; apply this; rw [hq]; simp [hn]; exact fun h => hne h.symm
  · rfl

theorem inv_create {i : Nat} {map : List Nat} (hn : c.n ≤ 4096) (hI : Inv c s) (hpc : s.pc = .create i map) :
    Inv c (createStep c s i map) := by
  have hp := hI.pc
  unfold PcOk at hp
  rw [hpc] at hp
  obtain ⟨hp1, hp2⟩ := hp
  have hadv : ∀ td, Inv c { s with todo := td, pc := .create (i + 1) map } := fun td =>
    hI.same (fun k => ⟨(s.job k).terminate, rfl⟩) rfl ⟨hp1, hp2⟩ rfl rfl rfl (fun h => by cases h)
  have hwait : Inv c { s with pc := .wait map } :=
    hI.same (fun k => ⟨(s.job k).terminate, rfl⟩) rfl ⟨hp1, hp2⟩ rfl rfl rfl (fun h => by cases h)
  unfold createStep
  split
  · next hi =>
    split
    · exact hadv s.todo
    next hnc =>
    have hnc : (s.job i).rs = .notCreated := Decidable.of_not_not hnc
    split
    · exact hadv _
    split
    · exact hadv s.todo
    split
    · exact hwait
    next hst =>
    split
    · exact hadv s.todo
    next hwt =>
    have hwt : waiteeRunning c s i = false := by cases h : waiteeRunning c s i <;> simp_all
    obtain ⟨h1, h2, h3, h4, h5, h6, h7, h8, h9, h10, h11, h12, h13, h14, h15⟩ := hI.job i
    have hle : s.nrStarted ≤ c.n := by rw [hI.started]; exact cnt_le _ _
    refine hI.upd i (fun j => { j with rs := .created }) hi rfl (Or.inr ⟨_, rfl, rfl⟩) ?_ ?_ ?_ ?_ rfl ?_ ?_ (fun h => by cases h) ?_
    · constructor <;> grind [St.upd]
    · refine ⟨hi, ?_, fun k hk => ?_, fun k hk => ?_⟩
      · show ((s.upd i (fun j => { j with rs := .created })).job i).rs.isStarted = true
        rw [upd_eq]; rfl
      · show ((s.upd i (fun j => { j with rs := .created })).job k).rs ≠ _
        rw [upd_ne s _ hk]; exact hp1 k
      · by_cases hki : k = i
        · exact Or.inl hki
        · right
          show ((s.upd i (fun j => { j with rs := .created })).job k).rs = _
          rw [upd_ne s _ hki]
          rcases List.mem_append.1 hk with h | h
          · exact hp2 k h
          · exact absurd (List.mem_singleton.1 h) hki
    · show inc s.nrStarted + _ = _
      rw [hnc, inc_eq (by omega)]; rfl
    · rw [hnc]; rfl
    · refine alone_cons hI.alone (fun j hj hs k hk => ?_)
      injection hj with hj; subst hj
      have hz : s.nrStarted = 0 ∧ s.nrRunning = 0 := by
        refine ⟨?_, ?_⟩ <;> grind
      have hq := hI.idle hz.1 hz.2 k
      have hjk := hI.job k
      have hcnt : s.log.count (.create k) ≠ 0 := fun h => List.count_eq_zero.1 h hk
      have hnr : (s.job k).rs = .reaped ∧ (c.job k).failed = false := by
        rw [hjk.lc] at hcnt
        split at hcnt
        · next h => exact ⟨hq.resolve_left h.1, h.2⟩
        · exact absurd rfl hcnt
      refine ⟨hI.over (by rw [hnr.1]; rfl), ?_⟩
      have := hjk.lr
      rw [if_pos hnr] at this
      exact List.count_pos_iff.1 (by omega)
    · refine waits_cons hI.waits (fun j w hj hw k hk hkn hne => ?_)
      injection hj with hj; subst hj
      exact hI.over (not_waitee hwt hw hk hkn hne)
    · simp [evs, hnc, h2 hnc]; omega
  · exact hwait

end Fio.Jobs
