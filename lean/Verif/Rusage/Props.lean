import Verif.Rusage.Model
/-
C61: the statistics thread does not wait for ever.
-/
namespace Fio.Rusage

/-- With sequential consistency. -/
structure Inv (s : St) : Prop where
  buf : s.sbuf = [] ∧ s.wbuf = []
  fin : s.fin = true → s.exited = true ∧ s.wpc ≠ .run
  fin' : s.fin = false → s.exited = false ∧ s.wpc ≠ .ended
  /-- The job answers a question once. -/
  answer : s.wpc = .clr ∨ s.wpc = .upd ∨ s.wpc = .up → s.value = 0 ∧ (s.spc = .look ∨ s.spc = .wait ∨ (s.spc = .unset ∨ s.spc = .idle) ∧ s.fin = true)
  /-- A token is an answer. -/
  token : s.value ≠ 0 → s.value = 1 ∧ (s.spc = .look ∨ s.spc = .wait ∨ (s.spc = .unset ∨ s.spc = .idle) ∧ s.exited = true) ∧
    (s.update = false) ∧ s.fresh = true
  upd : s.wpc = .upd ∨ s.wpc = .up → s.update = false
  clr : s.wpc = .clr → s.update = true ∨ s.spc = .idle ∧ s.exited = true
  up : s.wpc = .up → s.fresh = true
  idle : s.spc = .idle ∧ s.exited = false → s.update = false
  set : s.spc = .set → s.update = false ∧ s.value = 0
  cl : s.spc = .clear → s.update = false ∧ s.value = 0
  /-- A question is pending. -/
  wait : s.spc = .look ∨ s.spc = .wait → s.value = 1 ∨ s.update = true ∧ (s.spc = .wait → s.wpc ≠ .ended) ∨ s.wpc = .upd ∨ s.wpc = .up
  got : ∀ b ∈ s.got, b = true
  un : s.spc = .unset → s.exited = true
theorem init_inv : Inv init := by
  constructor <;> simp [init]

theorem stat_inv {s s2} (h : Inv s) (hs : stat false s = some s2) : Inv s2 := by
  obtain ⟨⟨b1, b2⟩, h1, h2, h3, h4, h5, h6, h7, h8, h9, h10, h11, h12, h13⟩ := h
  unfold stat at hs
  split at hs <;> simp only [b1, load, mem, sstore, put, List.reverse_nil, List.find?_nil] at hs <;> (try split at hs) <;> (try split at hs) <;>
    (try cases hs) <;> constructor <;> grind

theorem job_inv {s s2} (h : Inv s) (hs : job false s = some s2) : Inv s2 := by
  obtain ⟨⟨b1, b2⟩, h1, h2, h3, h4, h5, h6, h7, h8, h9, h10, h11, h12, h13⟩ := h
  unfold job at hs
  split at hs <;> (try simp only [b2, load, mem, wstore, put, back, List.reverse_nil, List.find?_nil] at hs) <;> (try split at hs) <;> (try split at hs) <;>
    (try cases hs) <;> cases hsp : s.spc <;> constructor <;> grind

theorem step_inv {s s2 a} (h : Inv s) (hs : step false s a = some s2) : Inv s2 := by
  cases a with
  | stat => exact stat_inv h hs
  | job => exact job_inv h hs
  | exit =>
    simp only [step] at hs
    split at hs
    · obtain ⟨⟨b1, b2⟩, h1, h2, h3, h4, h5, h6, h7, h8, h9, h10, h11, h12, h13⟩ := h
      simp only [wstore, put] at hs
      cases hs
      constructor <;> grind
    · cases hs
  | sflush => simp [step, h.buf.1] at hs
  | wflush => simp [step, h.buf.2] at hs

theorem run_inv : ∀ {l s s2}, Inv s → run false s l = some s2 → Inv s2
  | [], _, _, h, hr => by cases hr; exact h
  | a :: l, s, s2, h, hr => by
    simp only [run] at hr
    split at hr
    · cases hr
    · rename_i s1 hs
      exact run_inv (step_inv h hs) hr

/-- **C61.** If stores take effect at once, the statistics thread never waits for a job that has ended: it can go
on. -/
theorem no_deadlock {l s} (h : run false init l = some s) (he : s.wpc = .ended) : ∃ s2, stat false s = some s2 := by
  obtain ⟨⟨b1, b2⟩, h1, h2, h3, h4, h5, h6, h7, h8, h9, h10, h11, h12, h13⟩ := run_inv init_inv h
  unfold stat
  split
  · split <;> exact ⟨_, rfl⟩
  · exact ⟨_, rfl⟩
  · split <;> exact ⟨_, rfl⟩
  · exact ⟨_, rfl⟩
  · have := h11 (by grind)
    have : s.value ≠ 0 := by grind
    simp [b1, this]
  · exact ⟨_, rfl⟩

/-- The steps of a check_update_rusage. -/
theorem answers {l s} (h : run false init l = some s) (hw : s.spc = .wait) (hv : s.value = 0) :
    ∃ n s2, n ≤ 5 ∧ run false s (List.replicate n .job) = some s2 ∧ s2.value = 1 ∧ s2.spc = .wait := by
  obtain ⟨⟨b1, b2⟩, h1, h2, h3, h4, h5, h6, h7, h8, h9, h10, h11, h12, h13⟩ := run_inv init_inv h
  have h11 := h11 (Or.inr hw)
  obtain ⟨u, e, v, sp, wp, f, sb, wb, fr, g⟩ := s
  simp only at *
  subst b1 b2 hw hv
  cases wp
  · obtain rfl : u = true := by grind
    exact ⟨5, _, by omega, rfl, rfl, rfl⟩
  · obtain rfl : u = true := by grind
    exact ⟨4, _, by omega, rfl, rfl, rfl⟩
  · exact ⟨3, _, by omega, rfl, rfl, rfl⟩
  · exact ⟨2, _, by omega, rfl, rfl, rfl⟩
  · exact ⟨1, _, by omega, rfl, rfl, rfl⟩
  · grind

/-- **C61.** Every answer is fresh: the job has updated its usage after it was asked. -/
theorem fresh {l s} (h : run false init l = some s) : ∀ b ∈ s.got, b = true := (run_inv init_inv h).got

/-- **C61.** The semaphore is used as `Sem.Simple` asks: it never has more than one token. -/
theorem one_token {l s} (h : run false init l = some s) : s.value ≤ 1 := by
  by_cases hv : s.value = 0
  · omega
  · have := ((run_inv init_inv h).token hv).1
    omega

/-- On x86, the store of `update_rusage` may still be in the buffer when the statistics thread looks at the state of the
job, and that of the state when the job looks at `update_rusage`: the job ends without an answer, and the
statistics thread waits for ever. -/
theorem tso_counterexample : ∃ s, run true init [.stat, .stat, .exit, .stat, .job, .sflush, .wflush] = some s ∧
    s.wpc = .ended ∧ s.spc = .wait ∧ ∀ a, step true s a = none :=
  ⟨_, rfl, rfl, rfl, by intro a; cases a <;> rfl⟩

/-- Two questions, the second while the job ends. -/
example : ∃ s, run false init [.stat, .stat, .stat, .job, .job, .job, .job, .job, .stat, .stat, .stat, .stat, .stat,
    .exit, .job, .job, .job, .job, .stat, .stat, .stat] = some s ∧ s.wpc = .ended ∧ s.spc = .idle ∧ s.got = [true, true] :=
  ⟨_, rfl, rfl, rfl, rfl⟩

end Fio.Rusage
