import Verif.Files.Progress

/-
C64: examples, and what does not hold.
-/
namespace Fio.Files

/-- Always the first file. -/
def ask : Ev := .ask 0 (fun _ _ => 0)

/-- Three files, two I/Os each per turn. -/
example : (serve ⟨3, 3, .rr, 2⟩ (fun _ => 8) .start [ask, ask, .put 0, ask, ask, ask, .put 1, ask, ask]).out.reverse =
    [.file 0, .file 0, .file 1, .file 1, .file 2, .file 2, .file 0] := by decide

example : (List.range 7).map (roundRobin 3 2) = [0, 0, 1, 1, 2, 2, 0] := by decide

/-- Sequential: files of 2, 0 and 1 I/Os. -/
example : (serve ⟨3, 3, .seq, 1⟩ (fun i => if i = 0 then 2 else if i = 1 then 0 else 1) .start
      [ask, ask, .put 0, ask, ask]).out.reverse = [.file 0, .file 0, .file 2, .null] ∧
    inOrder (fun i => if i = 0 then 2 else if i = 1 then 0 else 1) 3 = [0, 0, 2] := by decide

/-- Round robin with openfiles=1: busy, until the first file is done and closed. -/
example : (serve ⟨2, 1, .rr, 1⟩ (fun _ => 2) .start [ask, ask, ask, ask, .put 0, .put 0, ask, ask, ask]).out.reverse =
    [.file 0, .busy, .file 0, .busy, .file 1, .file 1, .null] := by decide

/-- Nothing in flight, openfiles=1: busy once, not twice. -/
example : (serve ⟨2, 1, .rr, 1⟩ (fun _ => 2) .start [ask, .put 0]).st.holds 0 = 0 ∧
    (serve ⟨2, 1, .rr, 1⟩ (fun _ => 2) .start ([ask, .put 0] ++ [ask, ask])).out.reverse =
      [.file 0, .busy, .file 0] := by decide

/-- C64: with sequential service and openfiles=1, the files are not served in their order: if the first file is done but
has I/O in flight, the choice passes the second one, which must not be opened yet, and the next time goes on from the
third one. -/
theorem C64_sequential_counterexample :
    (serve ⟨3, 1, .seq, 1⟩ (fun _ => 1) .start [ask, ask, .put 0, ask]).out.reverse =
      [.file 0, .busy, .file 2] := by decide

theorem rand_spins {c : Cfg} {d : Nat → Nat × Outcome} (hd : ∀ k, (d k).1 < c.nr ∧ (d k).2 ≠ .later) {s : St}
    {h : Nat → Nat} (hi : Inv c s h)
    (hu : ∀ k, (s.files (d k).1).done = true ∨
      ((s.files (d k).1).opn = true ∧ (s.files (d k).1).closing = true) ∨
      ((s.files (d k).1).opn = false ∧ s.nrOpen < c.openFiles ∧ (d k).2 = .noOpen)) (n : Nat) :
    randLoop c d n 0 s = (.spin, s) := by
  have key : ∀ n k, randLoop c d n k s = (.spin, s) := by
    intro n
    induction n with
    | zero => intro k; rfl
    | succ n ih =>
      intro k
      rw [randLoop]
      have : tryFile c s (d k).1 (d k).2 = (.skip, s) := by
        rcases try_cases hi (hd k).1 (hd k).2 with h | h | h | h
        · exact h.1
        · rcases hu k with h' | h' | h'
          · rw [h.2.1] at h'; cases h'
          · rw [h.2.2.1] at h'; cases h'.1
          · have := h.2.2.2; omega
        · rcases hu k with h' | h' | h'
          · rw [h.2.1] at h'; cases h'
          · rw [h.2.2.2] at h'; cases h'.2
          · rw [h.2.2.1] at h'; cases h'.1
        · rcases hu k with h' | h' | h'
          · rw [h.2.1] at h'; cases h'
          · rw [h.2.2.1] at h'; cases h'.1
          · rw [h.2.2.2.2.1] at h'; cases h'.2.2
      rw [this]
      exact ih (k + 1)
  exact key n 0

/-- C64: with a random choice, a file that cannot be opened makes the job spin for ever, if it is the only one left:
get_next_file_rand does not look at td->error, and goes on after td_io_open_file has failed. -/
theorem C64_open_fails_counterexample (n m : Nat) :
    (setLoop ⟨1, 1, .random, 1⟩ n (fun _ => ⟨fun _ => .noOpen, fun _ => (0, .noOpen), fun _ => .ok⟩) m 0 init).1 =
      .spin := by
  cases m with
  | zero => rfl
  | succ m =>
    have h := rand_spins (c := ⟨1, 1, .random, 1⟩) (d := fun _ => (0, .noOpen)) (by simp) (init_inv (by simp))
      (by intro k; right; right; exact ⟨rfl, by decide, rfl⟩) n
    have hq : nextFile ⟨1, 1, .random, 1⟩ n ⟨fun _ => .noOpen, fun _ => (0, .noOpen), fun _ => .ok⟩ init =
        (.spin, init) := by
      unfold nextFile
      rw [if_neg (by decide)]
      show search _ n _ init = _
      unfold search
      simp only
      rw [h]
    rw [setLoop, hq]

/-- C64: with an uneven choice (zipf, pareto, normal), the job spins for ever if all files are about to be closed: a file
whose I/Os are used up is closed when its I/Os in flight have completed, and then begun anew, but the loop of
get_next_file_rand waits for this without looking for completions.  Here, with one file, an I/O is in flight when
fill_io_u fails. -/
theorem C64_closing_counterexample :
    ∃ as s, FairRun ⟨1, 1, .uneven, 1⟩ init as ∧ run ⟨1, 1, .uneven, 1⟩ init as = some s ∧ s.holds 0 = 1 ∧
      ∀ n m, (setLoop ⟨1, 1, .uneven, 1⟩ n (fun k => if k = 0 then easy .fail else easy .ok) m 0 s).1 = .spin := by
  have hgood : ∀ k, GoodEnv ⟨1, 1, .uneven, 1⟩ (easy k) := fun k => easy_good (by decide) k
  have hfair : FairRun ⟨1, 1, .uneven, 1⟩ init [.io 2 1 (fun _ => easy .ok)] :=
    ⟨⟨fun _ => hgood _, by simp⟩, fun _ _ => trivial⟩
  refine ⟨[.io 2 1 (fun _ => easy .ok)], _, hfair, rfl, by decide, ?_⟩
  intro n m
  -- the state after the first I/O
  generalize hs : (setHolds _ _ _ : St) = s
  cases m with
  | zero => rfl
  | succ m =>
    cases n with
    | zero => subst hs; rfl
    | succ n =>
      have hi : Inv ⟨1, 1, .uneven, 1⟩ s s.holds := by
        subst hs
        exact run_inv [.io 2 1 (fun _ => easy .ok)] init _ (init_inv (by decide)) hfair rfl
      -- the turn in which the file is given up
      obtain ⟨t, ht1, ht2, ht3⟩ : ∃ t, setLoop ⟨1, 1, .uneven, 1⟩ (n + 1) (fun k => if k = 0 then easy .fail else easy .ok)
          (m + 1) 0 s = setLoop ⟨1, 1, .uneven, 1⟩ (n + 1) (fun k => if k = 0 then easy .fail else easy .ok) m 1 t ∧
          ((t.files 0).opn = true ∧ (t.files 0).closing = true) ∧
          (t.nrDone = 0 ∧ t.left = 0 ∧ Inv ⟨1, 1, .uneven, 1⟩ t t.holds ∧ t.svc = some 0) := by
        obtain ⟨u, h1, h2, h3⟩ : ∃ u, nextFile ⟨1, 1, .uneven, 1⟩ (n + 1) (easy .fail) s = (.file 0, u) ∧
            u = s ∧ (s.files 0).opn = true ∧ (s.files 0).closing = false ∧ (s.files 0).refs = 2 ∧ s.holds 0 = 1 ∧
              s.nrDone = 0 ∧ s.left = 0 ∧ s.svc = some 0 := by
          subst hs
          exact ⟨_, rfl, rfl, by decide, by decide, by decide, by decide, by decide, by decide, by decide⟩
        subst h2
        obtain ⟨h3, h4, h5, h6, h7, h8, h9⟩ := h3
        obtain ⟨v, g1, g2, g3⟩ := get_inv hi h3
        have fr := get_frame g1
        obtain ⟨w, k1, k2, k3, k4, k5, k6, k7, k8, k9, k10, k11⟩ := giveUp_inv g2 (i := 0)
          (by rw [g3]; simp [setFile, h3]) (by rw [g3]; simp [setFile, h4]) false
        have ho : (w.files 0).opn = true := by
          cases ho : (w.files 0).opn with
          | true => rfl
          | false => have := ((k2.file 0).2.2 ho).2.1; omega
        refine ⟨w, ?_, ⟨ho, k9 ho⟩, ?_, ?_, ?_, ?_⟩
        · rw [setLoop]
          simp only [if_pos]
          rw [h1]
          simp only
          rw [g1]
          simp only
          rw [show (easy .fail).fill 0 = .fail from rfl]
          simp only
          rw [k1]
        · rw [k10, fr.nrDone, h7]; simp
        · rw [k7, fr.left, h8]
        · rw [show w.holds = u.holds by rw [k4, fr.holds]]; exact k2
        · rw [k6, fr.svc, h9]
      rw [ht1]
      cases m with
      | zero => rfl
      | succ m =>
        obtain ⟨h1, h2, h3, h4⟩ := ht3
        have hq : nextFile ⟨1, 1, .uneven, 1⟩ (n + 1) (easy .ok) t = (.spin, t) := by
          have := rand_spins (c := ⟨1, 1, .uneven, 1⟩) (d := (easy .ok).draws) (by simp [easy]) h3
            (by intro k; right; left; exact ht2) (n + 1)
          have hc : current t = none := by unfold current; rw [h4]; simp [ht2.1, ht2.2]
          unfold nextFile
          rw [if_neg (by rw [h1]; decide), hc]
          simp only
          unfold search
          simp only
          rw [this]
        rw [setLoop]
        rw [if_neg (by decide), hq]

/-- C64: verification may keep a job from going on: with openfiles=1, verify_backlog and round robin, the first file is
done and closed, is opened anew by get_next_verify, and is not closed any more, so that the second file is never
opened: from then on, with nothing in flight, every call of set_io_u_file says that it is busy. -/
theorem C64_verify_counterexample :
    ∃ as s, FairRun ⟨2, 1, .rr, 1⟩ init as ∧ run ⟨2, 1, .rr, 1⟩ init as = some s ∧ (∀ i, s.holds i = 0) ∧
      (s.files 1).done = false ∧
      ∀ bs, (∀ b ∈ bs, ∃ m n env, b = Act.io (m + 1) (n + 2) env) →
        ∃ t, run ⟨2, 1, .rr, 1⟩ s bs = some t ∧
          ∀ m n env, (setLoop ⟨2, 1, .rr, 1⟩ (n + 2) env (m + 1) 0 t).1 = .busy := by
  -- the state: the first file done and open, the second one neither
  let S : St → Prop := fun s => (s.files 0).done = true ∧ (s.files 1).done = false ∧ (s.files 1).opn = false ∧
    s.nrOpen = 1 ∧ s.nrDone = 1 ∧ s.left = 0 ∧ (s.next = 0 ∨ s.next = 1)
  have hS : ∀ s, S s → ∀ m n env, ∃ t, setLoop ⟨2, 1, .rr, 1⟩ (n + 2) env (m + 1) 0 s = (.busy, t) ∧ S t := by
    intro s ⟨h1, h2, h3, h4, h5, h6, h7⟩ m n env
    have hnx : nextFile ⟨2, 1, .rr, 1⟩ (n + 2) (env 0) s = search ⟨2, 1, .rr, 1⟩ (n + 2) (env 0) s := by
      unfold nextFile
      rw [if_neg (by rw [h5]; decide)]
      split
      · simp [h6]
      · rfl
    have htry0 : ∀ nx, tryFile ⟨2, 1, .rr, 1⟩ { s with next := nx } 0 ((env 0).opens 0) = (.skip, { s with next := nx }) := by
      intro nx; simp [tryFile, h1]
    have htry1 : ∀ nx, tryFile ⟨2, 1, .rr, 1⟩ { s with next := nx } 1 ((env 0).opens 1) = (.busy, { s with next := nx }) := by
      intro nx; simp [tryFile, h2, h3, h4]
    refine ⟨{ s with next := 0 }, ?_, h1, h2, h3, h4, h5, h6, .inl rfl⟩
    have hr : nextRr ⟨2, 1, .rr, 1⟩ (env 0).opens (n + 2) s = (.busy, { s with next := 0 }) := by
      unfold nextRr
      rcases h7 with h7 | h7
      · rw [h7]
        rw [rrLoop]
        simp only [h7]
        rw [show (if 0 + 1 ≥ 2 then 0 else 0 + 1) = 1 from rfl, htry0]
        simp only
        rw [if_pos (by decide), rrLoop]
        simp only
        rw [show (if 1 + 1 ≥ 2 then 0 else 1 + 1) = 0 from rfl]
        have := htry1 0
        rw [this]
      · rw [h7]
        rw [rrLoop]
        simp only [h7]
        rw [show (if 1 + 1 ≥ 2 then 0 else 1 + 1) = 0 from rfl, htry1]
    rw [setLoop, hnx]
    unfold search
    simp only
    rw [hr]
  refine ⟨[.io 3 2 (fun _ => easy .ok), .io 3 2 (fun _ => easy .ok), .io 3 2 (fun _ => easy .fail), .put 0,
    .verify 0 .ok, .put 0], _, ?_, rfl, ?_, by decide, ?_⟩
  · refine ⟨⟨fun _ => easy_good (by decide) _, by simp⟩, fun _ _ => ⟨⟨fun _ => easy_good (by decide) _, by simp⟩,
      fun _ _ => ⟨⟨fun _ => easy_good (by decide) _, by simp⟩,
        fun _ _ => ⟨trivial, fun _ _ => ⟨by simp [Fair], fun _ _ => ⟨trivial, fun _ _ => trivial⟩⟩⟩⟩⟩⟩
  · intro i
    by_cases h : i = 0
    · subst h; decide
    · simp [setFile, setHolds, init, h]
  · generalize hq : (setFile _ _ _ : St) = s
    have h0 : S s := by subst hq; refine ⟨?_, ?_, ?_, ?_, ?_, ?_, ?_⟩ <;> decide
    clear hq
    intro bs
    induction bs generalizing s with
    | nil =>
      intro _
      refine ⟨s, rfl, ?_⟩
      intro m n env
      obtain ⟨t, h1, _⟩ := hS s h0 m n env
      rw [h1]
    | cons b bs ih =>
      intro hb
      obtain ⟨m, n, env, e⟩ := hb b (by simp)
      subst e
      obtain ⟨t, h1, h2⟩ := hS s h0 m n env
      simp only [run, step]
      rw [h1]
      exact ih t h2 (fun b hb' => hb b (by simp [hb']))

/-- C64: with sequential service, a file that is done may be served again, if get_next_verify opens it while it is
still the current one (see above for how this comes about). -/
theorem C64_done_again_counterexample :
    ∃ as s, FairRun ⟨2, 1, .seq, 1⟩ init as ∧ run ⟨2, 1, .seq, 1⟩ init as = some s ∧ (s.files 0).done = true ∧
      (setLoop ⟨2, 1, .seq, 1⟩ 2 (fun _ => easy .ok) 3 0 s).1 = .file 0 := by
  refine ⟨[.io 3 2 (fun _ => easy .ok), .io 3 2 (fun _ => easy .fail), .put 0, .verify 0 .ok, .put 0], _, ?_, rfl,
    by decide, by decide⟩
  refine ⟨⟨fun _ => easy_good (by decide) _, by simp⟩, fun _ _ => ⟨⟨fun _ => easy_good (by decide) _, by simp⟩,
    fun _ _ => ⟨trivial, fun _ _ => ⟨by simp [Fair], fun _ _ => ⟨trivial, fun _ _ => trivial⟩⟩⟩⟩⟩

end Fio.Files
