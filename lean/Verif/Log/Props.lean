import Verif.Log.Lemmas
/-
C56: a log has an entry for each I/O, in the order of completion, and no buffer overflows.
-/
namespace Fio.Log

theorem job_parts {c ops j w} (e : job c ops = .ok (j, w)) :
    ∃ j0, run c ⟨setup c, 0, 0⟩ ops = .ok j0 ∧ reap c j0.inflight j0 = .ok j ∧ w = written j.log := by
  rw [job] at e
  cases hr : run c ⟨setup c, 0, 0⟩ ops with
  | error x => rw [hr] at e; cases e
  | ok j0 =>
    rw [hr] at e
    cases hq : reap c j0.inflight j0 with
    | error x => simp only [bind, Except.bind, hq] at e; cases e
    | ok j1 =>
      simp only [bind, Except.bind, hq] at e
      cases e
      exact ⟨j0, rfl, hq, rfl⟩

/-- What is written is the I/Os from the first one on, in order, none missing in between and none
twice, whatever the job does and whichever allocation fails. -/
theorem in_order {c ops j w} (e : job c ops = .ok (j, w)) : ∃ k, k ≤ j.done ∧ Spec.first k w := by
  obtain ⟨j0, h1, h2, rfl⟩ := job_parts e
  obtain ⟨k, h3, h4, _⟩ := written_ok (reap_ok (run_ok (setup_ok c) h1) h2).1
  exact ⟨k, h3, h4⟩

/-- If no allocation fails, and the I/Os that one wait reaps (`m`) and those in flight fit in the
pending chunk and in the next one, the job meets no assertion and writes behind no buffer; at most
`m + iodepth` entries at the end are not written. -/
theorem no_failure {c m ops} (f : Fine c) (q : Fits c m) (hw : ∀ n, Op.wait n ∈ ops → n ≤ m) :
    ∃ j w k, job c ops = .ok (j, w) ∧ Spec.first k w ∧ k ≤ j.done ∧ j.done ≤ k + (m + c.depth) := by
  obtain ⟨j0, e0, h0⟩ := run_safe f q (setup_safe c m) hw
  have h1 := h0.depth
  have h2 := h0.pend
  have h3 := q.room
  obtain ⟨j1, e1, h4, h5, _⟩ := complete_safe f (n := j0.inflight) (j := { j0 with inflight := 0 }) h0.safe
    (by simp only; omega)
  have e2 : reap c j0.inflight j0 = .ok j1 := by simpa [reap] using e1
  obtain ⟨k, h6, h7, h8⟩ := written_ok h4.ok
  refine ⟨j1, written j1.log, k, ?_, h7, h6, ?_⟩
  · simp only [job, e0, bind, Except.bind, e2]
  · have := h8 h4.on
    simp only at h5
    omega

theorem pendMax_default {c : Cfg} (hd : c.depth ≤ 2047) (h1 : 1 ≤ c.depth) : 1 + c.depth ≤ pendMax c := by
  rw [pendMax]
  split
  · rename_i hge
    have hl : Nat.log2 c.depth = 10 := by
      rw [Nat.log2_eq_iff (by omega)]
      omega
    rw [roundupPow2, if_neg (by omega)]
    simp only [Nat.add_sub_cancel, hl]
    omega
  · omega

/-- With the default iodepth_batch_complete_max = 1 and iodepth_low = iodepth, every iodepth up to 2047 does. -/
theorem fits_default {c : Cfg} (h1 : 1 ≤ c.depth) (hd : c.depth ≤ 2047) (he : 1024 ≤ c.entries) : Fits c 1 :=
  ⟨h1, pendMax_default hd h1, by omega⟩

/-- With any batches, every iodepth up to 512 does. -/
theorem fits_batch {c : Cfg} (h1 : 1 ≤ c.depth) (hd : c.depth ≤ 512) (he : 1024 ≤ c.entries) : Fits c c.depth :=
  ⟨h1, by rw [pendMax, if_neg (by omega)]; omega, by omega⟩

example : Fine ⟨1024, 2047, false, fun _ => false⟩ := ⟨fun _ => rfl, by decide, by decide⟩

example : Fits ⟨1024, 2047, false, fun _ => false⟩ 1 := fits_default (by decide) (by decide) (by decide)

/-- Every I/O that is started completes, and a queued one is refused only if the queue is full. -/
theorem all_complete {c ops j w} (e : job c ops = .ok (j, w)) : j.inflight = 0 ∧
    j.done ≤ (ops.map starts).sum ∧ (Op.queue ∉ ops → j.done = (ops.map starts).sum) ∧
    ((ops.map starts).sum ≤ c.depth → j.done = (ops.map starts).sum) := by
  obtain ⟨j0, h1, h2, _⟩ := job_parts e
  obtain ⟨h3, h4, h5⟩ := run_count (setup_ok c) h1
  obtain ⟨_, h6, h7⟩ := reap_ok (run_ok (setup_ok c) h1) h2
  simp only at h3 h4 h5
  refine ⟨by omega, by omega, fun hq => ?_, fun hq => ?_⟩
  · have := h4 hq; omega
  · have := h5 (by omega); omega

/-- A job whose I/Os complete when they are queued has every entry, and so has one that hands them to
workers: if no allocation fails there is no failure, and the file is complete. -/
theorem clean_complete {c ops} (f : Fine c) (hq : c.offload = true ∨ Op.queue ∉ ops) :
    ∃ j w, job c ops = .ok (j, w) ∧ Spec.complete j.done w := by
  have hz : np (setup c) = 0 := by
    simp only [np, setup]
    split <;> rename_i e <;> split at e <;> cases e <;> rfl
  obtain ⟨j0, e0, h0⟩ := run_clean (j := ⟨setup c, 0, 0⟩) f ⟨(setup_safe c 0).safe, hz, Or.inr rfl⟩ hq
  obtain ⟨j1, e1, h1⟩ := reap_clean f (n := j0.inflight) h0
  obtain ⟨k, h6, h7, h8⟩ := written_ok h1.safe.ok
  refine ⟨j1, written j1.log, ?_, ?_⟩
  · simp only [job, e0, bind, Except.bind, e1]
  · have := h8 h1.safe.on
    have := h1.np
    have hk : k = j1.done := by omega
    rw [Spec.complete, ← hk]
    exact h7

/-- A log that never fills its first chunk has every entry. -/
theorem short_complete {c m ops j w} (f : Fine c) (q : Fits c m) (hw : ∀ n, Op.wait n ∈ ops → n ≤ m)
    (e : job c ops = .ok (j, w)) (hs : j.done ≤ c.entries) : Spec.complete j.done w := by
  obtain ⟨j0, e0, h0⟩ := run_safe f q (setup_safe c m) hw
  have h1 := h0.depth
  have h2 := h0.pend
  have h3 := q.room
  obtain ⟨j1, e1, h4, h5, _⟩ := complete_safe f (n := j0.inflight) (j := { j0 with inflight := 0 }) h0.safe
    (by simp only; omega)
  have e2 : reap c j0.inflight j0 = .ok j1 := by simpa [reap] using e1
  have e3 : job c ops = .ok (j1, written j1.log) := by simp only [job, e0, bind, Except.bind, e2]
  rw [e3] at e
  cases e
  obtain ⟨k, h6, h7, h8⟩ := written_ok h4.ok
  have hk := h8 h4.on
  have hz : np j.log = 0 := by
    by_cases h9 : 0 < np j.log
    · obtain ⟨ch, hc, hf⟩ := np_full h4 h9
      have h10 := (h4.last ch hc).2.1
      have h11 := (h4.ok.cur ch hc).1
      have h12 := h7.1
      rw [written, hc] at h12
      simp only [Option.toList_some, List.cons_append, List.nil_append, List.flatMap_cons, List.length_reverse,
        List.length_append] at h12
      omega
    · omega
  have hk : k = j.done := by omega
  rw [Spec.complete, ← hk]
  exact h7

/-- The entries that are pending when the job ends are not in the file: with iodepth=1 and the default
log_entries, the last of 1025 I/Os is missing. -/
theorem lost_counterexample :
    (match job ⟨1024, 1, false, fun _ => false⟩ ((List.replicate 1024 [Op.queue, .wait 1]).flatten ++ [.queue]) with
      | .ok (j, w) => j.done == 1025 && w.length == 1024
      | .error _ => false) = true := by
  decide +kernel

/-- iodepth=600 with iodepth_batch_complete_max=600: the assertion on the pending entries fails. -/
theorem batch_counterexample :
    (match job ⟨1024, 600, false, fun _ => false⟩ (List.replicate 1024 Op.sync ++ List.replicate 600 .queue ++
        [.wait 600] ++ List.replicate 600 .queue ++ [.wait 600]) with
      | .error .assert => true
      | _ => false) = true := by
  decide +kernel

theorem run_append {c} : ∀ {a b j}, run c j (a ++ b) = (run c j a).bind (fun j => run c j b)
  | [], b, j => rfl
  | op :: a, b, j => by
    simp only [List.cons_append, run, bind, Except.bind]
    cases step c j op with
    | error e => rfl
    | ok j1 => exact run_append

/-- The job of the next example after `k` I/Os that complete at once. -/
def filled (d k : Nat) : Job :=
  ⟨⟨[], some ⟨down k, k, 1024⟩, 1024, some ⟨[], 0, pendMax ⟨1024, d, false, fun _ => false⟩⟩, false, false, 1⟩, 0, k⟩

theorem filled_sync (d : Nat) : ∀ n k m, k + n ≤ 1024 → m = k + n →
    run ⟨1024, d, false, fun _ => false⟩ (filled d k) (List.replicate n .sync) = .ok (filled d m)
  | 0, k, m, _, hm => by subst hm; rfl
  | n + 1, k, m, h, hm => by
    have h1 : step ⟨1024, d, false, fun _ => false⟩ (filled d k) .sync = .ok (filled d (k + 1)) := by
      have hk : k < 1024 := by omega
      simp [step, complete, add, curChunk, pushCur, Chunk.push, filled, hk, bind, Except.bind, check, down]
    rw [List.replicate_succ, run, h1]
    simp only [bind, Except.bind]
    exact filled_sync d n (k + 1) m (by omega) (by omega)

theorem run_queue (c : Cfg) : ∀ n j, j.inflight + n ≤ c.depth →
    run c j (List.replicate n .queue) = .ok { j with inflight := j.inflight + n }
  | 0, j, _ => rfl
  | n + 1, j, h => by
    have h1 : step c j .queue = .ok { j with inflight := j.inflight + 1 } := by
      rw [step, if_pos (by omega)]
    rw [List.replicate_succ, run, h1]
    simp only [bind, Except.bind]
    rw [run_queue c n _ (by simp only; omega)]
    simp only [Except.ok.injEq, Job.mk.injEq, true_and, and_true]
    omega

/-- I/Os that complete while the last chunk is full. -/
theorem complete_full (c : Cfg) (ho : c.offload = false) : ∀ n j ch p, j.log.disabled = false →
    j.log.cur = some ch → ¬ ch.nr < ch.max → j.log.pend = some p → p.nr + n ≤ p.max →
    ∃ j', complete c n j = .ok j' ∧ j'.log.cur = some ch ∧ j'.log.disabled = false ∧
      (∃ p', j'.log.pend = some p' ∧ p'.nr = p.nr + n ∧ p'.max = p.max) ∧ j'.inflight = j.inflight ∧
      j'.log.curMax = j.log.curMax ∧ (0 < n → j'.log.flag = true)
  | 0, j, ch, p, hd, hc, hf, hp, hn => ⟨j, rfl, hc, hd, ⟨p, hp, rfl, rfl⟩, rfl, rfl, by omega⟩
  | n + 1, j, ch, p, hd, hc, hf, hp, hn => by
    have e : add c j.log j.done = .ok { j.log with flag := true, pend := some ⟨j.done :: p.rev, p.nr + 1, p.max⟩ } := by
      have : p.nr < p.max := by omega
      simp [add, hd, curChunk, hc, hf, ho, pushPend, hp, this]
    rw [complete, e]
    obtain ⟨j', e', h1, h2, ⟨p', h3, h4, h5⟩, h6, h7, h8⟩ := complete_full c ho n
      { j with log := { j.log with flag := true, pend := some ⟨j.done :: p.rev, p.nr + 1, p.max⟩ }, done := j.done + 1 }
      ch ⟨j.done :: p.rev, p.nr + 1, p.max⟩ hd hc hf rfl (by simp only; omega)
    refine ⟨j', e', h1, h2, ⟨p', h3, by rw [h4]; simp only; omega, h5⟩, h6, h7, fun _ => ?_⟩
    by_cases hz : n = 0
    · subst hz
      cases e'
      rfl
    · exact h8 (by omega)

theorem roundup_gt (n : Nat) (h : 1 ≤ n) : n < roundupPow2 (n + 1) := by
  rw [roundupPow2, if_neg (by omega), Nat.add_sub_cancel]
  exact Nat.lt_log2_self

theorem fill (d n : Nat) (hn : n = 1023) :
    ∃ j ch p, run ⟨1024, d, false, fun _ => false⟩ ⟨setup ⟨1024, d, false, fun _ => false⟩, 0, 0⟩
      (List.replicate (n + 1) .sync) = .ok j ∧ j.inflight = 0 ∧ j.log.cur = some ch ∧ ¬ ch.nr < ch.max ∧
      j.log.pend = some p ∧ p.nr = 0 ∧ p.max = pendMax ⟨1024, d, false, fun _ => false⟩ ∧ j.log.disabled = false ∧
      j.log.flag = false ∧ j.log.curMax = 1024 := by
  refine ⟨filled d (n + 1), _, _, ?_, rfl, rfl, ?_, rfl, rfl, rfl, rfl, rfl, rfl⟩
  · rw [List.replicate_succ, run]
    have : step ⟨1024, d, false, fun _ => false⟩ ⟨setup ⟨1024, d, false, fun _ => false⟩, 0, 0⟩ .sync =
        .ok (filled d 1) := by
      simp [step, complete, add, curChunk, getNew, pushCur, Chunk.push, filled, setup, bind, Except.bind, check, down]
    rw [this]
    exact filled_sync d n 1 (n + 1) (by omega) (by omega)
  · simp only; omega

/-- Every iodepth from 2048 on, one I/O reaped at a time: the pending entries are copied behind the end
of the new chunk. -/
theorem deep_counterexample (d : Nat) (hd : 2048 ≤ d) :
    job ⟨1024, d, false, fun _ => false⟩ (List.replicate 1024 .sync ++ (List.replicate d .queue ++
        [.wait 1, .queue, .wait 1])) = .error .overflow := by
  have hm : d < pendMax ⟨1024, d, false, fun _ => false⟩ := by
    rw [pendMax, if_pos (by simp only; omega)]
    exact roundup_gt d (by omega)
  obtain ⟨j0, ch, p, e1, g1, g2, g3, g4, g5, g6, g7, g8, g9⟩ := fill d 1023 rfl
  have e2 := run_queue ⟨1024, d, false, fun _ => false⟩ d j0 (by simp [g1])
  obtain ⟨j1, e3, h1, h2, ⟨p1, h3, h4, h5⟩, h6, h7, h8⟩ := complete_full ⟨1024, d, false, fun _ => false⟩ rfl 1
    { j0 with inflight := d - 1 } ch p g7 g2 g3 g4 (by omega)
  have e4 : step ⟨1024, d, false, fun _ => false⟩ { j0 with inflight := d } (.wait 1) = .ok j1 := by
    have : min 1 d = 1 := by omega
    simp only [step, reap, this, g8, Bool.false_eq_true, if_false]
    exact e3
  have e5 : step ⟨1024, d, false, fun _ => false⟩ j1 .queue = .ok { j1 with inflight := d } := by
    have hlt : j1.inflight < d := by rw [h6]; simp only; omega
    have : j1.inflight + 1 = d := by rw [h6]; simp only; omega
    simp [step, hlt, this]
  obtain ⟨j2, e6, k1, k2, ⟨p2, k3, k4, k5⟩, k6, k7, k8⟩ := complete_full ⟨1024, d, false, fun _ => false⟩ rfl d
    { j1 with inflight := 0 } ch p1 h2 h1 g3 h3 (by omega)
  have e7 : step ⟨1024, d, false, fun _ => false⟩ { j1 with inflight := d } (.wait 1) = .error .overflow := by
    have hfl := h8 (by omega)
    have hr : reap ⟨1024, d, false, fun _ => false⟩ d { j1 with inflight := d } = .ok j2 := by
      simpa [reap] using e6
    have hcm : j2.log.curMax = 1024 := by rw [k7, h7]; exact g9
    have hp2 : p2.nr = d + 1 := by omega
    have hx : ¬ p2.nr = 0 := by omega
    have hy : p2.nr > 2048 := by omega
    simp [step, hfl, quiesce, hr, bind, Except.bind, check, k8 (by omega), regrows, regrow, k2, curChunk, k1,
      extend, getNew, hcm, k3, hx, hy, g3]
  have hrun : run ⟨1024, d, false, fun _ => false⟩ ⟨setup ⟨1024, d, false, fun _ => false⟩, 0, 0⟩
      (List.replicate (1023 + 1) .sync ++ (List.replicate d .queue ++ [.wait 1, .queue, .wait 1])) = .error .overflow := by
    rw [run_append, e1]
    simp only [Except.bind]
    rw [run_append, e2]
    have hz : j0.inflight + d = d := by omega
    simp only [Except.bind, hz, run, e4, bind, e5, e7]
  have hrun' : run ⟨1024, d, false, fun _ => false⟩ ⟨setup ⟨1024, d, false, fun _ => false⟩, 0, 0⟩
      (List.replicate 1024 .sync ++ (List.replicate d .queue ++ [.wait 1, .queue, .wait 1])) = .error .overflow := hrun
  rw [job, hrun']
  rfl

/-- When memory is short the message is "Will stop logging", but fio aborts 1024 I/Os later. -/
theorem nomem_counterexample :
    (match job ⟨1024, 1, false, fun k => decide (k ≥ 1)⟩ (List.replicate 2049 Op.sync) with
      | .error .assert => true
      | _ => false) = true := by
  decide +kernel

end Fio.Log
