import Verif.SyncEng.Spec

/-! C79: the `sync` engine transfers every unit at its offset. -/

namespace Fio.SyncEng

/-- The engine knows where the file positions are. -/
def Sync (s : St) : Prop := ∀ f, s.last f = s.pos f

theorem Sync_init : Sync init := fun _ => rfl

theorem prep_pos (s : St) (u : U) (hs : Sync s) (hd : ddirRw u.dir = true) : (prep s u).pos u.file = u.off := by
  unfold prep
  rw [hd]
  simp only [Bool.not_true, Bool.false_eq_true, if_false]
  split
  · rename_i h; rw [← hs, h]
  · simp [upd]

theorem prep_sync (s : St) (u : U) (hd : u.dir = .sync) : prep s u = s := by
  unfold prep; simp [hd, ddirRw]

theorem prep_other (s : St) (u : U) (f : Nat) (hf : f ≠ u.file) : (prep s u).pos f = s.pos f ∧ (prep s u).last f = s.last f := by
  unfold prep; split
  · simp
  · split
    · simp
    · simp [upd, hf]

/-- A plain event leaves the engine knowing the positions, and its transfer is in the right place. -/
theorem step_plain (s : St) (e : Ev) (hs : Sync s) (hp : Plain e) :
    Sync (step s e).1 ∧ ∀ p, (step s e).2 = some p → Placed p := by
  cases e with
  | reopen f =>
    refine ⟨fun g => ?_, fun p h => by cases h⟩
    show upd s.last f 0 g = upd s.pos f 0 g
    unfold upd; split
    · rfl
    · exact hs g
  | drop u =>
    refine ⟨?_, fun p h => by cases h⟩
    have : prep s u = s := prep_sync s u hp
    show Sync (prep s u)
    rw [this]; exact hs
  | io u r =>
    have hoth := prep_other s u
    cases hd : u.dir with
    | trim => cases r <;> simp [Plain, hd] at hp
    | sync =>
      have h0 := prep_sync s u hd
      constructor
      · show Sync (queue (prep s u) u r).1
        rw [h0]
        unfold queue ioEnd
        cases r <;> simp [hd, ddirRw]
        · split <;> exact hs
        · exact hs
      · intro p h
        have : (queue (prep s u) u r).2.2 = none := by unfold queue; simp [hd]
        simp [step, this] at h
    | read =>
      cases r with
      | fail e => simp [Plain, hd] at hp
      | ok n =>
        have hpos := prep_pos s u hs (by rw [hd]; rfl)
        constructor
        · intro g
          by_cases hg : g = u.file
          · subst hg
            simp only [step, queue, hd, kernelRw, ioEnd, ddirRw, if_true]
            split <;> simp [upd, hpos]
          · have := hoth g hg
            have h2 := hs g
            simp only [step, queue, hd, kernelRw, ioEnd, ddirRw, if_true]
            split <;> simp [upd, hg, this, h2]
        · intro p h
          simp only [step, queue, hd, kernelRw] at h
          simp at h
          subst h
          exact ⟨hpos, rfl, hd.symm, Nat.min_le_right _ _⟩
    | write =>
      cases r with
      | fail e => simp [Plain, hd] at hp
      | ok n =>
        have hpos := prep_pos s u hs (by rw [hd]; rfl)
        constructor
        · intro g
          by_cases hg : g = u.file
          · subst hg
            simp only [step, queue, hd, kernelRw, ioEnd, ddirRw, if_true]
            split <;> simp [upd, hpos]
          · have := hoth g hg
            have h2 := hs g
            simp only [step, queue, hd, kernelRw, ioEnd, ddirRw, if_true]
            split <;> simp [upd, hg, this, h2]
        · intro p h
          simp only [step, queue, hd, kernelRw] at h
          simp at h
          subst h
          exact ⟨hpos, rfl, hd.symm, Nat.min_le_right _ _⟩

theorem run_plain (es : List Ev) : ∀ s, Sync s → (∀ e ∈ es, Plain e) → ∀ p ∈ run s es, Placed p := by
  induction es with
  | nil => intro s _ _ p h; simp [run] at h
  | cons e es ih =>
    intro s hs hp p h
    have h1 := step_plain s e hs (hp e (List.mem_cons_self ..))
    have hp' : ∀ e ∈ es, Plain e := fun x hx => hp x (List.mem_cons_of_mem _ hx)
    unfold run at h
    dsimp only at h
    split at h
    · exact ih _ h1.1 hp' p h
    · rename_i x hx
      rcases List.mem_cons.1 h with h | h
      · exact h ▸ h1.2 x hx
      · exact ih _ h1.1 hp' p h

/-- **C79** `sync`: in a job without trims, without failing transfers and without units that are prepared but not
queued, every transfer is at the offset of its unit, whatever the order of offsets, files and directions and however
short the transfers.  Missing for the full claim: the three other cases, in which it does not hold, see
`C79_trim_counterexample`, `C79_error_counterexample`, `C79_drop_counterexample`. -/
theorem C79_sync_partial (es : List Ev) (h : ∀ e ∈ es, Plain e) : ∀ p ∈ run init es, Placed p :=
  run_plain es init Sync_init h

/-- And no data transfer is left out: in a plain job, the transfers are those of the reads and writes, in order. -/
theorem C79_all_partial (es : List Ev) : ∀ s, (∀ e ∈ es, Plain e) →
    (run s es).map (·.1) = es.filterMap fun e => match e with
      | .io u _ => if u.dir = .read ∨ u.dir = .write then some u else none
      | _ => none := by
  induction es with
  | nil => intro s _; rfl
  | cons e es ih =>
    intro s hp
    have hp' : ∀ e ∈ es, Plain e := fun x hx => hp x (List.mem_cons_of_mem _ hx)
    have he := hp e (List.mem_cons_self ..)
    unfold run
    dsimp only
    cases e with
    | reopen f => simpa [step] using ih _ hp'
    | drop u => simpa [step] using ih _ hp'
    | io u r =>
      cases hd : u.dir <;> cases r <;> simp [Plain, hd] at he <;>
        simp [step, queue, hd, kernelRw, ih _ hp']

/-- **C79** `psync`: every transfer, of reads, writes and trims, is at the offset of its unit, whatever happened
before. -/
theorem C79_psync (es : List Ev) : ∀ s, ∀ p ∈ prun s es, Placed p := by
  induction es with
  | nil => intro s p h; simp [prun] at h
  | cons e es ih =>
    intro s p h
    unfold prun at h
    dsimp only at h
    split at h
    · exact ih _ p h
    · rename_i x hx
      rcases List.mem_cons.1 h with h | h
      · subst h
        cases e with
        | reopen f => simp [pstep] at hx
        | drop u => simp [pstep] at hx
        | io u r =>
          cases hd : u.dir <;> cases r <;> simp [pstep, pqueue, hd, kernelPrw, doTrim] at hx <;> subst hx <;>
            simp [Placed, hd] <;> omega
      · exact ih _ p h

/-- **C79** Exactly when it goes wrong: a read or write is done in the wrong place if and only if the engine takes the
position to be right already and it is not. -/
theorem C79_wrong_iff (s : St) (u : U) (n : Nat) (hd : u.dir = .read ∨ u.dir = .write) :
    (∃ p, (step s (.io u (.ok n))).2 = some p ∧ ¬ Placed p) ↔ (s.last u.file = u.off ∧ s.pos u.file ≠ u.off) := by
  have key : (step s (.io u (.ok n))).2 = some (u, ⟨u.dir, u.file, (prep s u).pos u.file, min n u.len⟩) := by
    rcases hd with hd | hd <;> simp [step, queue, hd, kernelRw]
  have hw : ddirRw u.dir = true := by rcases hd with hd | hd <;> rw [hd] <;> rfl
  have hpos : (prep s u).pos u.file = if s.last u.file = u.off then s.pos u.file else u.off := by
    unfold prep
    rw [hw]
    simp only [Bool.not_true, Bool.false_eq_true, if_false]
    split
    · rfl
    · simp [upd]
  constructor
  · rintro ⟨p, hp, hn⟩
    rw [key] at hp
    have := Option.some.inj hp
    subst this
    by_cases hl : s.last u.file = u.off
    · refine ⟨hl, fun hp => hn ⟨?_, rfl, rfl, Nat.min_le_right _ _⟩⟩
      show (prep s u).pos u.file = u.off
      rw [hpos, if_pos hl, hp]
    · exact absurd ⟨by show (prep s u).pos u.file = u.off; rw [hpos, if_neg hl], rfl, rfl, Nat.min_le_right _ _⟩ hn
  · rintro ⟨hl, hp⟩
    refine ⟨_, key, fun h => hp ?_⟩
    have : (prep s u).pos u.file = u.off := h.1
    rw [hpos, if_pos hl] at this
    exact this

/-! ## A unit to its end -/

theorem ioEnd_ok (s : St) (u : U) (n : Nat) (h : n ≤ u.len) (hr : u.resid = 0) (he : u.err = 0) :
    (ioEnd s u (.ok n)).2 = { u with resid := u.len - n } := by
  unfold ioEnd
  dsimp only
  split
  · rw [he]
  · rename_i hn
    simp only [ne_eq, Decidable.not_not] at hn
    subst hn
    cases u; simp_all

theorem queue_data (s : St) (u : U) (n : Nat) (hd : u.dir = .read ∨ u.dir = .write) (hr : u.resid = 0)
    (he : u.err = 0) :
    (queue s u (.ok n)).2 = ({ u with resid := u.len - min n u.len },
      some ⟨u.dir, u.file, s.pos u.file, min n u.len⟩) := by
  have := fun s' => ioEnd_ok s' u (min n u.len) (Nat.min_le_right _ _) hr he
  rcases hd with hd | hd <;> simp [queue, hd, kernelRw, this]

/-- **C79** A read or write which the kernel does in parts is complete in the end, or ends with an error or a transfer
of nothing: the parts follow each other from the offset of the unit, and if it is reported as complete they reach its
end. -/
theorem C79_parts (rs : List Res) : ∀ (s : St) (u : U), Sync s → (u.dir = .read ∨ u.dir = .write) → u.resid = 0 →
    u.err = 0 → (∀ r ∈ rs, ∀ e, r = .fail e → 0 < e) →
    (∃ q, Chain (complete s u rs).1 u.off q ∧ q ≤ u.off + u.len ∧
      ((complete s u rs).2 = true → q = u.off + u.len)) ∧
    ∀ x ∈ (complete s u rs).1, x.dir = u.dir ∧ x.file = u.file := by
  induction rs with
  | nil =>
    intro s u _ _ _ _ _
    exact ⟨⟨u.off, rfl, Nat.le_add_right _ _, fun h => by cases h⟩, fun x h => by simp [complete] at h⟩
  | cons r rs ih =>
    intro s u hs hd hr he hpos
    have hw : ddirRw u.dir = true := by rcases hd with hd | hd <;> rw [hd] <;> rfl
    have hp := prep_pos s u hs hw
    cases r with
    | fail e =>
      have h0 : 0 < e := hpos _ (List.mem_cons_self ..) e rfl
      have hq : (queue (prep s u) u (.fail e)).2 = ({ u with err := e }, none) := by
        rcases hd with hd | hd <;> simp [queue, hd, kernelRw, ioEnd]
      have hc : complete s u (.fail e :: rs) = ([], false) := by
        unfold complete
        dsimp only
        rw [hq]
        have : rest { u with err := e } = none := by unfold rest; rw [if_pos (by show e ≠ 0; omega)]
        rw [this]
        simp; omega
      rw [hc]
      exact ⟨⟨u.off, rfl, Nat.le_add_right _ _, fun h => by cases h⟩, fun x h => by simp at h⟩
    | ok n =>
      have hq := queue_data (prep s u) u n hd hr he
      have hsy : Sync (queue (prep s u) u (.ok n)).1 :=
        (step_plain s (.io u (.ok n)) hs (by show u.dir ≠ .trim; rcases hd with hd | hd <;> rw [hd] <;> simp)).1
      rw [hp] at hq
      unfold complete
      dsimp only
      rw [hq]
      dsimp only
      generalize hm : min n u.len = m at hq ⊢
      have hml : m ≤ u.len := hm ▸ Nat.min_le_right _ _
      by_cases hfull : u.len - m = 0
      · have : rest { u with resid := u.len - m } = none := by
          unfold rest; rw [if_neg (by show ¬ (u.err ≠ 0); omega), if_pos hfull]
        rw [this]
        refine ⟨⟨u.off + m, ⟨rfl, rfl⟩, by omega, fun _ => by omega⟩, ?_⟩
        intro x hx
        simp at hx
        subst hx
        exact ⟨rfl, rfl⟩
      · by_cases hz : m = 0
        · have : rest { u with resid := u.len - m } = none := by
            unfold rest
            rw [if_neg (by show ¬ (u.err ≠ 0); omega), if_neg hfull,
              if_pos (by show u.len - (u.len - m) = 0; omega)]
          rw [this]
          refine ⟨⟨u.off + m, ⟨rfl, rfl⟩, by omega, fun h => ?_⟩, ?_⟩
          · simp at h; omega
          · intro x hx
            simp at hx
            subst hx
            exact ⟨rfl, rfl⟩
        · have : rest { u with resid := u.len - m } = some { u with off := u.off + m, len := u.len - m, resid := 0 } := by
            unfold rest
            rw [if_neg (by show ¬ (u.err ≠ 0); omega), if_neg hfull,
              if_neg (by show ¬ (u.len - (u.len - m) = 0); omega)]
            have : u.len - (u.len - m) = m := by omega
            simp [this]
          rw [this]
          dsimp only
          obtain ⟨⟨q, h1, h2, h3⟩, h4⟩ := ih _ { u with off := u.off + m, len := u.len - m, resid := 0 } hsy hd rfl he
            (fun r hr => hpos r (List.mem_cons_of_mem _ hr))
          have h2' : q ≤ u.off + m + (u.len - m) := h2
          refine ⟨⟨q, ⟨rfl, h1⟩, by omega, fun h => ?_⟩, ?_⟩
          · have : q = u.off + m + (u.len - m) := h3 h
            omega
          · intro x hx
            rcases List.mem_cons.1 hx with hx | hx
            · subst hx; exact ⟨rfl, rfl⟩
            · exact h4 x hx

/-- **C79** It is complete if the kernel keeps moving something: with as many answers of at least one byte as the unit
has bytes (and a unit that is not empty) it is. -/
theorem C79_parts_end (rs : List Res) : ∀ (s : St) (u : U), (u.dir = .read ∨ u.dir = .write) → u.resid = 0 →
    u.err = 0 → 0 < u.len → u.len ≤ rs.length → (∀ r ∈ rs, ∃ n, 0 < n ∧ r = .ok n) → (complete s u rs).2 = true := by
  induction rs with
  | nil => intro s u _ _ _ h1 h2 _; simp at h2; omega
  | cons r rs ih =>
    intro s u hd hr he h1 h2 h3
    obtain ⟨n, hn, rfl⟩ := h3 r (List.mem_cons_self ..)
    have hq := queue_data (prep s u) u n hd hr he
    unfold complete
    dsimp only
    rw [hq]
    dsimp only
    generalize hm : min n u.len = m at hq ⊢
    have hml : m ≤ u.len := hm ▸ Nat.min_le_right _ _
    have hm0 : 0 < m := by omega
    by_cases hfull : u.len - m = 0
    · have : rest { u with resid := u.len - m } = none := by
        unfold rest; rw [if_neg (by show ¬ (u.err ≠ 0); omega), if_pos hfull]
      rw [this]
      simp [he, hfull]
    · have : rest { u with resid := u.len - m } = some { u with off := u.off + m, len := u.len - m, resid := 0 } := by
        unfold rest
        rw [if_neg (by show ¬ (u.err ≠ 0); omega), if_neg hfull,
          if_neg (by show ¬ (u.len - (u.len - m) = 0); omega)]
        have : u.len - (u.len - m) = m := by omega
        simp [this]
      rw [this]
      refine ih _ { u with off := u.off + m, len := u.len - m, resid := 0 } hd rfl he ?_ ?_
        (fun r hr => h3 r (List.mem_cons_of_mem _ hr))
      · show 0 < u.len - m; omega
      · show u.len - m ≤ rs.length
        simp at h2; omega

/-! ## Examples and counterexamples -/

/-- Two files, reads and writes, a short read, a reopened file. -/
def exJob : List Ev :=
  [.io ⟨0, 0, 4096, .write, 0, 0⟩ (.ok 4096), .io ⟨0, 4096, 4096, .write, 0, 0⟩ (.ok 4096), .io ⟨1, 8192, 512, .read, 0, 0⟩ (.ok 100),
   .io ⟨1, 8292, 412, .read, 0, 0⟩ (.ok 412), .io ⟨0, 0, 0, .sync, 0, 0⟩ (.ok 0), .reopen 0, .io ⟨0, 4096, 4096, .read, 0, 0⟩ (.ok 4096)]

example : ∀ e ∈ exJob, Plain e := by
  intro e he
  simp [exJob] at he
  rcases he with h | h | h | h | h | h | h <;> subst h <;> simp [Plain]

example : (run init exJob).map (fun p => p.2.at_) = [0, 4096, 8192, 8292, 4096] := by decide +kernel

example := C79_sync_partial exJob (by
  intro e he
  simp [exJob] at he
  rcases he with h | h | h | h | h | h | h <;> subst h <;> simp [Plain])

example : complete init ⟨0, 512, 100, .read, 0, 0⟩ [.ok 30, .ok 0] = ([⟨.read, 0, 512, 30⟩, ⟨.read, 0, 542, 0⟩], false) := by
  decide +kernel
example : complete init ⟨0, 512, 100, .read, 0, 0⟩ [.ok 30, .ok 70] = ([⟨.read, 0, 512, 30⟩, ⟨.read, 0, 542, 70⟩], true) := by
  decide +kernel

/-- **C79** is false with trims between sequential writes (`trim_backlog`, or the replay of a log): preparing the trim
moves the file position, queueing it does not record that, so the write that continues where the last one ended goes to
the place that was just trimmed. -/
theorem C79_trim_counterexample :
    run init [.io ⟨0, 0, 4096, .write, 0, 0⟩ (.ok 4096), .io ⟨0, 40960, 4096, .trim, 0, 0⟩ (.ok 0),
      .io ⟨0, 4096, 4096, .write, 0, 0⟩ (.ok 4096)] =
    [(⟨0, 0, 4096, .write, 0, 0⟩, ⟨.write, 0, 0, 4096⟩), (⟨0, 40960, 4096, .trim, 0, 0⟩, ⟨.trim, 0, 40960, 4096⟩),
     (⟨0, 4096, 4096, .write, 0, 0⟩, ⟨.write, 0, 40960, 4096⟩)] := by decide +kernel

/-- **C79** is false after a transfer that failed, in a job that goes on (`continue_on_error`): sequential reads and
writes mixed, a read at 40960 fails, the next write goes there instead of to 4096. -/
theorem C79_error_counterexample :
    run init [.io ⟨0, 0, 4096, .write, 0, 0⟩ (.ok 4096), .io ⟨0, 40960, 4096, .read, 0, 0⟩ (.fail 5),
      .io ⟨0, 4096, 4096, .write, 0, 0⟩ (.ok 4096)] =
    [(⟨0, 0, 4096, .write, 0, 0⟩, ⟨.write, 0, 0, 4096⟩), (⟨0, 4096, 4096, .write, 0, 0⟩, ⟨.write, 0, 40960, 4096⟩)] := by
  decide +kernel

/-- **C79** is false after a unit that is prepared and put back (skipped for the verify state): the block at 0 is then
read from where the skipped one is. -/
theorem C79_drop_counterexample :
    run init [.drop ⟨0, 40960, 4096, .read, 0, 0⟩, .io ⟨0, 0, 4096, .read, 0, 0⟩ (.ok 4096)] =
    [(⟨0, 0, 4096, .read, 0, 0⟩, ⟨.read, 0, 40960, 4096⟩)] := by decide +kernel

end Fio.SyncEng
