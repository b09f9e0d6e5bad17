import Verif.IoU.Comp

namespace Fio.IoU

/-! ## What completions do not touch -/

/-- The engine's units and the counters for them are the same. -/
structure Frame (s s' : St) : Prop where
  eng : s'.eng = s.eng
  inFlight : s'.inFlight = s.inFlight
  queued : s'.queued = s.queued
  done : s'.done = s.done

/-- A part of the program that does not touch them, and asks for no answers. -/
def Fr {α : Type} (s : St) (r : Res α) : Prop :=
  match r with
  | .crash => True
  | .more _ => False
  | .ok s' _ => Frame s s'

theorem Frame.refl (s : St) : Frame s s := ⟨rfl, rfl, rfl, rfl⟩
theorem Frame.trans {s s' s'' : St} (h : Frame s s') (h' : Frame s' s'') : Frame s s'' :=
  ⟨h'.eng.trans h.eng, h'.inFlight.trans h.inFlight, h'.queued.trans h.queued, h'.done.trans h.done⟩

theorem fr_bind {α β : Type} {s : St} {r : Res α} {f : St → α → Res β} (h : Fr s r)
    (hf : ∀ s' a, Frame s s' → Fr s (f s' a)) : Fr s (r.bind f) := by
  cases r with
  | crash => trivial
  | more s' => exact h
  | ok s' a => exact hf s' a h

theorem fr_of {α : Type} {s s' : St} {r : Res α} (h : Frame s s') (hr : Fr s' r) : Fr s r := by
  cases r with
  | crash => trivial
  | more s' => exact hr
  | ok s' a => exact h.trans hr

theorem put_fr (c : Cfg) (s : St) (i : Nat) : Fr s (putIoU c s i) := by
  unfold putIoU
  simp only
  split
  · split
    · exact ⟨rfl, rfl, rfl, rfl⟩
    · trivial
  · split
    · exact ⟨rfl, rfl, rfl, rfl⟩
    · trivial

theorem requeue_fr (c : Cfg) (s : St) (i : Nat) : Fr s (requeueIoU c s i) := by
  unfold requeueIoU
  simp only
  split
  · split
    · exact ⟨rfl, rfl, rfl, rfl⟩
    · trivial
  · split
    · exact ⟨rfl, rfl, rfl, rfl⟩
    · trivial

theorem compErr_fr {s0 s : St} (h : Frame s0 s) (i : Nat) (k e : Bool) (cp : Comp) : Fr s0 (compErr s i k e cp) := by
  unfold compErr
  split
  · split
    · cases k <;> exact h.trans ⟨rfl, rfl, rfl, rfl⟩
    · exact h
  · exact h

theorem verifyAsync_fr (s : St) (i : Nat) : Frame s (verifyAsync s i) := by
  unfold verifyAsync
  simp only
  split <;> exact ⟨rfl, rfl, rfl, rfl⟩

theorem ioCompleted_fr (c : Cfg) (s : St) (i : Nat) (e : Bool) (cp : Comp) : Fr s (ioCompleted c s i e cp) := by
  unfold ioCompleted
  split
  · trivial
  · refine fr_of (s' := clearInflight s i) ⟨rfl, rfl, rfl, rfl⟩ ?_
    simp only
    split
    · split
      · refine compErr_fr ?_ _ _ _ _; exact ⟨rfl, rfl, rfl, rfl⟩
      · exact Frame.refl _
    · split
      · generalize hs : (if (decide (((clearInflight s i).u i).xferLen - ((clearInflight s i).u i).resid ≠ 0) &&
            decide (((clearInflight s i).u i).resid ≠ 0)) = true then _ else clearInflight s i) = s2
        have h2 : Frame (clearInflight s i) s2 := by
          rw [← hs]
          split <;> exact ⟨rfl, rfl, rfl, rfl⟩
        refine fr_of h2 ?_
        split
        · exact fr_bind (requeue_fr c s2 i) fun s' _ h => h
        · split
          · split
            · refine compErr_fr ?_ _ _ _ _; refine Frame.trans ?_ (verifyAsync_fr _ i); exact ⟨rfl, rfl, rfl, rfl⟩
            · refine compErr_fr ?_ _ _ _ _; exact ⟨rfl, rfl, rfl, rfl⟩
          · refine compErr_fr ?_ _ _ _ _; exact ⟨rfl, rfl, rfl, rfl⟩
      · split
        · exact compErr_fr (Frame.refl _) _ _ _ _
        · refine compErr_fr ?_ _ _ _ _; exact ⟨rfl, rfl, rfl, rfl⟩

theorem iosCompleted_fr (c : Cfg) (evs : List (Nat × Comp)) : ∀ (s : St) (e : Bool), Fr s (iosCompleted c s evs e) := by
  induction evs with
  | nil => intro s e; exact Frame.refl s
  | cons p evs ih =>
    intro s e
    obtain ⟨i, cp⟩ := p
    refine fr_bind (ioCompleted_fr c s i e cp) fun s1 r h1 => fr_of h1 (fr_bind (s := s1) ?_ fun s2 _ h2 => fr_of h2 (ih s2 r.2))
    split
    · exact put_fr c s1 i
    · exact Frame.refl s1

theorem engDones_frame (evs : List (Nat × Comp)) : ∀ s : St, Frame s (evs.foldl (fun s e => engDone s e.1 e.2) s) := by
  induction evs with
  | nil => intro s; exact Frame.refl s
  | cons p evs ih => intro s; exact Frame.trans (s' := engDone s p.1 p.2) ⟨rfl, rfl, rfl, rfl⟩ (ih (engDone s p.1 p.2))

/-- The engine answers without errors and with at least `k` events, if it has so many and so many are wanted. -/
def Prompt (k : Nat) (a : Ev) : Prop :=
  a.fail = false ∧ a.commitFail = false ∧ ∀ m eng, min (min m k) eng.length ≤ (pull m eng a.picks).1.length

/-- One call of `io_u_queued_complete`. -/
theorem queuedComplete_progress {c : Cfg} {s : St} {fl hl : List Nat} (h : Inv c s fl hl) (hev : c.hasEvents = true)
    (hd : s.done = false) {k : Nat} {a : Ev} (ha : Prompt k a) (mn : Nat) :
    ∃ s' r, queuedComplete c s mn a = .ok s' r ∧ Inv c s' fl hl ∧ s'.queued = s.queued ∧ s'.done = false ∧
      s'.eng.length + min (min mn k) s.eng.length ≤ s.eng.length := by
  have hok := queuedComplete_ok h mn a
  have key : ∃ s' r, queuedComplete c s mn a = .ok s' r ∧ s'.queued = s.queued ∧ s'.done = false ∧
      s'.eng.length + min (min mn k) s.eng.length ≤ s.eng.length := by
    obtain ⟨a1, a2, a3⟩ := ha
    have hdep := h.depth
    unfold queuedComplete at hok ⊢
    simp only at hok ⊢
    generalize hm : (if mn ≠ 0 ∧ mn > s.depth then s.depth else mn) = m at hok ⊢
    have hm1 : min mn s.eng.length ≤ m := by
      by_cases hx : mn ≠ 0 ∧ mn > s.depth
      · rw [if_pos hx] at hm; omega
      · rw [if_neg hx] at hm; omega
    unfold tdIoGetevents at hok ⊢
    rw [if_neg (by simp [hd]), if_neg (by simp [a2])] at hok ⊢
    simp only at hok ⊢
    generalize hM : (if m > if c.cmax > s.depth then s.depth else c.cmax then m else if c.cmax > s.depth then s.depth else c.cmax) = M at hok ⊢
    have hM1 : m ≤ M := by
      generalize (if c.cmax > s.depth then s.depth else c.cmax) = y at hM
      by_cases hx : m > y
      · rw [if_pos hx] at hM; omega
      · rw [if_neg hx] at hM; omega
    by_cases h0 : M = 0
    · rw [if_neg (by simp [h0])] at hok ⊢
      exact ⟨s, some 0, rfl, rfl, hd, by omega⟩
    · rw [if_pos (by simp [h0, hev]), if_neg (by simp [a1])] at hok ⊢
      simp only at hok ⊢
      have hp := a3 M s.eng
      obtain ⟨hq, _⟩ := pull_perm a.picks M s.eng
      have hql := hq.length_eq
      simp only [List.length_append, List.length_map] at hql
      generalize pull M s.eng a.picks = pr at hok hp hql ⊢
      have hf := engDones_frame pr.1 { s with eng := pr.2, inFlight := (s.inFlight + (w32 - pr.1.length % w32)) % w32 }
      generalize pr.1.foldl (fun s e => engDone s e.1 e.2)
        { s with eng := pr.2, inFlight := (s.inFlight + (w32 - pr.1.length % w32)) % w32 } = s1 at hf hok ⊢
      have heng : s1.eng.length + min (min mn k) s.eng.length ≤ s.eng.length := by
        rw [hf.eng]; simp only; omega
      split
      · exact ⟨s1, some 0, rfl, hf.queued, hf.done.trans hd, heng⟩
      · rename_i hne
        rw [if_neg hne] at hok
        have hfr := iosCompleted_fr c pr.1 s1 false
        revert hfr hok
        cases hr : iosCompleted c s1 pr.1 false with
        | crash => intro hok; exact absurd hok id
        | more y => intro _ hfr; exact absurd hfr id
        | ok s2 e =>
          intro _ hfr
          have hfr : Frame s1 s2 := hfr
          simp only [Res.bind]
          cases e with
          | true => exact ⟨_, _, rfl, hfr.queued.trans hf.queued, hfr.done.trans (hf.done.trans hd), by rw [← hfr.eng] at heng; exact heng⟩
          | false => exact ⟨_, _, rfl, hfr.queued.trans hf.queued, hfr.done.trans (hf.done.trans hd), by rw [← hfr.eng] at heng; exact heng⟩
  obtain ⟨s', r, h1, h2⟩ := key
  rw [h1] at hok
  exact ⟨s', r, h1, hok, h2⟩

/-- `io_u_queued_complete` leaves `io_u_queued` alone. -/
theorem queuedComplete_queued {c : Cfg} {s s' : St} {mn : Nat} {a : Ev} {r : Option Nat}
    (h : queuedComplete c s mn a = .ok s' r) : s'.queued = s.queued := by
  unfold queuedComplete at h
  simp only at h
  generalize (if mn ≠ 0 ∧ mn > s.depth then s.depth else mn) = m at h
  have hg : (tdIoGetevents c s m c.cmax a).1.queued = s.queued := by
    unfold tdIoGetevents
    split
    · rfl
    · split
      · rfl
      · simp only
        generalize (if m > if c.cmax > s.depth then s.depth else c.cmax then m else if c.cmax > s.depth then s.depth else c.cmax) = M
        split
        · split
          · rfl
          · exact (engDones_frame _ _).queued
        · rfl
  generalize tdIoGetevents c s m c.cmax a = g at h hg
  obtain ⟨s1, o⟩ := g
  cases o with
  | none => cases h; exact hg
  | some evs =>
    simp only at h
    split at h
    · cases h; exact hg
    · have hf := iosCompleted_fr c evs s1 false
      cases hr : iosCompleted c s1 evs false with
      | crash => rw [hr] at h; exact absurd h (by simp [Res.bind])
      | more y => rw [hr] at h; exact absurd h (by simp [Res.bind])
      | ok s2 e =>
        rw [hr] at h hf
        simp only [Res.bind] at h
        have hf : Frame s1 s2 := hf
        split at h
        · cases h; exact hf.queued.trans hg
        · cases h; exact hf.queued.trans hg

/-! ## `io_u_quiesce` -/

/-- It ends if the engine answers, and then the engine has nothing left. -/
theorem quiesceLoop_ends {c : Cfg} {fl hl : List Nat} (hev : c.hasEvents = true) (as : List Ev) : ∀ {s : St},
    Inv c s fl hl → s.done = false → s.queued = 0 → (∀ a ∈ as, Prompt 1 a) → s.eng.length ≤ as.length →
    ∃ s', quiesceLoop c s as = .ok s' () ∧ Inv c s' fl hl ∧ s'.eng = [] ∧ s'.inFlight = 0 ∧ s'.queued = 0 := by
  induction as with
  | nil =>
    intro s h hd hq _ hl
    have he : s.eng = [] := List.length_eq_zero_iff.mp (by simpa using hl)
    have hc := h.count
    have hb := h.bnd
    rw [he] at hc
    simp only [List.length_nil] at hc
    have hi : s.inFlight = 0 := by omega
    exact ⟨s, by simp [quiesceLoop, hi], h, he, hi, hq⟩
  | cons a as ih =>
    intro s h hd hq ha hl
    have hc := h.count
    have hb := h.bnd
    have hle : s.eng.length < 4294967296 := by
      have := h.len; have := h.small; omega
    unfold quiesceLoop
    by_cases hi : s.inFlight = 0
    · rw [if_pos hi]
      exact ⟨s, rfl, h, List.length_eq_zero_iff.mp (by omega), hi, hq⟩
    · rw [if_neg hi]
      obtain ⟨s', r, h1, h2, h3, h4, h5⟩ := queuedComplete_progress h hev hd (ha a (by simp)) 1
      rw [h1]
      refine ih h2 h4 (h3.trans hq) (fun b hb => ha b (by simp [hb])) ?_
      simp only [List.length_cons] at hl
      omega

/-- Whatever the engine answers: where it returns, nothing is in flight. -/
theorem quiesceLoop_exit {c : Cfg} (as : List Ev) : ∀ {s s' : St}, quiesceLoop c s as = .ok s' () →
    s'.inFlight = 0 ∧ s'.queued = s.queued := by
  induction as with
  | nil =>
    intro s s' h
    unfold quiesceLoop at h
    split at h
    · rename_i hi; cases h; exact ⟨hi, rfl⟩
    · exact absurd h (by simp)
  | cons a as ih =>
    intro s s' h
    unfold quiesceLoop at h
    split at h
    · rename_i hi; cases h; exact ⟨hi, rfl⟩
    · cases hr : queuedComplete c s 1 a with
      | crash => rw [hr] at h; exact absurd h (by simp [Res.bind])
      | more y => rw [hr] at h; exact absurd h (by simp [Res.bind])
      | ok y r => rw [hr] at h; exact ⟨(ih h).1, (ih h).2.trans (queuedComplete_queued hr)⟩

/-- With no unit in use but `io_u_in_flight` not 0 it never returns. -/
theorem quiesceLoop_hangs {c : Cfg} (as : List Ev) {s : St} (hd : s.depth = 0) (hi : s.inFlight ≠ 0) :
    quiesceLoop c s as = .more s := by
  induction as with
  | nil => simp [quiesceLoop, hi]
  | cons a as ih =>
    have : queuedComplete c s 1 a = .ok s (some 0) := by
      simp [queuedComplete, tdIoGetevents, hd]
    simp only [quiesceLoop, if_neg hi, this, Res.bind, ih]

end Fio.IoU
