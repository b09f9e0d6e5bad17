import Verif.Uring.Props

namespace Fio.Uring

open Spec

theorem clamp_lt (cur min max : Nat) : (clamp (u32 cur) min max).1 < 2 ^ 32 := by
  unfold clamp
  have : u32 cur < 2 ^ 32 := Nat.mod_lt _ (by decide)
  generalize u32 cur = c at *
  dsimp only
  split <;> omega

theorem step_inv {s : St} (h : Inv s 0 0) (o : Op) : step s o ≠ .crash ∧ ∀ s', step s o = .ok s' → Inv s' 0 0 := by
  cases o with
  | queue sync u =>
    unfold step
    dsimp only
    by_cases hu : u < s.ld.depth ∧ u ∉ out s
    · rw [if_pos hu]
      obtain ⟨s', st, q1, q2, q3, q4⟩ := queue_inv h sync u hu.1 hu.2
      rw [q1]
      refine ⟨by simp, fun t ht => ?_⟩
      injection ht with ht
      rw [← ht]
      exact q2
    · rw [if_neg hu]
      refine ⟨by simp, fun t ht => ?_⟩
      injection ht with ht
      rw [← ht]
      exact h
  | commit as =>
    unfold step
    dsimp only
    rcases commit_inv h as with hr | ⟨s', r, c1, c2, c3, c4⟩
    · rw [hr]
      exact ⟨by simp, fun t ht => by simp at ht⟩
    · rw [c1]
      refine ⟨by simp, fun t ht => ?_⟩
      injection ht with ht
      rw [← ht]
      exact c2
  | get bcm min max cur gs late =>
    unfold step
    dsimp only
    have hg := getevents_inv h bcm (clamp (u32 cur) min max).1 (clamp (u32 cur) min max).2 (clamp_lt cur min max) gs
    revert hg
    generalize getevents bcm (clamp (u32 cur) min max).1 (clamp (u32 cur) min max).2 gs s = r
    intro hg
    cases r with
    | crash => exact hg.elim
    | running => exact ⟨by simp, fun t ht => by simp at ht⟩
    | blocked => exact ⟨by simp, fun t ht => by simp at ht⟩
    | ok x =>
      obtain ⟨s', o⟩ := x
      cases o with
      | error _ =>
        refine ⟨by simp, fun t ht => ?_⟩
        injection ht with ht
        rw [← ht]
        exact hg.1
      | events n =>
        obtain ⟨g1, g2, g3, g4, g5, g6, g7, g8⟩ := hg
        obtain ⟨p1, p2, p3, p4, p5, p6, p7, p8, p9, p10⟩ := posts_inv g1 late
        have hch := h.chead
        rw [Nat.add_zero] at hch
        have hoff : (posts s' late).ld.off = u32 (posts s' late).nread := by
          rw [p5, p6, g3, g4]
          exact hch
        dsimp only
        rw [readEvents_eq p1 hoff n (Nat.le_refl _)]
        refine ⟨by simp, fun t ht => ?_⟩
        dsimp only at ht
        injection ht with ht
        rw [← ht]
        exact read_inv p1
  | poll n =>
    unfold step
    refine ⟨by simp, fun t ht => ?_⟩
    injection ht with ht
    rw [← ht]
    cases hp : s.ld.sqpoll with
    | true => exact take_poll h hp
    | false => exact h
  | post ps =>
    unfold step
    refine ⟨by simp, fun t ht => ?_⟩
    injection ht with ht
    rw [← ht]
    exact (posts_inv h ps).1

theorem run_inv (os : List Op) : ∀ {s : St}, Inv s 0 0 → run s os ≠ .crash ∧ ∀ s', run s os = .ok s' → Inv s' 0 0 := by
  induction os with
  | nil =>
    intro s h
    unfold run
    refine ⟨by simp, fun t ht => ?_⟩
    injection ht with ht
    rw [← ht]
    exact h
  | cons o os ih =>
    intro s h
    have hs := step_inv h o
    unfold run
    revert hs
    generalize step s o = r
    intro hs
    cases r with
    | crash => exact absurd rfl hs.1
    | running => exact ⟨by simp, fun t ht => by simp at ht⟩
    | blocked => exact ⟨by simp, fun t ht => by simp at ht⟩
    | ok t => exact ih (hs.2 t rfl)

/-- Rings big enough for the job. -/
structure Setup (depth sqn cqn : Nat) : Prop where
  sq : Pow2 sqn
  cq : Pow2 cqn
  dsq : depth ≤ sqn
  dcq : depth ≤ cqn

/-- States that can come about. -/
def Reach (depth sqn cqn : Nat) (sqpoll : Bool) (s : St) : Prop :=
  Setup depth sqn cqn ∧ ∃ os, run (init depth sqn cqn sqpoll) os = .ok s

theorem Reach.inv {depth sqn cqn : Nat} {sqpoll : Bool} {s : St} (h : Reach depth sqn cqn sqpoll s) : Inv s 0 0 := by
  obtain ⟨hs, os, hr⟩ := h
  exact (run_inv os (init_inv depth sqn cqn sqpoll hs.sq hs.cq hs.dsq hs.dcq)).2 s hr

/-- Whatever the job and the kernel do, every unit queued stays in exactly one place, and what is marked as issued was queued,
in the same order; without a polling kernel, exactly the units the kernel has taken are marked. -/
theorem C83_kept {depth sqn cqn : Nat} {sqpoll : Bool} {s : St} (h : Reach depth sqn cqn sqpoll s) :
    Kept s ∧ s.issued <+: s.acc ∧ (s.ld.sqpoll = false → s.issued = s.sub) := by
  have hi := h.inv
  refine ⟨⟨hi.pre, hi.flow, hi.hand, hi.exact, hi.nodup⟩, ?_, fun hp => ?_⟩
  · rw [hi.iss]
    exact List.take_prefix _ _
  · have hq := hi.q hp
    have hl := hi.sublen
    rw [hi.iss, hq]
    rw [List.prefix_iff_eq_take.1 hi.pre]
    congr 1
    rw [List.length_take]
    omega

/-- No access ever falls outside a ring. -/
theorem C83_no_crash {depth sqn cqn : Nat} (sqpoll : Bool) (h : Setup depth sqn cqn) (os : List Op) :
    run (init depth sqn cqn sqpoll) os ≠ .crash :=
  (run_inv os (init_inv depth sqn cqn sqpoll h.sq h.cq h.dsq h.dcq)).1

/-- When a unit is in the kernel there is room for its completion. -/
theorem C83_room {depth sqn cqn : Nat} {sqpoll : Bool} {s : St} (h : Reach depth sqn cqn sqpoll s) (hf : s.fly ≠ []) (p : Nat × Int) :
    ∃ u ∈ s.fly, (post s p).posted = s.posted ++ [(u, p.2)] := by
  have hr := room h.inv hf
  have hl : 0 < s.fly.length := List.length_pos_iff.2 hf
  have hm : p.1 % s.fly.length < s.fly.length := Nat.mod_lt _ hl
  refine ⟨s.fly[p.1 % s.fly.length], List.getElem_mem hm, ?_⟩
  unfold post
  rw [if_neg (by omega), List.getElem?_eq_getElem hm]

/-- A unit is refused only if as many units as the job may have are queued already, or it has to be done at once while others
are waiting; otherwise it is the last one queued (or done). -/
theorem C83_queue {depth sqn cqn : Nat} {sqpoll : Bool} {s : St} (h : Reach depth sqn cqn sqpoll s) (sync : Bool) (u : Nat)
    (hu : u < s.ld.depth) (hn : u ∉ out s) :
    ∃ s' st, queue s sync u = .ok (s', st) ∧ s'.acc = s.acc ++ (if st = .queued then [u] else []) ∧
      (st = .queued ↔ s.ld.queued ≠ s.ld.depth ∧ sync = false) ∧
      (st = .completed ↔ s.ld.queued ≠ s.ld.depth ∧ sync = true ∧ s.ld.queued = 0) := by
  obtain ⟨s', st, q1, q2, q3, q4⟩ := queue_inv h.inv sync u hu hn
  refine ⟨s', st, q1, q3, q4, ?_⟩
  unfold queue at q1
  by_cases hb : s.ld.queued = s.ld.depth
  · rw [if_pos hb] at q1
    injection q1 with q1
    injection q1 with _ q1
    subst q1
    simp [hb]
  · rw [if_neg hb] at q1
    cases sync with
    | true =>
      simp only [if_true] at q1
      by_cases h0 : s.ld.queued = 0
      · rw [if_neg (by simp [h0])] at q1
        injection q1 with q1
        injection q1 with _ q1
        subst q1
        simp [h0, h0 ▸ hb]
      · rw [if_pos h0] at q1
        injection q1 with q1
        injection q1 with _ q1
        subst q1
        simp [h0]
    | false =>
      have : st = .queued := q4.2 ⟨hb, rfl⟩
      subst this
      simp

/-- The number of events returned is within what was asked for, and these completions are the next ones, in order; they are
what the job reads even if more come in meanwhile. -/
theorem C83_get {depth sqn cqn : Nat} {sqpoll : Bool} {s : St} (h : Reach depth sqn cqn sqpoll s) (bcm min max : Nat)
    (hmin : min < 2 ^ 32) (gs : List (List (Nat × Int) × GRes)) (s' : St) (n : Nat)
    (hg : getevents bcm min max gs s = .ok (s', .events n)) (late : List (Nat × Int)) :
    min ≤ n ∧ 1 ≤ n ∧ n ≤ max ∧ s'.nread = s.nread ∧ s'.back = s.back ∧ s.nread + n ≤ s'.posted.length ∧
      readEvents (posts s' late) n = some (((posts s' late).posted.drop s.nread).take n) := by
  have hi := h.inv
  have hok := getevents_inv hi bcm min max hmin gs
  rw [hg] at hok
  obtain ⟨g1, g2, g3, g4, g5, g6, g7, g8⟩ := hok
  obtain ⟨p1, p2, p3, p4, p5, p6, p7, p8, p9, p10⟩ := posts_inv g1 late
  have hch := hi.chead
  rw [Nat.add_zero] at hch
  dsimp only at g3 g4 g5
  have hoff : (posts s' late).ld.off = u32 (posts s' late).nread := by
    rw [p5, p6, g3, g4]
    exact hch
  have hre := readEvents_eq p1 hoff n (Nat.le_refl _)
  rw [p6, g4] at hre
  refine ⟨g6, g7, g8 (by omega), g4, g5, ?_, hre⟩
  have := g1.cle
  rw [g4] at this
  exact this

/-- If all units are handed over and none has been thrown away, then a call for no more events than there are units never
waits for ever in the kernel. -/
theorem C83_not_blocked {depth sqn cqn : Nat} {sqpoll : Bool} {s : St} (h : Reach depth sqn cqn sqpoll s) (hsub : s.sub = s.acc)
    (hlost : s.lost = []) (bcm min max : Nat) (hmin : min ≤ (out s).length) (gs : List (List (Nat × Int) × GRes)) :
    getevents bcm min max gs s ≠ .blocked := by
  intro hb
  have hi := h.inv
  have hol := hi.outlen
  have hcle := hi.cle
  have hd := hi.dsq
  have hlt := hi.sqn_lt
  have hlen : (out s).length = s.fly.length + (s.posted.length - s.nread) := by
    simp [out, hsub, hlost]
  have hok := getevents_inv hi bcm min max (by omega) gs
  rw [hb] at hok
  have := hok.2
  dsimp only at this
  omega

theorem commitLoop_ends (as : List (List (Nat × Int) × SRes)) :
    ∀ {s : St}, Inv s 0 0 → s.ld.sqpoll = false → s.ld.queued ≠ 0 → (∀ a ∈ as, ∃ n, a.2 = .took (n + 1)) →
      s.ld.queued ≤ as.length →
      ∃ s', commitLoop as s = .ok (s', 0) ∧ Inv s' 0 0 ∧ s'.acc = s.acc ∧ s'.ld.queued = 0 ∧ s'.ld.sqpoll = false := by
  induction as with
  | nil => intro s h hp hq ha hl; simp at hl; exact absurd hl hq
  | cons a as ih =>
    intro s h hp hq ha hl
    obtain ⟨ps, r⟩ := a
    obtain ⟨n, hn⟩ := ha _ (List.mem_cons_self ..)
    dsimp only at hn
    subst hn
    obtain ⟨p1, p2, p3, p4, p5, p6, p7, p8, p9, p10⟩ := posts_inv h ps
    obtain ⟨t, t1, t2, t3, t4, t5⟩ := tookStep_inv p1 (p7.trans hp) (n + 1)
    rw [p4] at t5
    unfold commitLoop
    rw [t1]
    dsimp only
    by_cases h0 : t.ld.queued ≠ 0
    · rw [if_pos h0]
      obtain ⟨s', c1, c2, c3, c4, c5⟩ := ih t2 t4 h0 (fun a h => ha a (List.mem_cons_of_mem _ h)) (by
        rw [List.length_cons] at hl
        omega)
      exact ⟨s', c1, c2, by rw [c3, t3, p2], c4, c5⟩
    · rw [if_neg h0]
      exact ⟨t, rfl, t2, t3.trans p2, by simpa using h0, t4⟩

/-- If every call takes at least one entry, then all units are handed over: none is waiting in the ring (unless the kernel
polls and has not got round to it), all are marked as issued. -/
theorem C83_commit {depth sqn cqn : Nat} {sqpoll : Bool} {s : St} (h : Reach depth sqn cqn sqpoll s)
    (as : List (List (Nat × Int) × SRes)) (ha : ∀ a ∈ as, ∃ n, a.2 = .took (n + 1)) (hl : s.ld.queued ≤ as.length) :
    ∃ s', commit as s = .ok (s', 0) ∧ s'.acc = s.acc ∧ s'.ld.queued = 0 ∧ s'.issued = s.acc ∧
      (s.ld.sqpoll = false → s'.sub = s.acc) := by
  have hi := h.inv
  cases hp : s.ld.sqpoll with
  | true =>
    rcases commit_inv hi as with hr | ⟨s', r, c1, c2, c3, c4⟩
    · exfalso
      unfold commit at hr
      rw [hp] at hr
      simp only [if_true] at hr
      split at hr
      · cases hr
      · split at hr <;> cases hr
    · have hr0 : r = 0 := by
        unfold commit at c1
        rw [hp] at c1
        simp only [if_true] at c1
        split at c1
        · injection c1 with c1
          injection c1 with _ c1
          exact c1.symm
        · split at c1
          · cases c1
          · injection c1 with c1
            injection c1 with _ c1
            exact c1.symm
      subst hr0
      have hq0 := c4.1 rfl
      refine ⟨s', c1, c3, hq0, ?_, fun h => by cases h⟩
      rw [c2.iss, hq0, Nat.sub_zero, List.take_length, c3]
  | false =>
    have key : ∃ s', commit as s = .ok (s', 0) ∧ Inv s' 0 0 ∧ s'.acc = s.acc ∧ s'.ld.queued = 0 ∧ s'.ld.sqpoll = false := by
      unfold commit
      by_cases h0 : s.ld.queued = 0
      · rw [if_pos h0]
        exact ⟨s, rfl, hi, rfl, h0, hp⟩
      · rw [if_neg h0, hp]
        simp only [Bool.false_eq_true, if_false]
        exact commitLoop_ends as hi hp h0 ha hl
    obtain ⟨s', c1, c2, c3, c4, c5⟩ := key
    refine ⟨s', c1, c3, c4, ?_, fun _ => ?_⟩
    · rw [c2.iss, c4, Nat.sub_zero, List.take_length, c3]
    · have hq := c2.q c5
      rw [c4] at hq
      have hl := c2.sublen
      rw [← c3]
      exact c2.pre.eq_of_length (by omega)

/-- Progress: as soon as there are enough completions the call returns. -/
theorem C83_get_ends {depth sqn cqn : Nat} {sqpoll : Bool} {s : St} (h : Reach depth sqn cqn sqpoll s) (bcm min max : Nat)
    (h1 : 1 ≤ max) (h2 : min ≤ max) (ps : List (Nat × Int)) (g : GRes) (gs : List (List (Nat × Int) × GRes))
    (hp1 : s.nread < (posts s ps).posted.length) (hp2 : s.nread + min ≤ (posts s ps).posted.length) :
    ∃ s', getevents bcm min max ((ps, g) :: gs) s = .ok (s', .events (Nat.min ((posts s ps).posted.length - s.nread) max)) := by
  have hi := setOff_inv h.inv s.ld.cqHead
  have hpo : ∀ off, (posts { s with ld := { s.ld with off := off } } ps).posted.length = (posts s ps).posted.length := by
    intro off
    have : ∀ (ps : List (Nat × Int)) (s : St), posts { s with ld := { s.ld with off := off } } ps =
        { posts s ps with ld := { (posts s ps).ld with off := off } } := by
      intro ps
      induction ps with
      | nil => intro s; rfl
      | cons p ps ih =>
        intro s
        have : post { s with ld := { s.ld with off := off } } p = { post s p with ld := { (post s p).ld with off := off } } := by
          unfold post
          dsimp only
          split
          · rfl
          · split <;> rfl
        have ih' := ih (post s p)
        unfold posts at *
        rw [List.foldl_cons, List.foldl_cons, this]
        exact ih'
    rw [this]
  obtain ⟨p1, p2, p3, p4, p5, p6, p7, p8, p9, p10⟩ := posts_inv hi ps
  obtain ⟨t, n, r0, r1, r2, r3, r4, r5, r6, r7, r8, r9⟩ := reapStep_inv p1 max
  rw [hpo, p6, Nat.add_zero] at r2
  dsimp only at r2
  refine ⟨t, ?_⟩
  unfold getevents getLoop
  dsimp only
  rw [Nat.sub_zero, r0]
  unfold getBody
  dsimp only
  have hn : n = Nat.min ((posts s ps).posted.length - s.nread) max := r2
  have hge : n ≠ 0 ∧ 0 + n ≥ min := by omega
  rw [if_pos hge, Nat.zero_add, hn]

end Fio.Uring
