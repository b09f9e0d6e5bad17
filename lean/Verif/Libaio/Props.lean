import Verif.Libaio.Lemmas

/-! C81: the `libaio` engine submits every unit once, in order, and hands every one back once. -/

namespace Fio.Libaio

theorem eraseIdx_perm (l : List Nat) : ∀ i u, l[i]? = some u → (u :: l.eraseIdx i).Perm l := by
  induction l with
  | nil => intro i u h; simp at h
  | cons x l ih =>
    intro i u h
    cases i with
    | zero => simp at h; simp [h]
    | succ i =>
      simp at h
      have := ih i u (by simpa using h)
      simp only [List.eraseIdx_cons_succ]
      exact (List.Perm.swap x u _).trans (this.cons x)

theorem pick_spec (ps : List (Nat × Int)) : ∀ max fly, (pick ps max fly).1.length ≤ max ∧
    ((pick ps max fly).1.map (·.unit) ++ (pick ps max fly).2).Perm fly := by
  induction ps with
  | nil => intro max fly; simp [pick]
  | cons p ps ih =>
    intro max fly
    cases max with
    | zero => simp [pick]
    | succ max =>
      unfold pick
      split
      · simp
      · rename_i u hu
        dsimp only
        have := ih max (fly.eraseIdx (p.1 % fly.length))
        refine ⟨by simp; omega, ?_⟩
        simp only [List.map_cons, List.cons_append]
        exact (this.2.cons u).trans (eraseIdx_perm fly _ u hu)

/-- In the middle of collecting events: `col` are taken from the kernel. -/
structure Mid (depth : Nat) (s : St) (col : List Event) (q : List Nat) : Prop where
  r : RInv depth s.ld q
  sub : s.sub ++ q = s.acc
  perm : (s.back.map (·.unit) ++ s.dropped.map (·.unit) ++ (col.map (·.unit) ++ s.fly)).Perm s.sub

theorem Mid.back {depth : Nat} {s : St} {col : List Event} {q : List Nat} (h : Mid depth s col q) :
    Inv depth { s with back := s.back ++ col } q := by
  refine ⟨h.r, h.sub, ?_⟩
  show ((s.back ++ col).map (·.unit) ++ s.dropped.map (·.unit) ++ s.fly).Perm s.sub
  refine List.Perm.trans ?_ h.perm
  simp only [List.map_append, List.append_assoc]
  refine List.Perm.append_left _ ?_
  rw [← List.append_assoc, ← List.append_assoc]
  exact List.perm_append_comm.append_right _

theorem Mid.drop {depth : Nat} {s : St} {col : List Event} {q : List Nat} (h : Mid depth s col q) :
    Inv depth { s with dropped := s.dropped ++ col } q := by
  refine ⟨h.r, h.sub, ?_⟩
  show (s.back.map (·.unit) ++ (s.dropped ++ col).map (·.unit) ++ s.fly).Perm s.sub
  refine List.Perm.trans ?_ h.perm
  simp only [List.map_append, List.append_assoc]
  exact List.Perm.refl _

/-- A commit of any state. -/
theorem commit_inv {depth : Nat} (as : List SRes) {s : St} {q : List Nat} (h : Inv depth s q) :
    commit as s = .running ∨ ∃ s' r q', commit as s = .ok (s', r) ∧ Inv depth s' q' ∧ SameEnds s s' ∧
      (∃ n, q' = q.drop n) ∧ (r = 0 → GaveUp as ∨ q' = []) := by
  unfold commit
  by_cases hz : s.ld.queued = 0
  · right
    rw [if_pos hz]
    exact ⟨s, 0, q, rfl, h, ⟨rfl, rfl, rfl, rfl⟩, ⟨0, rfl⟩,
      fun _ => Or.inr (List.length_eq_zero_iff.1 (by rw [h.r.cnt, hz]))⟩
  · rw [if_neg hz]
    exact commitLoop_inv as h fun h0 => hz (by rw [← h.r.cnt, h0]; rfl)

theorem commit_mid {depth : Nat} (as : List SRes) {s : St} {col : List Event} {q : List Nat} (h : Mid depth s col q) :
    commit as s = .running ∨ ∃ s' r q', commit as s = .ok (s', r) ∧ Mid depth s' col q' ∧ SameEnds s s' := by
  have key : ∀ s1 : St, commit as { s1 with dropped := s1.dropped ++ col } = match commit as s1 with
      | .crash => .crash
      | .running => .running
      | .ok (s2, r) => .ok ({ s2 with dropped := s2.dropped ++ col }, r) := by
    have loop : ∀ (as : List SRes) (s1 : St), commitLoop as { s1 with dropped := s1.dropped ++ col } =
      match commitLoop as s1 with
      | .crash => .crash
      | .running => .running
      | .ok (s2, r) => .ok ({ s2 with dropped := s2.dropped ++ col }, r) := by
      intro as
      induction as with
      | nil => intro s1; rfl
      | cons a as ih =>
        intro s1
        unfold commitLoop
        dsimp only
        cases slots s1.ld.iocbs s1.ld.tail (min s1.ld.queued (s1.ld.entries - s1.ld.tail)) with
        | none => rfl
        | some us =>
          dsimp only
          cases a with
          | took n =>
            dsimp only
            split
            · have := ih (take s1 (us.take n))
              show (if (take s1 (us.take n)).ld.queued ≠ 0 then
                commitLoop as { take s1 (us.take n) with dropped := (take s1 (us.take n)).dropped ++ col }
                else Res.ok ({ take s1 (us.take n) with dropped := (take s1 (us.take n)).dropped ++ col }, 0)) = _
              split
              · exact this
              · rfl
            · split
              · exact ih s1
              · rfl
          | intr => dsimp only; split <;> first | exact ih s1 | rfl
          | again => dsimp only; split <;> first | rfl | exact ih s1
          | nomem => dsimp only; split <;> rfl
          | err e => rfl
    intro s1
    unfold commit
    dsimp only
    split
    · rfl
    · exact loop as s1
  have h1 := commit_inv as h.drop
  rw [key s] at h1
  rcases h1 with h1 | ⟨s', r, q', h1, h2, h3, _, _⟩
  · left
    cases hc : commit as s with
    | crash => rw [hc] at h1; cases h1
    | running => rfl
    | ok x => rw [hc] at h1; cases h1
  · right
    cases hc : commit as s with
    | crash => rw [hc] at h1; cases h1
    | running => rw [hc] at h1; cases h1
    | ok x =>
      obtain ⟨s2, r2⟩ := x
      rw [hc] at h1
      simp only [Res.ok.injEq, Prod.mk.injEq] at h1
      obtain ⟨he, hr⟩ := h1
      subst he
      have hd : s2.dropped = s.dropped := by
        have : s2.dropped ++ col = s.dropped ++ col := h3.2.2.1
        exact List.append_cancel_right this
      refine ⟨s2, r2, q', rfl, ⟨h2.r, h2.kept.1, ?_⟩, ⟨h3.1, h3.2.1, hd, h3.2.2.2⟩⟩
      refine List.Perm.trans ?_ h2.kept.2
      show List.Perm _ (s2.back.map (·.unit) ++ (s2.dropped ++ col).map (·.unit) ++ s2.fly)
      simp only [List.map_append, List.append_assoc]
      exact List.Perm.refl _

theorem getLoop_inv {depth min max : Nat} (hmax : max ≤ depth) (gs : List (GRes × List SRes)) :
    ∀ {s : St} {col : List Event} {q : List Nat} (amin : Nat), Mid depth s col q → col.length ≤ max →
    (col.length < min ∨ col = []) →
    getLoop min max gs s col amin = .running ∨ ∃ s' out q', getLoop min max gs s col amin = .ok (s', out) ∧
      Inv depth s' q' ∧ s'.acc = s.acc ∧
      match out with
      | .events n => s'.dropped = s.dropped ∧ min ≤ n ∧ n ≤ max ∧ ∃ evs, s'.back = s.back ++ evs ∧ evs.length = n
      | .error _ => s'.back = s.back ∧ ((∀ g ∈ gs, Soft g.1) → s'.dropped = s.dropped ∧ min = 0) := by
  induction gs with
  | nil => intro s col q amin _ _ _; left; rfl
  | cons x gs ih =>
    obtain ⟨g, as⟩ := x
    intro s col q amin h hl hc
    -- the result of a further turn, seen from here
    have again : ∀ {s1 : St} {col1 : List Event} {q1 : List Nat} (amin1 : Nat), Mid depth s1 col1 q1 →
        col1.length < min → col1.length ≤ max → s1.acc = s.acc → s1.back = s.back → s1.dropped = s.dropped →
        (getLoop min max gs s1 col1 amin1 = .running ∨
          ∃ s' out q', getLoop min max gs s1 col1 amin1 = .ok (s', out) ∧
          Inv depth s' q' ∧ s'.acc = s.acc ∧
          match out with
          | .events n => s'.dropped = s.dropped ∧ min ≤ n ∧ n ≤ max ∧ ∃ evs, s'.back = s.back ++ evs ∧ evs.length = n
          | .error _ => s'.back = s.back ∧ ((∀ y ∈ (g, as) :: gs, Soft y.1) → s'.dropped = s.dropped ∧ min = 0)) := by
      intro s1 col1 q1 amin1 hm hlt hle ha hb hd
      rcases ih amin1 hm hle (Or.inl hlt) with h1 | ⟨s', out, q', h1, h2, h3, h4⟩
      · exact Or.inl h1
      · right
        refine ⟨s', out, q', h1, h2, by rw [h3, ha], ?_⟩
        cases out with
        | events n =>
          dsimp only at h4 ⊢
          rw [hd, hb] at h4; exact h4
        | error e =>
          dsimp only at h4 ⊢
          rw [hd, hb] at h4
          exact ⟨h4.1, fun hs => h4.2 fun y hy => hs y (List.mem_cons_of_mem _ hy)⟩
    unfold getLoop
    cases g with
    | evs picks =>
      dsimp only
      have hent : s.ld.entries = depth := h.r.ent
      rw [if_neg (by omega)]
      obtain ⟨hp1, hp2⟩ := pick_spec picks (max - col.length) s.fly
      generalize hx : pick picks (max - col.length) s.fly = x at hp1 hp2
      by_cases hpos : x.1.length > 0
      · rw [if_pos hpos]
        have hm : Mid depth { s with fly := x.2 } (col ++ x.1) q := by
          refine ⟨h.r, h.sub, ?_⟩
          show (s.back.map (·.unit) ++ s.dropped.map (·.unit) ++ ((col ++ x.1).map (·.unit) ++ x.2)).Perm s.sub
          refine List.Perm.trans ?_ h.perm
          refine List.Perm.append_left _ ?_
          rw [List.map_append, List.append_assoc]
          exact List.Perm.append_left _ hp2
        have hle : (col ++ x.1).length ≤ max := by simp; omega
        by_cases hlt : (col ++ x.1).length < min
        · rw [if_pos hlt]
          exact again _ hm hlt hle rfl rfl rfl
        · rw [if_neg hlt]
          right
          exact ⟨_, _, q, rfl, hm.back, rfl, rfl, by omega, hle, _, rfl, rfl⟩
      · rw [if_neg hpos]
        by_cases hmin : min = 0
        · rw [if_neg (by simpa using hmin)]
          right
          exact ⟨_, _, q, rfl, h.back, rfl, rfl, by omega, hl, _, rfl, rfl⟩
        · rw [if_pos hmin]
          rcases commit_mid as h with h1 | ⟨s1, r, q1, h1, h2, h3⟩
          · rw [h1]; exact Or.inl rfl
          · rw [h1]
            dsimp only
            by_cases hlt : col.length < min
            · rw [if_pos hlt]
              exact again _ h2 hlt hl h3.1 h3.2.1 h3.2.2.1
            · rw [if_neg hlt]
              right
              exact ⟨_, _, q1, rfl, h2.back, h3.1, h3.2.2.1, by omega, hl, col, by show s1.back ++ col = _; rw [h3.2.1], rfl⟩
    | again =>
      dsimp only
      rcases commit_mid as h with h1 | ⟨s1, r, q1, h1, h2, h3⟩
      · rw [h1]; exact Or.inl rfl
      · rw [h1]
        dsimp only
        by_cases hlt : col.length < min
        · rw [if_pos hlt]
          exact again _ h2 hlt hl h3.1 h3.2.1 h3.2.2.1
        · rw [if_neg hlt]
          right
          refine ⟨_, _, q1, rfl, h2.drop, h3.1, h3.2.1, fun _ => ?_⟩
          have : col = [] := hc.resolve_left hlt
          subst this
          exact ⟨by show s1.dropped ++ [] = _; rw [List.append_nil, h3.2.2.1], by simpa using hlt⟩
    | intr =>
      dsimp only
      by_cases hlt : col.length < min
      · rw [if_pos hlt]
        exact again _ h hlt hl rfl rfl rfl
      · rw [if_neg hlt]
        right
        refine ⟨_, _, q, rfl, h.drop, rfl, rfl, fun _ => ?_⟩
        have : col = [] := hc.resolve_left hlt
        subst this
        exact ⟨by show s.dropped ++ [] = _; rw [List.append_nil], by simpa using hlt⟩
    | err e =>
      right
      exact ⟨_, _, q, rfl, h.drop, rfl, rfl, fun hs => absurd (hs _ (List.mem_cons_self ..)) (by simp [Soft])⟩

theorem clamp_le (cur min max : Nat) : (clamp cur min max).1 ≤ (clamp cur min max).2 ∧ (clamp cur min max).2 ≤ cur := by
  unfold clamp
  dsimp only
  repeat' split
  all_goals omega

theorem getevents_inv {depth : Nat} (bcm : Nat) {min max : Nat} (hmax : max ≤ depth) (gs : List (GRes × List SRes))
    {s : St} {q : List Nat} (h : Inv depth s q) :
    getevents bcm min max gs s = .running ∨ ∃ s' out q', getevents bcm min max gs s = .ok (s', out) ∧
      Inv depth s' q' ∧ s'.acc = s.acc ∧
      match out with
      | .events n => s'.dropped = s.dropped ∧ min ≤ n ∧ n ≤ max ∧ ∃ evs, s'.back = s.back ++ evs ∧ evs.length = n
      | .error _ => s'.back = s.back ∧ ((∀ g ∈ gs, Soft g.1) → s'.dropped = s.dropped ∧ min = 0) := by
  have hm : Mid depth s [] q := ⟨h.r, h.kept.1, by simpa using h.kept.2⟩
  exact getLoop_inv hmax gs _ hm (Nat.zero_le _) (Or.inr rfl)

/-- The job never has more units out than the depth. -/
def OpOk (depth : Nat) : Op → Prop
  | .get _ _ _ cur _ => cur ≤ depth
  | _ => True

/-- All answers of `io_getevents` in an operation are soft. -/
def OpSoft : Op → Prop
  | .get _ _ _ _ gs => ∀ g ∈ gs, Soft g.1
  | _ => True

theorem step_inv {depth : Nat} {s : St} {q : List Nat} (h : Inv depth s q) (o : Op) (ho : OpOk depth o) :
    step depth s o = .running ∨ ∃ s' q', step depth s o = .ok s' ∧ Inv depth s' q' ∧
      (OpSoft o → s'.dropped = s.dropped) := by
  cases o with
  | queue k u =>
    right
    rcases queue_inv h k u with ⟨s', h1, h2, _, _, _, h3⟩ | ⟨h1, _⟩ | ⟨h1, _⟩
    · exact ⟨s', _, by simp [step, h1], h2, fun _ => h3⟩
    · exact ⟨s, q, by simp [step, h1], h, fun _ => rfl⟩
    · exact ⟨s, q, by simp [step, h1], h, fun _ => rfl⟩
  | commit as =>
    rcases commit_inv as h with h1 | ⟨s', r, q', h1, h2, h3, _⟩
    · left; simp [step, h1]
    · right; exact ⟨s', q', by simp [step, h1], h2, fun _ => h3.2.2.1⟩
  | get bcm min max cur gs =>
    have hcl := clamp_le cur min max
    have hcur : cur ≤ depth := ho
    rcases getevents_inv bcm (min := (clamp cur min max).1) (show (clamp cur min max).2 ≤ depth by omega) gs h with h1 | ⟨s', out, q', h1, h2, h3, h4⟩
    · left; simp [step, h1]
    · right
      refine ⟨s', q', by simp [step, h1], h2, fun hs => ?_⟩
      cases out with
      | events n => exact h4.1
      | error e => exact (h4.2 hs).1

theorem run_inv {depth : Nat} (os : List Op) : ∀ {s : St} {q : List Nat}, Inv depth s q → (∀ o ∈ os, OpOk depth o) →
    run depth s os = .running ∨ ∃ s' q', run depth s os = .ok s' ∧ Inv depth s' q' ∧
      ((∀ o ∈ os, OpSoft o) → s'.dropped = s.dropped) := by
  induction os with
  | nil => intro s q h _; right; exact ⟨s, q, rfl, h, fun _ => rfl⟩
  | cons o os ih =>
    intro s q h ho
    unfold run
    rcases step_inv h o (ho o (List.mem_cons_self ..)) with h1 | ⟨s1, q1, h1, h2, h3⟩
    · rw [h1]; exact Or.inl rfl
    · rw [h1]
      rcases ih h2 fun o h => ho o (List.mem_cons_of_mem _ h) with h4 | ⟨s', q', h4, h5, h6⟩
      · exact Or.inl h4
      · right
        refine ⟨s', q', h4, h5, fun hs => ?_⟩
        rw [h6 fun o h => hs o (List.mem_cons_of_mem _ h), h3 (hs o (List.mem_cons_self ..))]

/-- **C81** Whatever the job does with the engine and whatever the kernel answers: no access outside of the ring or the
array of events; and after every completed call the units accepted are, in order, those submitted followed by those
waiting in the ring (so each is submitted once, none is overwritten), and the units submitted are those in flight, those
handed back and those dropped, each once. -/
theorem C81_kept (depth : Nat) (h0 : 0 < depth) (os : List Op) (ho : ∀ o ∈ os, OpOk depth o) :
    run depth (init depth) os ≠ .crash ∧
    ∀ s, run depth (init depth) os = .ok s → ∃ q, Kept s q ∧ q.length ≤ depth := by
  rcases run_inv os (Inv_init depth h0) ho with h1 | ⟨s', q', h1, h2, _⟩
  · rw [h1]; exact ⟨by simp, fun s h => by cases h⟩
  · rw [h1]
    refine ⟨by simp, fun s h => ?_⟩
    cases h
    exact ⟨q', h2.kept, by rw [h2.r.cnt]; exact h2.r.le⟩

/-- **C81** No event is dropped as long as `io_getevents` does not fail (other than being interrupted).  Missing: with a
failure after some events, see `C81_dropped_counterexample`. -/
theorem C81_none_dropped_partial (depth : Nat) (h0 : 0 < depth) (os : List Op) (ho : ∀ o ∈ os, OpOk depth o)
    (hs : ∀ o ∈ os, OpSoft o) : ∀ s, run depth (init depth) os = .ok s → s.dropped = [] := by
  intro s h
  rcases run_inv os (Inv_init depth h0) ho with h1 | ⟨s', q', h1, _, h3⟩
  · rw [h1] at h; cases h
  · rw [h1] at h; cases h
    exact h3 hs

/-- **C81** A commit that returns 0 without the kernel having been short of anything has submitted everything. -/
theorem C81_commit {depth : Nat} (as : List SRes) {s : St} {q : List Nat} (h : Inv depth s q) {s' : St}
    (hc : commit as s = .ok (s', 0)) (hg : ¬ GaveUp as) : s'.sub = s.acc ∧ s'.ld.queued = 0 := by
  rcases commit_inv as h with h1 | ⟨s1, r, q1, h1, h2, h3, _, h5⟩
  · rw [h1] at hc; cases hc
  · rw [h1] at hc
    simp only [Res.ok.injEq, Prod.mk.injEq] at hc
    obtain ⟨rfl, rfl⟩ := hc
    have hq : q1 = [] := (h5 rfl).resolve_left hg
    subst hq
    have := h2.kept.1
    rw [List.append_nil] at this
    exact ⟨this.trans h3.1, by rw [← h2.r.cnt]; rfl⟩

/-- **C81** It ends if the kernel takes at least one unit each time: after at most as many calls as units wait. -/
theorem C81_commit_ends {depth : Nat} (as : List SRes) : ∀ {s : St} {q : List Nat}, Inv depth s q → q ≠ [] →
    q.length ≤ as.length → (∀ a ∈ as, ∃ n, 0 < n ∧ a = .took n) → ∃ s', commitLoop as s = .ok (s', 0) := by
  induction as with
  | nil => intro s q _ hne h1 _; simp at h1; exact absurd h1 hne
  | cons a as ih =>
    intro s q h hne h1 ha
    obtain ⟨n, hn, rfl⟩ := ha a (List.mem_cons_self ..)
    have hr := h.r
    have hq := hr.cnt
    have hz : s.ld.queued ≠ 0 := by
      rw [← hq]; exact fun h0 => hne (List.length_eq_zero_iff.1 h0)
    have htail := hr.tail
    have hs := slots_eq hr (min s.ld.queued (s.ld.entries - s.ld.tail)) 0
      (by rw [hr.ent]; omega) (by omega)
    simp only [Nat.add_zero, List.drop_zero] at hs
    unfold commitLoop
    dsimp only
    rw [hs]
    dsimp only
    rw [hr.ent]
    generalize hm : min n (min s.ld.queued (depth - s.ld.tail)) = m
    rw [if_pos (by omega), List.take_take, hm]
    have hmq : m ≤ q.length := by omega
    have hi := take_inv h m hmq
    have hqq : (take s (q.take m)).ld.queued = q.length - m := by
      rw [← hi.r.cnt]; simp
    by_cases hd : q.length - m = 0
    · rw [if_neg (by rw [hqq]; simpa using hd)]
      exact ⟨_, rfl⟩
    · rw [if_pos (by rw [hqq]; exact hd)]
      refine ih hi (fun h0 => hd (by have := congrArg List.length h0; simpa using this)) ?_
        fun a h => ha a (List.mem_cons_of_mem _ h)
      simp at h1 ⊢; omega

/-- **C81** `fio_libaio_getevents` hands over at least as many events as it must and at most as many as it may, and fails
only if it may return none or `io_getevents` failed. -/
theorem C81_min {depth : Nat} (bcm : Nat) {min max : Nat} (hmax : max ≤ depth) (gs : List (GRes × List SRes))
    {s s' : St} {q : List Nat} (h : Inv depth s q) {out : Out} (hg : getevents bcm min max gs s = .ok (s', out)) :
    (∀ n, out = .events n → min ≤ n ∧ n ≤ max ∧ s'.back.length = s.back.length + n) ∧
    (∀ e, out = .error e → s'.back = s.back ∧ ((∀ g ∈ gs, Soft g.1) → min = 0)) := by
  rcases getevents_inv bcm hmax gs h with h1 | ⟨s1, o1, q', h1, h2, h3, h4⟩
  · rw [h1] at hg; cases hg
  · rw [h1] at hg
    simp only [Res.ok.injEq, Prod.mk.injEq] at hg
    obtain ⟨rfl, rfl⟩ := hg
    constructor
    · rintro n rfl
      obtain ⟨_, h5, h6, evs, h7, h8⟩ := h4
      exact ⟨h5, h6, by rw [h7, List.length_append, h8]⟩
    · rintro e rfl
      exact ⟨h4.1, fun hs => (h4.2 hs).2⟩

/-- **C81** What a unit reports: a whole or short transfer its rest, an error its number. -/
theorem C81_result (len : Nat) (hlen : len < 2 ^ 63) :
    (∀ n : Nat, n ≤ len → eventResult len n = (len - n, 0)) ∧
    (∀ e : Nat, 0 < e → e < 2 ^ 31 → eventResult len (-(e : Int)) = (0, (e : Int))) := by
  constructor
  · intro n hn
    unfold eventResult
    have : ((n : Int) % 2 ^ 64).toNat = n := by omega
    simp only [this]
    split
    · rw [if_neg (by omega)]
    · rename_i h
      have : n = len := by simpa using h
      simp [this]
  · intro e h1 h2
    unfold eventResult
    have : ((-(e : Int)) % 2 ^ 64).toNat = 2 ^ 64 - e := by omega
    simp only [this]
    rw [if_pos (by omega), if_pos (by omega)]
    congr 1
    omega

end Fio.Libaio
