import Verif.IoU.Phases

namespace Fio.IoU

/-- What is left of a transfer is the end of what the unit was filled with. -/
structure TU (u : U) : Prop where
  file : u.flight = true → u.file = true
  fresh : u.file = false → u.free = false → u.resid = 0
  len : u.file = true → u.ddir.rw = true → u.xferLen + u.bufOff = u.buflen
  off : u.file = true → u.ddir.rw = true → u.offset = u.off0 + u.bufOff
  resid : u.file = true → u.ddir.rw = true → u.resid ≤ u.xferLen

/-- This holds of all units. -/
def Tile (s : St) : Prop := ∀ i, TU (s.u i)

/-- Wherever this part of the program ends. -/
def Ti {α : Type} (r : Res α) : Prop :=
  match r with
  | .crash => True
  | .more s => Tile s
  | .ok s _ => Tile s

theorem ti_bind {α β : Type} {c : Cfg} {r : Res α} {f : St → α → Res β} {Q : St → α → Prop} (h : Ok c r Q) (ht : Ti r)
    (hf : ∀ s a, Q s a → Tile s → Ti (f s a)) : Ti (r.bind f) := by
  cases r with
  | crash => trivial
  | more s => exact ht
  | ok s a => exact hf s a h ht

theorem Tile.same {s s' : St} (h : Tile s) (hu : s'.u = s.u) : Tile s' := by
  intro i; rw [hu]; exact h i

theorem Tile.set {s : St} (h : Tile s) (i : Nat) (f : U → U) (hf : TU (s.u i) → TU (f (s.u i))) : Tile (s.set i f) := by
  intro j
  simp only [set_u]
  split
  · exact hf (h i)
  · exact h j

theorem put_ti {c : Cfg} {s : St} {i : Nat} (h : (s.u i).flight = false) (ht : Tile s) : Ti (putIoU c s i) := by
  have h1 : Tile (s.set i fun u => { u with file := false, free := true }) :=
    ht.set i _ fun _ => ⟨fun x => absurd x (by simp [h]), fun _ x => absurd x (by simp), by simp, by simp, by simp⟩
  unfold putIoU
  simp only
  split
  · split
    · exact h1.same rfl
    · trivial
  · split
    · exact h1.same rfl
    · trivial

theorem putH_ti {c : Cfg} {s : St} {fl hl : List Nat} {i : Nat} (h : Inv c s fl (i :: hl)) (ht : Tile s) :
    Ti (putIoU c s i) := put_ti (h.main i (by simp)).2.1 ht

theorem requeue_ti {c : Cfg} {s : St} {i : Nat} (ht : Tile s) : Ti (requeueIoU c s i) := by
  have h1 : Tile ((unissue s (acctDdir (s.u i)) (s.u i).flight).set i fun u => { u with free := true, flight := false }) :=
    (ht.same (s' := unissue s (acctDdir (s.u i)) (s.u i).flight) rfl).set i _ fun t =>
      ⟨by simp, fun _ x => absurd x (by simp), t.len, t.off, t.resid⟩
  unfold requeueIoU
  simp only
  split
  · split
    · exact h1.same rfl
    · trivial
  · split
    · exact h1.same rfl
    · trivial

theorem clearInflight_ti {s : St} (ht : Tile s) (i : Nat) : Tile (clearInflight s i) :=
  ht.set i _ fun t => ⟨by simp, t.fresh, t.len, t.off, t.resid⟩

theorem verDone_ti {c : Cfg} {s : St} {fl hl : List Nat} (h : Inv c s fl hl) (ht : Tile s) (k : Nat) :
    Ti (verDone c s k) := by
  unfold verDone
  split
  · exact ht
  · rename_i i hi
    exact put_ti (h.verif i (List.mem_of_getElem? hi)).2.1 (ht.same rfl)

theorem verDones_ti {c : Cfg} {fl hl : List Nat} (ks : List Nat) : ∀ {s : St}, Inv c s fl hl → Tile s →
    Ti (verDones c s ks) := by
  induction ks with
  | nil => intro s _ ht; exact ht
  | cons k ks ih => intro s h ht; exact ti_bind (verDone_ok h k) (verDone_ti h ht k) fun s _ h ht => ih h ht

theorem take_ti {s : St} {i : Nat} (ht : Tile s) (h0 : (s.u i).resid = 0) : Ti (takeU s i) := by
  unfold takeU
  split
  · have h1 : Tile (s.set i fun u =>
        { u with free := false, trimmed := false, verList := false, err := false, acct := none, inDepth := true }) :=
      ht.set i _ fun t => ⟨t.file, fun _ _ => h0, t.len, t.off, t.resid⟩
    exact h1.same rfl
  · trivial

theorem getU_ti {c : Cfg} {s : St} {fl hl : List Nat} (h : Inv c s fl hl) (ht : Tile s) (vd : List Nat) (lat : Bool) :
    Ti (getU c s vd lat) := by
  refine ti_bind (verDones_ok vd h) (verDones_ti vd h ht) fun s _ h ht => ?_
  split
  · exact ht
  · split
    · rename_i i rest hr
      have hfl := (h.idle i (Or.inr (by simp [hr]))).2
      refine take_ti ?_ (by simp)
      exact (ht.same (s' := { s with reqs := rest }) rfl).set i _ fun t =>
        ⟨fun x => absurd x (by simp [hfl]), fun _ _ => rfl,
         fun hf => t.len (by simpa using (Bool.and_eq_true _ _ ▸ hf).1),
         fun hf => t.off (by simpa using (Bool.and_eq_true _ _ ▸ hf).1), fun _ _ => Nat.zero_le _⟩
    · split
      · exact ht
      · split
        · trivial
        · rename_i i rest hr
          have hfl := (h.idle i (Or.inl (by simp [hr]))).2
          refine take_ti ?_ (by simp)
          exact (ht.same (s' := { s with freeq := rest }) rfl).set i _ fun t =>
            ⟨fun x => absurd x (by simp [hfl]), fun _ _ => rfl, by simp, by simp, by simp⟩

theorem commit_ti {c : Cfg} {s : St} (ht : Tile s) (cf : Bool) : Tile (tdIoCommit c s cf) := ht.same (commit_u c s cf)

theorem engDone_ti {s : St} {i : Nat} (h : (s.u i).flight = true) (ht : Tile s) (cp : Comp) : Tile (engDone s i cp) := by
  have hfile := (ht i).file h
  unfold engDone
  refine Tile.set ?_ i _ ?_
  · exact ht
  · exact fun t => ⟨t.file, fun x => absurd x (by simp [hfile]), t.len, t.off, fun _ _ => Nat.sub_le _ _⟩

theorem engDone_flight (s : St) (i : Nat) (cp : Comp) (j : Nat) : ((engDone s i cp).u j).flight = (s.u j).flight := by
  simp only [engDone, set_u]; split
  · rename_i e; rw [e]
  · rfl

theorem engDones_ti (evs : List (Nat × Comp)) : ∀ {s : St}, (∀ e ∈ evs, (s.u e.1).flight = true) → Tile s →
    Tile (evs.foldl (fun s e => engDone s e.1 e.2) s) := by
  induction evs with
  | nil => intro s _ ht; exact ht
  | cons e evs ih =>
    intro s h ht
    exact ih (fun e' he' => by rw [engDone_flight]; exact h e' (by simp [he'])) (engDone_ti (h e (by simp)) ht e.2)

theorem queue_ti {c : Cfg} {s : St} {i : Nat} (ht : Tile s) (q : Q) (cf : Bool) : Ti (tdIoQueue c s i q cf) := by
  unfold tdIoQueue
  split
  · trivial
  · split
    · trivial
    · rename_i hf
      have hf : (s.u i).file = true := by simpa using hf
      have h1 : Tile (s.set i fun u => { u with flight := true, err := false, resid := 0 }) :=
        ht.set i _ fun t => ⟨fun _ => hf, fun _ _ => rfl, t.len, t.off, fun _ _ => Nat.zero_le _⟩
      have hfl : ((s.set i fun u => { u with flight := true, err := false, resid := 0 }).u i).flight = true := by simp
      generalize s.set i (fun u => { u with flight := true, err := false, resid := 0 }) = s1 at h1 hfl ⊢
      show Tile (queueAns c _ i q cf).1
      generalize hs2 : issue s1 _ _ _ = s2
      have h2 : Tile s2 := by rw [← hs2]; exact h1.same rfl
      have hfl2 : (s2.u i).flight = true := by rw [← hs2]; exact hfl
      cases q with
      | completed cp => exact (engDone_ti hfl2 h2 cp).same rfl
      | queued =>
        simp only [queueAns]
        split
        · refine commit_ti ?_ cf; exact h2
        · exact h2
      | busy =>
        simp only [queueAns]
        refine Tile.set ?_ i _ ?_
        · exact h2
        · exact fun t => ⟨by simp, t.fresh, t.len, t.off, t.resid⟩

theorem getevents_ti {c : Cfg} {s : St} {fl hl : List Nat} (h : Inv c s fl hl) (ht : Tile s) (mn mx : Nat) (a : Ev) :
    Tile (tdIoGetevents c s mn mx a).1 := by
  unfold tdIoGetevents
  split
  · exact ht
  · split
    · exact ht.same rfl
    · simp only
      generalize (if mn > if mx > s.depth then s.depth else mx then mn else if mx > s.depth then s.depth else mx) = m
      split
      · split
        · exact ht.same rfl
        · refine engDones_ti _ ?_ (ht.same rfl)
          intro e he
          obtain ⟨hp, _⟩ := pull_perm a.picks m s.eng
          refine (h.flying e.1 (Or.inl ?_)).2.1
          rw [hp.mem_iff]
          simp only [List.mem_append, List.mem_map]
          exact Or.inl ⟨e, he, rfl⟩
      · exact ht

theorem compErr_ti {s : St} (ht : Tile s) (i : Nat) (k e : Bool) (cp : Comp) : Ti (compErr s i k e cp) := by
  unfold compErr
  split
  · split
    · cases k with
      | true =>
        refine Tile.set (s := { s with error := false }) ?_ i (fun u => { u with err := false }) ?_
        · exact ht
        · exact fun t => ⟨t.file, t.fresh, t.len, t.off, t.resid⟩
      | false => exact ht.same rfl
    · exact ht
  · exact ht

theorem verifyAsync_ti {s : St} (ht : Tile s) (i : Nat) : Tile (verifyAsync s i) := by
  unfold verifyAsync
  simp only
  split
  · exact (Tile.set (ht.same (s' := { s with depth := (s.depth + (w32 - 1)) % w32 }) rfl) i
      (fun u => { u with inDepth := false }) fun t => ⟨t.file, t.fresh, t.len, t.off, t.resid⟩).same rfl
  · exact ht.same rfl

/-- A short transfer goes on where it ended. -/
theorem short_ti {s : St} (ht : Tile s) (i : Nat) : Tile (s.set i fun u =>
    { u with xferLen := u.resid, bufOff := u.bufOff + ((s.u i).xferLen - (s.u i).resid),
             offset := u.offset + ((s.u i).xferLen - (s.u i).resid) }) := by
  refine ht.set i _ fun t => ⟨t.file, t.fresh, ?_, ?_, fun _ _ => Nat.le_refl _⟩
  · intro hf hrw
    have h1 := t.len hf hrw
    have h2 := t.resid hf hrw
    simp only; omega
  · intro hf hrw
    have h1 := t.off hf hrw
    simp only; omega

theorem ioCompleted_ti {c : Cfg} {s : St} (ht : Tile s) (i : Nat) (e : Bool) (cp : Comp) :
    Ti (ioCompleted c s i e cp) := by
  have h1 := clearInflight_ti ht i
  unfold ioCompleted
  split
  · trivial
  · simp only
    generalize clearInflight s i = s1 at h1
    split
    · split
      · refine compErr_ti ?_ _ _ _ _; exact h1
      · exact h1
    · split
      · generalize hs2 : (if (decide ((s1.u i).xferLen - (s1.u i).resid ≠ 0) && decide ((s1.u i).resid ≠ 0)) = true then
            s1.set i fun u => { u with xferLen := u.resid, bufOff := u.bufOff + ((s1.u i).xferLen - (s1.u i).resid),
                                       offset := u.offset + ((s1.u i).xferLen - (s1.u i).resid) }
          else s1) = s2
        have h2 : Tile s2 := by
          rw [← hs2]
          split
          · exact short_ti h1 i
          · exact h1
        split
        · have := requeue_ti (c := c) (i := i) h2
          cases hr : requeueIoU c s2 i with
          | crash => trivial
          | more s => rw [hr] at this; exact this
          | ok s _ => rw [hr] at this; exact this
        · split
          · split
            · refine compErr_ti (verifyAsync_ti ?_ i) _ _ _ _; exact h2
            · refine compErr_ti ?_ _ _ _ _; exact h2
          · refine compErr_ti ?_ _ _ _ _; exact h2
      · split
        · exact compErr_ti h1 _ _ _ _
        · refine compErr_ti ?_ _ _ _ _; exact h1

theorem putLeft_ti {c : Cfg} {s : St} {fl hl : List Nat} {i : Nat} {r : Bool × Bool} (h : Left c fl hl i s r)
    (ht : Tile s) : Ti (if r.1 then putIoU c s i else .ok s ()) := by
  unfold Left at h
  split
  · rename_i e; rw [if_pos e] at h; exact putH_ti h ht
  · exact ht

theorem iosCompleted_ti {c : Cfg} {fl hl : List Nat} (evs : List (Nat × Comp)) : ∀ {s : St} (e : Bool),
    Inv c s (evs.map (·.1) ++ fl) hl → Tile s → Ti (iosCompleted c s evs e) := by
  induction evs with
  | nil => intro s e _ ht; exact ht
  | cons p evs ih =>
    intro s e h ht
    obtain ⟨i, cp⟩ := p
    refine ti_bind (ioCompleted_ok h e cp) (ioCompleted_ti ht i e cp) fun s r hr ht => ?_
    exact ti_bind (putLeft_ok hr) (putLeft_ti hr ht) fun s _ h' ht => ih r.2 h' ht

theorem syncComplete_ti {c : Cfg} {s : St} {fl hl : List Nat} {i : Nat} (h : Inv c s (i :: fl) hl) (ht : Tile s)
    (cp : Comp) : Ti (syncComplete c s i cp) := by
  refine ti_bind (ioCompleted_ok h false cp) (ioCompleted_ti ht i false cp) fun s r hr ht => ?_
  refine ti_bind (putLeft_ok hr) (putLeft_ti hr ht) fun s _ h' ht => ?_
  split
  · exact ht.same rfl
  · exact ht

theorem queuedComplete_ti {c : Cfg} {s : St} {fl hl : List Nat} (h : Inv c s fl hl) (ht : Tile s) (mn : Nat) (a : Ev) :
    Ti (queuedComplete c s mn a) := by
  unfold queuedComplete
  simp only
  generalize (if mn ≠ 0 ∧ mn > s.depth then s.depth else mn) = m
  have hg := getevents_inv h m c.cmax a
  have hgt := getevents_ti h ht m c.cmax a
  generalize tdIoGetevents c s m c.cmax a = g at hg hgt
  obtain ⟨s1, o⟩ := g
  cases o with
  | none => exact Tile.same hgt rfl
  | some evs =>
    simp only
    split
    · exact hgt
    · refine ti_bind (iosCompleted_ok evs false hg) (iosCompleted_ti evs false hg hgt) fun s' e h' ht => ?_
      split
      · exact ht.same rfl
      · exact ht

theorem quiesceLoop_ti {c : Cfg} {fl hl : List Nat} (as : List Ev) : ∀ {s : St}, Inv c s fl hl → Tile s →
    Ti (quiesceLoop c s as) := by
  induction as with
  | nil =>
    intro s h ht
    unfold quiesceLoop
    split <;> exact ht
  | cons a as ih =>
    intro s h ht
    unfold quiesceLoop
    split
    · exact ht
    · exact ti_bind (queuedComplete_ok h 1 a) (queuedComplete_ti h ht 1 a) fun s' _ h' ht => ih h' ht

theorem quiesce_ti {c : Cfg} {s : St} {fl hl : List Nat} (h : Inv c s fl hl) (ht : Tile s) (cf : Bool) (as : List Ev) :
    Ti (quiesce c s cf as) := by
  unfold quiesce
  split
  · exact quiesceLoop_ti as (commit_inv h cf) (commit_ti ht cf)
  · exact quiesceLoop_ti as h ht

theorem waitLoop_ti {c : Cfg} {fl hl : List Nat} (full : Bool) (mn : Nat) (as : List Ev) : ∀ {s : St},
    Inv c s fl hl → Tile s → Ti (waitLoop c full mn s as) := by
  induction as with
  | nil => intro s _ ht; exact ht
  | cons a as ih =>
    intro s h ht
    refine ti_bind (queuedComplete_ok h mn a) (queuedComplete_ti h ht mn a) fun s' r h' ht => ?_
    cases r with
    | none => exact ht
    | some k =>
      simp only
      split
      · exact ih h' ht
      · exact ht

theorem breakOn_ti {s : St} (ht : Tile s) (r : Ret) (b : Brk) : Tile (breakOn s r b).1 := by
  unfold breakOn
  split
  · cases b <;> exact ht.same rfl
  · exact ht

theorem submit_ti {c : Cfg} {s : St} {i : Nat} (ht : Tile s) (ov : Bool) (q : Q) (cf : Bool) :
    Ti (submit c s i ov q cf) := by
  unfold submit
  split
  · exact ht
  · exact queue_ti ht q cf

theorem clearIoU_ti {c : Cfg} {s : St} (ht : Tile s) (i : Nat) : Ti (clearIoU c s i) :=
  put_ti (by simp [clearInflight]) (clearInflight_ti ht i)

theorem ioQueueEvent_ti {c : Cfg} {s : St} {fl hl : List Nat} {i : Nat} {r : Ret} (h : After c fl hl i s r)
    (ht : Tile s) (fv : Bool) (cp : Comp) (cf : Bool) (b : Brk) :
    Ti (ioQueueEvent c s i r fv cp cf b) := by
  have fin : ∀ {s' : St} (r : Ret), Tile s' → Ti (let x := breakOn s' r b; Res.ok x.1 (x.2.1, x.2.2)) :=
    fun {s'} r h => breakOn_ti h r b
  have fin' : ∀ {s' : St} (r : Ret), Tile s' →
      Ti (if fv then Res.ok s' (r, false) else let x := breakOn s' r b; Res.ok x.1 (x.2.1, x.2.2)) := by
    intro s' r h
    split
    · exact h
    · exact fin r h
  have syncDone : ∀ {s' : St}, Inv c s' (i :: fl) hl → Tile s' →
      Ti ((syncComplete c s' i cp).bind fun s r =>
        if r = .err then (let x := breakOn s r b; Res.ok x.1 (x.2.1, x.2.2))
        else if fv then Res.ok s (r, false) else let x := breakOn s r b; Res.ok x.1 (x.2.1, x.2.2)) := by
    intro s' h ht
    refine ti_bind (syncComplete_ok h cp) (syncComplete_ti h ht cp) fun s r _ ht => ?_
    split
    · exact fin r ht
    · exact fin' r ht
  unfold ioQueueEvent
  cases r with
  | completed =>
    have h1 : Inv c s (i :: fl) hl := h
    simp only
    split
    · exact ti_bind (clearIoU_ok h1) (clearIoU_ti ht i) fun s' _ _ ht => fin' .err ht
    · split
      · split
        · refine ti_bind (clearIoU_ok (s := { s with error := true }) (fl := fl) (hl := hl) ?_) (clearIoU_ti (s := { s with error := true }) ht i)
            fun s' _ _ ht => fin .completed ht
          exact h1.same (fun _ => ⟨rfl, rfl, rfl⟩) rfl rfl rfl rfl rfl rfl rfl
        · have h2 := short_ti ht i
          split
          · exact syncDone (h1.set i _ ⟨rfl, rfl, rfl⟩) h2
          · exact ti_bind (requeue_ok (Or.inr (h1.set i _ ⟨rfl, rfl, rfl⟩))) (requeue_ti h2)
              fun s' _ _ ht => fin' .completed ht
      · exact syncDone h1 ht
  | queued => exact fin .queued ht
  | busy => exact ti_bind (requeue_ok (Or.inl h)) (requeue_ti ht) fun s' _ _ ht => fin .busy (commit_ti ht cf)
  | err => exact False.elim h

theorem reap_ti {c : Cfg} {s : St} {fl hl : List Nat} (h : Inv c s fl hl) (ht : Tile s) (r : Ret) (vd : List Nat)
    (lat : Bool) (evs : List Ev) : Ti (reap c s r vd lat evs) := by
  refine ti_bind (verDones_ok vd h) (verDones_ti vd h ht) fun s _ h ht => ?_
  simp only
  split
  · exact ti_bind (waitFor_ok h lat evs) (waitLoop_ti _ _ evs h ht) fun s _ _ ht => ht
  · exact ht

theorem turnEnd_ti {c : Cfg} {s : St} {fl hl : List Nat} (h : Inv c s fl hl) (ht : Tile s) (r : Ret) (a : It) :
    Ti (turnEnd c s r a) := by
  unfold turnEnd
  split
  · exact ht
  · split
    · exact ht
    · exact ti_bind (quiesce_ok h _ _) (quiesce_ti h ht _ _) fun s _ _ ht => ht

/-- A unit is filled. -/
theorem fill_ti {s : St} {i : Nat} (ht : Tile s) (h1 : (s.u i).free = false) (h2 : (s.u i).file = false) (f : U → U)
    (hf : ∀ u, (f u).file = true ∧ (f u).resid = u.resid ∧ (f u).xferLen = (f u).buflen ∧ (f u).bufOff = 0 ∧
      (f u).offset = (f u).off0) : Tile (s.set i f) := by
  refine ht.set i f fun t => ?_
  obtain ⟨a1, a2, a3, a4, a5⟩ := hf (s.u i)
  have h0 := t.fresh h2 h1
  exact ⟨fun _ => a1, fun x => absurd x (by simp [a1]), fun _ _ => by omega, fun _ _ => by omega, fun _ _ => by omega⟩

/-! ## Completions leave the units held alone -/

/-- Unit `i` is not touched. -/
def Keep {α : Type} (i : Nat) (s : St) (r : Res α) : Prop :=
  match r with
  | .crash => True
  | .more _ => True
  | .ok s' _ => s'.u i = s.u i

theorem keep_bind {α β : Type} {i : Nat} {s : St} {r : Res α} {f : St → α → Res β} (h : Keep i s r)
    (hf : ∀ s' a, r = .ok s' a → s'.u i = s.u i → Keep i s' (f s' a)) : Keep i s (r.bind f) := by
  cases r with
  | crash => trivial
  | more s' => trivial
  | ok s' a =>
    have h1 : s'.u i = s.u i := h
    have h2 := hf s' a rfl h1
    simp only [Res.bind]
    cases hr : f s' a with
    | crash => trivial
    | more _ => trivial
    | ok s'' b => rw [hr] at h2; exact Eq.trans h2 h1

theorem put_keep {c : Cfg} {s : St} {i j : Nat} (h : i ≠ j) : Keep i s (putIoU c s j) := by
  unfold putIoU
  simp only
  split
  · split
    · simp [Keep, h]
    · trivial
  · split
    · simp [Keep, h]
    · trivial

theorem requeue_keep {c : Cfg} {s : St} {i j : Nat} (h : i ≠ j) : Keep i s (requeueIoU c s j) := by
  unfold requeueIoU
  simp only
  split
  · split
    · simp [Keep, h, unissue]
    · trivial
  · split
    · simp [Keep, h, unissue]
    · trivial

theorem compErr_keep {s s0 : St} {i j : Nat} (h : i ≠ j) (h0 : s.u i = s0.u i) (k e : Bool) (cp : Comp) :
    Keep i s0 (compErr s j k e cp) := by
  unfold compErr
  split
  · split
    · cases k <;> simp [Keep, h, h0]
    · exact h0
  · exact h0

theorem verifyAsync_keep {s : St} {i j : Nat} (h : i ≠ j) : (verifyAsync s j).u i = s.u i := by
  unfold verifyAsync
  simp only
  split <;> simp [h]

theorem ioCompleted_keep {c : Cfg} {s : St} {i j : Nat} (h : i ≠ j) (e : Bool) (cp : Comp) :
    Keep i s (ioCompleted c s j e cp) := by
  have h1 : (clearInflight s j).u i = s.u i := by simp [clearInflight, h]
  unfold ioCompleted
  split
  · trivial
  · simp only
    generalize clearInflight s j = s1 at h1
    split
    · split
      · refine compErr_keep h ?_ _ _ _; exact h1
      · exact h1
    · split
      · generalize hs2 : (if (decide ((s1.u j).xferLen - (s1.u j).resid ≠ 0) && decide ((s1.u j).resid ≠ 0)) = true then
            s1.set j fun u => { u with xferLen := u.resid, bufOff := u.bufOff + ((s1.u j).xferLen - (s1.u j).resid),
                                       offset := u.offset + ((s1.u j).xferLen - (s1.u j).resid) }
          else s1) = s2
        have h2 : s2.u i = s.u i := by
          rw [← hs2]
          split
          · simp [h, h1]
          · exact h1
        split
        · have := requeue_keep (c := c) (s := s2) h
          cases hr : requeueIoU c s2 j with
          | crash => trivial
          | more s => trivial
          | ok s' _ => rw [hr] at this; exact Eq.trans this h2
        · split
          · split
            · refine compErr_keep h ((verifyAsync_keep h).trans ?_) _ _ _; exact h2
            · refine compErr_keep h ?_ _ _ _; exact h2
          · refine compErr_keep h ?_ _ _ _; exact h2
      · split
        · refine compErr_keep h ?_ _ _ _; exact h1
        · refine compErr_keep h ?_ _ _ _; exact h1

theorem iosCompleted_keep {c : Cfg} {i : Nat} (evs : List (Nat × Comp)) : ∀ {s : St} (e : Bool),
    (∀ x ∈ evs, i ≠ x.1) → Keep i s (iosCompleted c s evs e) := by
  induction evs with
  | nil => intro s e _; exact rfl
  | cons p evs ih =>
    intro s e h
    have hp := h p (by simp)
    obtain ⟨j, cp⟩ := p
    refine keep_bind (ioCompleted_keep hp e cp) fun s r _ _ => ?_
    refine keep_bind ?_ fun s _ _ _ => ih r.2 fun x hx => h x (by simp [hx])
    split
    · exact put_keep hp
    · exact rfl

theorem engDones_keep {i : Nat} (evs : List (Nat × Comp)) : ∀ {s : St}, (∀ x ∈ evs, i ≠ x.1) →
    (evs.foldl (fun s e => engDone s e.1 e.2) s).u i = s.u i := by
  induction evs with
  | nil => intro s _; rfl
  | cons p evs ih =>
    intro s h
    refine (ih fun x hx => h x (by simp [hx])).trans ?_
    simp [engDone, h p (by simp)]

theorem queuedComplete_keep {c : Cfg} {s : St} {fl hl : List Nat} {i : Nat} (h : Inv c s fl hl) (hi : i ∈ hl) (mn : Nat)
    (a : Ev) : Keep i s (queuedComplete c s mn a) := by
  unfold queuedComplete
  simp only
  generalize (if mn ≠ 0 ∧ mn > s.depth then s.depth else mn) = m
  have hg := getevents_inv h m c.cmax a
  have hk : ∀ evs, (tdIoGetevents c s m c.cmax a).2 = some evs → ∀ x ∈ evs, i ≠ x.1 := by
    intro evs he x hx e
    unfold Evs at hg
    rw [he] at hg
    have hd := Inv.nodup hg
    simp only [List.nodup_append, List.mem_append, List.mem_map] at hd
    exact hd.2.1.2.1.2.1.2.1.2.2 x.1 (Or.inl ⟨x, hx, rfl⟩) i hi e.symm
  have hu : (tdIoGetevents c s m c.cmax a).1.u i = s.u i := by
    revert hk
    unfold tdIoGetevents
    split
    · intro _; rfl
    · split
      · intro _; rfl
      · simp only
        generalize (if m > if c.cmax > s.depth then s.depth else c.cmax then m else if c.cmax > s.depth then s.depth else c.cmax) = M
        split
        · split
          · intro _; rfl
          · intro hk; exact engDones_keep _ (hk _ rfl)
        · intro _; rfl
  generalize tdIoGetevents c s m c.cmax a = g at hk hu
  obtain ⟨s1, o⟩ := g
  cases o with
  | none => exact hu
  | some evs =>
    simp only
    split
    · exact hu
    · have h1 := iosCompleted_keep (c := c) (s := s1) evs false (hk evs rfl)
      cases hr : iosCompleted c s1 evs false with
      | crash => trivial
      | more _ => trivial
      | ok s2 e =>
        rw [hr] at h1
        have h1 : s2.u i = s1.u i := h1
        simp only [Res.bind]
        split <;> exact h1.trans hu

theorem quiesceLoop_keep {c : Cfg} {fl hl : List Nat} {i : Nat} (hi : i ∈ hl) (as : List Ev) : ∀ {s : St},
    Inv c s fl hl → Keep i s (quiesceLoop c s as) := by
  induction as with
  | nil =>
    intro s h
    unfold quiesceLoop
    split
    · exact rfl
    · trivial
  | cons a as ih =>
    intro s h
    unfold quiesceLoop
    split
    · exact rfl
    · refine keep_bind (queuedComplete_keep h hi 1 a) fun s' r hr _ => ih ?_
      have := queuedComplete_ok h 1 a
      rw [hr] at this
      exact this

theorem quiesce_keep {c : Cfg} {s : St} {fl hl : List Nat} {i : Nat} (h : Inv c s fl hl) (hi : i ∈ hl) (cf : Bool)
    (as : List Ev) : Keep i s (quiesce c s cf as) := by
  unfold quiesce
  split
  · have h1 := quiesceLoop_keep hi as (commit_inv h cf)
    cases hr : quiesceLoop c (tdIoCommit c s cf) as with
    | crash => trivial
    | more _ => trivial
    | ok s' _ =>
      rw [hr] at h1
      exact Eq.trans h1 (by rw [commit_u])
  · exact quiesceLoop_keep hi as h

theorem ok_keep {α : Type} {c : Cfg} {i : Nat} {s : St} {r : Res α} {Q : St → α → Prop} (h : Ok c r Q)
    (hk : Keep i s r) : Ok c r fun s' a => Q s' a ∧ s'.u i = s.u i := by
  cases r with
  | crash => exact h
  | more _ => exact h
  | ok s' a => exact ⟨h, hk⟩

/-! ## Turns -/

theorem getIoU_ti {c : Cfg} {s : St} {fl hl : List Nat} (h : Inv c s fl hl) (ht : Tile s) (a : It) :
    Ti (getIoU c s a) := by
  refine ti_bind (getU_ok h a.vd1 a.lat1) (getU_ti h ht a.vd1 a.lat1) fun s o h ht => ?_
  cases o with
  | none => exact ht
  | some i =>
    have h1 : Inv c s fl (i :: hl) := h
    have prep : ∀ {s' : St}, Inv c s' fl (i :: hl) → Tile s' →
        Ti (if a.prepFail then (putIoU c s' i).bind fun s _ => Res.ok s Got.none else Res.ok s' (Got.unit i)) := by
      intro s' h ht
      split
      · exact ti_bind (put_ok h) (putH_ti h ht) fun s _ _ ht => ht
      · exact ht
    simp only
    split
    · exact prep h1 ht
    · rename_i hf
      have hf : (s.u i).file = false := by simpa using hf
      refine ti_bind (c := c) (Q := fun s' _ => Inv c s' fl (i :: hl) ∧ s'.u i = s.u i) ?_ ?_ fun s' _ h ht => ?_
      · split
        · exact ⟨h1, rfl⟩
        · exact ok_keep (quiesce_ok h1 _ _) (quiesce_keep h1 (by simp) _ _)
      · split
        · exact ht
        · exact quiesce_ti h1 ht _ _
      · obtain ⟨h, hu⟩ := h
        split
        · exact ti_bind (put_ok h) (putH_ti h ht) fun s _ _ ht => ht
        · refine prep (h.set i _ ⟨rfl, rfl, rfl⟩) ?_
          refine fill_ti ht (h.main i (by simp)).1 (by rw [hu]; exact hf) _ fun u => ⟨rfl, rfl, rfl, rfl, rfl⟩

theorem flagSet_ti {s : St} (ht : Tile s) (i : Nat) (b : Prop) [Decidable b] (f : U → U) (hf : ∀ u, TU u → TU (f u)) :
    Tile (if b then s.set i f else s) := by
  split
  · exact ht.set i f (hf _)
  · exact ht

theorem doIoTurn_ti {c : Cfg} {s : St} {fl hl : List Nat} (h : Inv c s fl hl) (ht : Tile s) (r : Ret) (a : It) :
    Ti (doIoTurn c s r a) := by
  unfold doIoTurn
  split
  · exact ht
  · refine ti_bind (getIoU_ok h a) (getIoU_ti h ht a) fun s g hg ht => ?_
    cases g with
    | none =>
      simp only
      split
      · exact ti_bind (reap_ok hg _ _ _ _) (reap_ti hg ht _ _ _ _) fun s r h ht => turnEnd_ti h ht r a
      · exact ht
    | busy => exact ti_bind (reap_ok hg _ _ _ _) (reap_ti hg ht _ _ _ _) fun s r h ht => turnEnd_ti h ht r a
    | unit i =>
      obtain ⟨h1, hf⟩ := hg
      simp only
      generalize hs2 : (if (s.u i).ddir = .write ∧ c.doVerify then s.set i fun u => { u with patDone := true } else s) = s2
      have h2 : Inv c s2 fl (i :: hl) ∧ (s2.u i).file = true := by
        rw [← hs2]
        split
        · exact ⟨h1.set i _ ⟨rfl, rfl, rfl⟩, by simp [hf]⟩
        · exact ⟨h1, hf⟩
      have ht2 : Tile s2 := by
        rw [← hs2]
        exact flagSet_ti ht i _ _ fun u t => ⟨t.file, t.fresh, t.len, t.off, t.resid⟩
      split
      · refine ti_bind (put_ok (hl := hl) (fl := fl) ?_) (put_ti (h2.1.main i (by simp)).2.1 ?_) fun s _ _ h => h
        · exact h2.1.same (fun _ => ⟨rfl, rfl, rfl⟩) rfl rfl rfl rfl rfl rfl rfl
        · exact ht2
      · split
        · exact ti_bind (put_ok h2.1) (putH_ti h2.1 ht2) fun s _ _ h => h
        · generalize hs3 : (if a.verify = true then s2.set i fun u => { u with endIo := true } else s2) = s3
          have h3 : Inv c s3 fl (i :: hl) ∧ (s3.u i).file = true := by
            rw [← hs3]
            split
            · exact ⟨h2.1.set i _ ⟨rfl, rfl, rfl⟩, by simp [h2.2]⟩
            · exact h2
          have ht3 : Tile s3 := by
            rw [← hs3]
            exact flagSet_ti ht2 i _ _ fun u t => ⟨t.file, t.fresh, t.len, t.off, t.resid⟩
          refine ti_bind (submit_ok h3.1 h3.2 _ _ _) (submit_ti ht3 _ _ _) fun s r h ht => ?_
          refine ti_bind (ioQueueEvent_ok h _ _ _ _) (ioQueueEvent_ti h ht _ _ _ _) fun s x h ht => ?_
          split
          · exact ht
          · exact ti_bind (reap_ok h _ _ _ _) (reap_ti h ht _ _ _ _) fun s r h ht => turnEnd_ti h ht r a

theorem doIoLoop_ti {c : Cfg} {fl hl : List Nat} (as : List It) : ∀ {s : St} (r : Ret), Inv c s fl hl → Tile s →
    Ti (doIoLoop c s r as) := by
  induction as with
  | nil => intro s r _ ht; exact ht
  | cons a as ih =>
    intro s r h ht
    refine ti_bind (doIoTurn_ok h r a) (doIoTurn_ti h ht r a) fun s n h ht => ?_
    cases n with
    | again r => exact ih r h ht
    | leave => exact ht

theorem doVerifyTurn_ti {c : Cfg} {s : St} {fl hl : List Nat} (h : Inv c s fl hl) (ht : Tile s) (a : It) :
    Ti (doVerifyTurn c s a) := by
  unfold doVerifyTurn
  split
  · exact ht
  · refine ti_bind (getU_ok h a.vd1 a.lat1) (getU_ti h ht _ _) fun s o h ht => ?_
    cases o with
    | none => exact ht
    | some i =>
      have h1 : Inv c s fl (i :: hl) := h
      simp only
      refine ti_bind (c := c) (Q := fun s fill => Inv c s fl (i :: hl) ∧ (fill = true → (s.u i).file = true)) ?_ ?_
        fun s fill h ht => ?_
      · split
        · rename_i hf; exact ⟨h1, fun _ => hf⟩
        · exact ⟨h1.set i _ ⟨rfl, rfl, rfl⟩, by simp⟩
        · exact ⟨h1, by simp⟩
      · split
        · exact ht
        · rename_i hf _
          exact fill_ti ht (h1.main i (by simp)).1 hf _ fun u => ⟨rfl, rfl, rfl, rfl, rfl⟩
        · exact ht
      · split
        · exact ti_bind (put_ok h.1) (putH_ti h.1 ht) fun s _ _ h => h
        · rename_i hc
          have hfill : fill = true := by
            cases fill with
            | true => rfl
            | false => simp at hc
          have h3 : Inv c (s.set i fun u => { u with endIo := true }) fl (i :: hl) := h.1.set i _ ⟨rfl, rfl, rfl⟩
          have ht3 : Tile (s.set i fun u => { u with endIo := true }) :=
            ht.set i _ fun t => ⟨t.file, t.fresh, t.len, t.off, t.resid⟩
          refine ti_bind (submit_ok h3 (by simp [h.2 hfill]) _ _ _) (submit_ti ht3 _ _ _) fun s r h ht => ?_
          refine ti_bind (ioQueueEvent_ok h _ _ _ _) (ioQueueEvent_ti h ht _ _ _ _) fun s x h ht => ?_
          split
          · exact ht
          · exact ti_bind (reap_ok h _ _ _ _) (reap_ti h ht _ _ _ _) fun s r h ht => ht

theorem doVerifyLoop_ti {c : Cfg} {fl hl : List Nat} (as : List It) : ∀ {s : St}, Inv c s fl hl → Tile s →
    Ti (doVerifyLoop c s as) := by
  induction as with
  | nil => intro s _ ht; exact ht
  | cons a as ih =>
    intro s h ht
    refine ti_bind (doVerifyTurn_ok h a) (doVerifyTurn_ti h ht a) fun s n h ht => ?_
    cases n with
    | again r => exact ih h ht
    | leave => exact ht

theorem syncLoop_ti {c : Cfg} {fl hl : List Nat} (ev : Ev) {i : Nat} (qs : List (Q × Bool)) : ∀ {s : St},
    Inv c s fl (i :: hl) → (s.u i).file = true → Tile s → Ti (syncLoop c ev i s qs) := by
  induction qs with
  | nil => intro s _ _ ht; exact ht
  | cons p qs ih =>
    intro s h hf ht
    obtain ⟨q, cf⟩ := p
    refine ti_bind (queue_ok h hf q cf) (queue_ti ht q cf) fun s r h ht => ?_
    cases r with
    | queued =>
      exact ti_bind (queuedComplete_ok (commit_inv h cf) 1 ev) (queuedComplete_ti (commit_inv h cf) (commit_ti ht cf) 1 ev)
        fun s _ _ ht => ht
    | completed =>
      have h' : Inv c s (i :: fl) hl := h
      simp only
      split
      · exact ht
      · exact ti_bind (syncComplete_ok h' _) (syncComplete_ti h' ht _) fun s _ _ ht => ht
    | busy =>
      have h' : Inv c s fl (i :: hl) ∧ (s.u i).file = true := h
      exact ih (commit_inv h'.1 cf) (by rw [commit_u]; exact h'.2) (commit_ti ht cf)
    | err => exact ht

theorem ioSync_ti {c : Cfg} {s : St} {fl hl : List Nat} (h : Inv c s fl hl) (ht : Tile s) (a : Sy) :
    Ti (ioSync c s a) := by
  refine ti_bind (getU_ok h a.vd a.lat) (getU_ti h ht _ _) fun s o h ht => ?_
  cases o with
  | none => exact ht
  | some i =>
    have h1 : Inv c s fl (i :: hl) := h
    have h2 : Inv c (s.set i fun u => { u with ddir := .sync, file := true }) fl (i :: hl) := h1.set i _ ⟨rfl, rfl, rfl⟩
    have ht2 : Tile (s.set i fun u => { u with ddir := .sync, file := true }) :=
      ht.set i _ fun t => ⟨fun _ => rfl, by simp, by simp [Dir.rw], by simp [Dir.rw], by simp [Dir.rw]⟩
    simp only
    split
    · exact putH_ti h2 ht2
    · exact syncLoop_ti a.ev a.qs h2 (by simp) ht2

theorem ioSyncs_ti {c : Cfg} (as : List Sy) : ∀ {s : St} {k : Nat}, Lost c k s → Tile s → Ti (ioSyncs c s as) := by
  induction as with
  | nil => intro s k _ ht; exact ht
  | cons a as ih =>
    intro s k h ht
    have h0 := h
    obtain ⟨fl, h, _⟩ := h
    exact ti_bind (ioSync_ok h0 a) (ioSync_ti h ht a) fun s _ h ht => ih h ht

theorem doIoEnd_ti {c : Cfg} {s : St} {k : Nat} (h : Lost c k s) (ht : Tile s) (ev : Ev) (syncs : List Sy)
    (clear nob : Bool) : Ti (doIoEnd c s ev syncs clear nob) := by
  have key : Ti (if !(s.error && !clear) then
      (if s.depth ≠ 0 then queuedComplete c { s with error := false } s.depth ev
        else .ok { s with error := false } (some 0)).bind fun s _ =>
        if syncs.isEmpty then .ok s () else ioSyncs c { s with fsyncing := true } syncs
    else (queuedComplete c s s.depth ev).bind fun s _ => .ok s ()) := by
    split
    · have h0 : Lost c k { s with error := false } := h.same ⟨rfl, rfl, rfl, rfl, rfl, rfl, rfl, rfl⟩
      have ht0 : Tile { s with error := false } := ht
      refine ti_bind (c := c) (Q := fun s' _ => Lost c k s') ?_ ?_ fun s _ h ht => ?_
      · split
        · obtain ⟨fl, h, hk⟩ := h0
          exact ok_mono (queuedComplete_ok h _ ev) fun s _ h => ⟨fl, h, hk⟩
        · exact h0
      · split
        · obtain ⟨fl, h, hk⟩ := h0
          exact queuedComplete_ti h ht0 _ ev
        · exact ht0
      · split
        · exact ht
        · exact ioSyncs_ti (s := { s with fsyncing := true }) (k := k) syncs
            (h.same ⟨rfl, rfl, rfl, rfl, rfl, rfl, rfl, rfl⟩) ht
    · obtain ⟨fl, h, hk⟩ := h
      exact ti_bind (queuedComplete_ok h _ ev) (queuedComplete_ti h ht _ ev) fun s _ _ ht => ht
  unfold doIoEnd
  generalize (if !(s.error && !clear) then _ else _ : Res Unit) = r at key
  cases r with
  | crash => trivial
  | more _ => exact key
  | ok s _ => exact key

theorem phase_ti {c : Cfg} {s : St} {k : Nat} (h : Lost c k s) (ht : Tile s) (p : Phase) : Ti (phase c s p) := by
  cases p with
  | io as ev syncs clear nob =>
    obtain ⟨fl, h, hk⟩ := h
    exact ti_bind (doIoLoop_ok as _ h) (doIoLoop_ti as _ h ht) fun s _ h ht =>
      doIoEnd_ti ⟨fl, h, hk⟩ ht ev syncs clear nob
  | verify syncs as ev =>
    refine ti_bind (ioSyncs_ok syncs h) (ioSyncs_ti syncs h ht) fun s _ h ht => ?_
    split
    · exact ht
    · obtain ⟨fl, h, hk⟩ := h
      refine ti_bind (doVerifyLoop_ok as h) (doVerifyLoop_ti as h ht) fun s _ h ht => ?_
      split
      · exact ti_bind (queuedComplete_ok h _ ev) (queuedComplete_ti h ht _ ev) fun s _ _ ht => ht
      · exact ht

theorem phases_ti {c : Cfg} (ps : List Phase) : ∀ {s : St} {k : Nat}, Lost c k s → Tile s → Ti (phases c s ps) := by
  induction ps with
  | nil => intro s k _ ht; exact ht
  | cons p ps ih =>
    intro s k h ht
    exact ti_bind (phase_ok h p) (phase_ti h ht p) fun s _ h ht =>
      ih (s := { s with fsyncing := false, error := false }) (h.same ⟨rfl, rfl, rfl, rfl, rfl, rfl, rfl, rfl⟩) ht

theorem init_ti (c : Cfg) : Tile (init c) := fun _ => ⟨by simp [init, freshU], by simp [init, freshU],
  by simp [init, freshU], by simp [init, freshU], by simp [init, freshU]⟩

end Fio.IoU
