import Verif.IoU.Lemmas

namespace Fio.IoU

/-! ## Events -/

/-- The events are distinct units the engine had. -/
theorem pull_perm (ps : List (Nat × Comp)) : ∀ (max : Nat) (eng : List Nat),
    eng.Perm (((pull max eng ps).1.map (·.1)) ++ (pull max eng ps).2) ∧ (pull max eng ps).1.length ≤ max := by
  induction ps with
  | nil => intro max eng; cases max <;> exact ⟨List.Perm.refl _, Nat.zero_le _⟩
  | cons p ps ih =>
    intro max eng
    obtain ⟨k, cp⟩ := p
    cases max with
    | zero => exact ⟨List.Perm.refl _, Nat.zero_le _⟩
    | succ max =>
      simp only [pull]
      cases hk : eng[k]? with
      | none => exact ih (max + 1) eng
      | some i =>
        obtain ⟨h1, h2⟩ := ih max (eng.eraseIdx k)
        exact ⟨(eraseIdx_perm eng k i hk).trans (h1.cons i), Nat.succ_le_succ h2⟩

/-- What `td_io_getevents` leaves. -/
def Evs (c : Cfg) (fl hl : List Nat) (r : St × Option (List (Nat × Comp))) : Prop :=
  match r.2 with
  | none => Inv c r.1 fl hl
  | some evs => Inv c r.1 (evs.map (·.1) ++ fl) hl

theorem getevents_inv {c : Cfg} {s : St} {fl hl : List Nat} (h : Inv c s fl hl) (mn mx : Nat) (a : Ev) :
    Evs c fl hl (tdIoGetevents c s mn mx a) := by
  unfold tdIoGetevents
  split
  · exact h
  · split
    · exact Inv.same (s := s) h (fun _ => ⟨rfl, rfl, rfl⟩) rfl rfl rfl rfl rfl rfl rfl
    · simp only
      generalize (if mn > if mx > s.depth then s.depth else mx then mn else if mx > s.depth then s.depth else mx) = m
      split
      · split
        · exact Inv.same (s := s) h (fun _ => ⟨rfl, rfl, rfl⟩) rfl rfl rfl rfl rfl rfl rfl
        · refine engDones_inv _ ?_
          obtain ⟨hp, _⟩ := pull_perm a.picks m s.eng
          generalize pull m s.eng a.picks = r at hp ⊢
          have hpl := hp.length_eq
          simp only [List.length_append, List.length_map] at hpl
          have hlen := h.len
          have hdep := h.depth
          have hc := h.count
          have hb := h.bnd
          have hsm := h.small
          refine ⟨h.small, ?_, h.idle, h.verif, ?_, h.main, ?_, ?_, ?_⟩
          · refine List.Perm.trans ?_ h.perm
            rw [perm_count]; intro x
            have := perm_count.mp hp x
            simp only [List.count_append] at this ⊢
            omega
          · intro j hj
            refine h.flying j ?_
            rw [hp.mem_iff]
            simp only [List.mem_append] at hj ⊢
            grind
          · simp only [List.length_append, List.length_map]; omega
          · simp only; unfold w32; omega
          · simp only; unfold w32; omega
      · exact h

/-! ## Completions -/

theorem clearInflight_inv {c : Cfg} {s : St} {fl hl : List Nat} {i : Nat} (h : Inv c s (i :: fl) hl) :
    Inv c (clearInflight s i) fl (i :: hl) := by
  have hm := h.flying i (by simp)
  have hd := h.nodup
  have ndi : i ∉ s.freeq ∧ i ∉ s.reqs ∧ i ∉ s.ver ∧ i ∉ s.eng ∧ i ∉ fl ∧ i ∉ hl := by
    simp only [List.nodup_append, List.nodup_cons, List.mem_append, List.mem_cons] at hd
    grind
  refine ⟨h.small, ?_, ?_, ?_, ?_, ?_, ?_, h.count, h.bnd⟩
  · refine List.Perm.trans ?_ h.perm
    rw [perm_count]; intro a
    simp only [clearInflight, set_freeq, set_reqs, set_ver, set_eng, List.cons_append, List.count_cons,
      List.count_append]
    omega
  · intro j hj
    have e : j ≠ i := by rintro rfl; exact hj.elim ndi.1 ndi.2.1
    simp only [clearInflight, set_u, if_neg e]; exact h.idle j hj
  · intro j hj
    have e : j ≠ i := by rintro rfl; exact ndi.2.2.1 hj
    simp only [clearInflight, set_u, if_neg e]; exact h.verif j hj
  · intro j hj
    have e : j ≠ i := by rintro rfl; exact hj.elim ndi.2.2.2.1 ndi.2.2.2.2.1
    simp only [clearInflight, set_u, if_neg e]
    exact h.flying j (hj.imp id (List.mem_cons_of_mem _))
  · intro j hj
    simp only [clearInflight, set_u]
    split
    · exact ⟨hm.1, rfl, hm.2.2⟩
    · exact h.main j (by grind)
  · have := h.depth
    simp only [List.length_cons] at this ⊢
    simp only [clearInflight, set_depth, set_eng]; omega

theorem clearIoU_ok {c : Cfg} {s : St} {fl hl : List Nat} {i : Nat} (h : Inv c s (i :: fl) hl) :
    Ok c (clearIoU c s i) fun s' _ => Inv c s' fl hl := put_ok (clearInflight_inv h)

theorem verifyAsync_inv {c : Cfg} {s : St} {fl hl : List Nat} {i : Nat} (h : Inv c s fl (i :: hl)) :
    Inv c (verifyAsync s i) fl hl := by
  have hm := h.main i (by simp)
  have hd := h.nodup
  have hdep := h.depth
  have hlen := h.len
  have hsm := h.small
  simp only [List.length_cons] at hdep hlen
  have ndi : i ∉ s.freeq ∧ i ∉ s.reqs ∧ i ∉ s.ver ∧ i ∉ s.eng ∧ i ∉ fl ∧ i ∉ hl := by
    simp only [List.nodup_append, List.nodup_cons, List.mem_append, List.mem_cons] at hd
    grind
  unfold verifyAsync
  simp only [hm.2.2, if_true]
  refine ⟨h.small, ?_, ?_, ?_, ?_, ?_, ?_, h.count, h.bnd⟩
  · refine List.Perm.trans ?_ h.perm
    rw [perm_count]; intro a
    simp only [set_freeq, set_reqs, set_ver, set_eng, List.count_cons, List.count_append, List.count_nil]
    omega
  · intro j hj
    have e : j ≠ i := by rintro rfl; exact hj.elim ndi.1 ndi.2.1
    simp only [set_u, if_neg e]; exact h.idle j hj
  · intro j hj
    simp only [set_ver, List.mem_append, List.mem_singleton] at hj
    simp only [set_u]
    split
    · exact ⟨hm.1, hm.2.1, rfl⟩
    · exact h.verif j (by grind)
  · intro j hj
    have e : j ≠ i := by rintro rfl; exact hj.elim ndi.2.2.2.1 ndi.2.2.2.2.1
    simp only [set_u, if_neg e]; exact h.flying j hj
  · intro j hj
    have e : j ≠ i := by rintro rfl; exact ndi.2.2.2.2.2 hj
    simp only [set_u, if_neg e]; exact h.main j (by simp [hj])
  · simp only [set_depth, set_eng]
    rw [dec32 _ (by omega) (by omega)]; omega

/-- What is left after a completion. -/
def Left (c : Cfg) (fl hl : List Nat) (i : Nat) (s : St) (r : Bool × Bool) : Prop :=
  if r.1 then Inv c s fl (i :: hl) else Inv c s fl hl

theorem compErr_ok {c : Cfg} {s : St} {fl hl : List Nat} {i : Nat} {keep : Bool} (e : Bool) (cp : Comp)
    (h : if keep then Inv c s fl (i :: hl) else Inv c s fl hl) :
    Ok c (compErr s i keep e cp) (Left c fl hl i) := by
  unfold compErr
  split
  · split
    · cases keep with
      | true =>
        refine Inv.same (s := s) h (fun j => ?_) rfl rfl rfl rfl rfl rfl rfl
        simp only [if_true, set_u]
        split
        · rename_i e; rw [e]; exact ⟨rfl, rfl, rfl⟩
        · exact ⟨rfl, rfl, rfl⟩
      | false => exact Inv.same (s := s) h (fun j => ⟨rfl, rfl, rfl⟩) rfl rfl rfl rfl rfl rfl rfl
    · exact h
  · exact h

theorem ioCompleted_ok {c : Cfg} {s : St} {fl hl : List Nat} {i : Nat} (h : Inv c s (i :: fl) hl) (e : Bool)
    (cp : Comp) : Ok c (ioCompleted c s i e cp) (Left c fl hl i) := by
  have hm := h.flying i (by simp)
  have h1 := clearInflight_inv h
  unfold ioCompleted
  rw [if_neg (by rw [hm.2.1]; decide)]
  generalize clearInflight s i = s1 at h1
  have herr : ∀ b : Bool, Inv c { s1 with error := b } fl (i :: hl) := fun b =>
    h1.same (fun _ => ⟨rfl, rfl, rfl⟩) rfl rfl rfl rfl rfl rfl rfl
  simp only
  split
  · split
    · exact compErr_ok true cp (by simp only [if_true]; exact herr _)
    · exact h1
  · split
    · generalize hs2 : (if (decide ((s1.u i).xferLen - (s1.u i).resid ≠ 0) && decide ((s1.u i).resid ≠ 0)) = true then
          s1.set i fun u => { u with xferLen := u.resid, bufOff := u.bufOff + ((s1.u i).xferLen - (s1.u i).resid),
                                     offset := u.offset + ((s1.u i).xferLen - (s1.u i).resid) }
        else s1) = s2
      have h2 : Inv c s2 fl (i :: hl) := by
        rw [← hs2]
        split
        · exact h1.set i _ ⟨rfl, rfl, rfl⟩
        · exact h1
      split
      · exact ok_bind (requeue_ok (Or.inl h2)) fun s' _ h' => h'
      · have h3 : Inv c { s2 with ioBytes := upd s2.ioBytes (s1.u i).ddir (s2.ioBytes (s1.u i).ddir +
            ((s1.u i).xferLen - (s1.u i).resid)) } fl (i :: hl) :=
          h2.same (fun _ => ⟨rfl, rfl, rfl⟩) rfl rfl rfl rfl rfl rfl rfl
        split
        · split
          · exact compErr_ok _ cp (verifyAsync_inv h3)
          · exact compErr_ok _ cp h3
        · exact compErr_ok _ cp h3
    · split
      · exact compErr_ok _ cp h1
      · exact compErr_ok true cp (by simp only [if_true]; exact herr _)

theorem putLeft_ok {c : Cfg} {s : St} {fl hl : List Nat} {i : Nat} {r : Bool × Bool} (h : Left c fl hl i s r) :
    Ok c (if r.1 then putIoU c s i else .ok s ()) fun s' _ => Inv c s' fl hl := by
  unfold Left at h
  split
  · rename_i e; rw [if_pos e] at h; exact put_ok h
  · rename_i e; rw [if_neg e] at h; exact h

theorem iosCompleted_ok {c : Cfg} {fl hl : List Nat} (evs : List (Nat × Comp)) : ∀ {s : St} (e : Bool),
    Inv c s (evs.map (·.1) ++ fl) hl → Ok c (iosCompleted c s evs e) fun s' _ => Inv c s' fl hl := by
  induction evs with
  | nil => intro s e h; exact h
  | cons p evs ih =>
    intro s e h
    obtain ⟨i, cp⟩ := p
    refine ok_bind (ioCompleted_ok h e cp) fun s r hr => ?_
    exact ok_bind (putLeft_ok hr) fun s _ h' => ih r.2 h'

theorem syncComplete_ok {c : Cfg} {s : St} {fl hl : List Nat} {i : Nat} (h : Inv c s (i :: fl) hl) (cp : Comp) :
    Ok c (syncComplete c s i cp) fun s' _ => Inv c s' fl hl := by
  refine ok_bind (ioCompleted_ok h false cp) fun s r hr => ?_
  refine ok_bind (putLeft_ok hr) fun s _ h' => ?_
  split
  · exact h'.same (fun _ => ⟨rfl, rfl, rfl⟩) rfl rfl rfl rfl rfl rfl rfl
  · exact h'

theorem queuedComplete_ok {c : Cfg} {s : St} {fl hl : List Nat} (h : Inv c s fl hl) (mn : Nat) (a : Ev) :
    Ok c (queuedComplete c s mn a) fun s' _ => Inv c s' fl hl := by
  unfold queuedComplete
  simp only
  generalize (if mn ≠ 0 ∧ mn > s.depth then s.depth else mn) = m
  have hg := getevents_inv h m c.cmax a
  generalize tdIoGetevents c s m c.cmax a = g at hg
  obtain ⟨s1, o⟩ := g
  cases o with
  | none => exact Inv.same (s := s1) hg (fun _ => ⟨rfl, rfl, rfl⟩) rfl rfl rfl rfl rfl rfl rfl
  | some evs =>
    simp only
    split
    · rename_i he
      have : evs = [] := by simpa using he
      subst this
      exact hg
    · refine ok_bind (iosCompleted_ok evs false hg) fun s' e h' => ?_
      split
      · exact h'.same (fun _ => ⟨rfl, rfl, rfl⟩) rfl rfl rfl rfl rfl rfl rfl
      · exact h'

theorem quiesceLoop_ok {c : Cfg} {fl hl : List Nat} (as : List Ev) : ∀ {s : St}, Inv c s fl hl →
    Ok c (quiesceLoop c s as) fun s' _ => Inv c s' fl hl := by
  induction as with
  | nil =>
    intro s h
    unfold quiesceLoop
    split
    · exact h
    · exact ⟨fl, hl, h⟩
  | cons a as ih =>
    intro s h
    unfold quiesceLoop
    split
    · exact h
    · exact ok_bind (queuedComplete_ok h 1 a) fun s' _ h' => ih h'

theorem quiesce_ok {c : Cfg} {s : St} {fl hl : List Nat} (h : Inv c s fl hl) (cf : Bool) (as : List Ev) :
    Ok c (quiesce c s cf as) fun s' _ => Inv c s' fl hl := by
  unfold quiesce
  refine quiesceLoop_ok as ?_
  split
  · exact commit_inv h cf
  · exact h

theorem waitLoop_ok {c : Cfg} {fl hl : List Nat} (full : Bool) (mn : Nat) (as : List Ev) : ∀ {s : St},
    Inv c s fl hl → Ok c (waitLoop c full mn s as) fun s' _ => Inv c s' fl hl := by
  induction as with
  | nil => intro s h; exact ⟨fl, hl, h⟩
  | cons a as ih =>
    intro s h
    refine ok_bind (queuedComplete_ok h mn a) fun s' r h' => ?_
    cases r with
    | none => exact h'
    | some k =>
      simp only
      split
      · exact ih h'
      · exact h'

theorem waitFor_ok {c : Cfg} {s : St} {fl hl : List Nat} (h : Inv c s fl hl) (lat : Bool) (as : List Ev) :
    Ok c (waitFor c s lat as) fun s' _ => Inv c s' fl hl := waitLoop_ok _ _ as h

/-! ## Turns -/

theorem breakOn_inv {c : Cfg} {s : St} {fl hl : List Nat} (h : Inv c s fl hl) (r : Ret) (b : Brk) :
    Inv c (breakOn s r b).1 fl hl := by
  unfold breakOn
  split
  · cases b <;> exact h.same (fun _ => ⟨rfl, rfl, rfl⟩) rfl rfl rfl rfl rfl rfl rfl
  · exact h

/-- What `td_io_queue` or the check for overlap leaves. -/
def After (c : Cfg) (fl hl : List Nat) (i : Nat) (s : St) (r : Ret) : Prop :=
  match r with
  | .completed => Inv c s (i :: fl) hl
  | .queued => Inv c s fl hl
  | .busy => Inv c s fl (i :: hl)
  | .err => False

theorem submit_ok {c : Cfg} {s : St} {fl hl : List Nat} {i : Nat} (h : Inv c s fl (i :: hl))
    (hf : (s.u i).file = true) (ov : Bool) (q : Q) (cf : Bool) :
    Ok c (submit c s i ov q cf) (After c fl hl i) := by
  unfold submit
  split
  · exact h
  · refine ok_mono (queue_ok h hf q cf) fun s' r x => ?_
    cases r with
    | busy => exact x.1
    | completed => exact x
    | queued => exact x
    | err => exact x

theorem ioQueueEvent_ok {c : Cfg} {s : St} {fl hl : List Nat} {i : Nat} {r : Ret} (h : After c fl hl i s r) (fv : Bool)
    (cp : Comp) (cf : Bool) (b : Brk) :
    Ok c (ioQueueEvent c s i r fv cp cf b) fun s' _ => Inv c s' fl hl := by
  have fin : ∀ {s' : St} (r : Ret), Inv c s' fl hl →
      Ok c (let x := breakOn s' r b; Res.ok x.1 (x.2.1, x.2.2)) fun s' _ => Inv c s' fl hl :=
    fun {s'} r h => breakOn_inv h r b
  have fin' : ∀ {s' : St} (r : Ret), Inv c s' fl hl →
      Ok c (if fv then Res.ok s' (r, false) else let x := breakOn s' r b; Res.ok x.1 (x.2.1, x.2.2))
        fun s' _ => Inv c s' fl hl := by
    intro s' r h
    split
    · exact h
    · exact fin r h
  have syncDone : ∀ {s' : St}, Inv c s' (i :: fl) hl →
      Ok c ((syncComplete c s' i cp).bind fun s r =>
        if r = .err then (let x := breakOn s r b; Res.ok x.1 (x.2.1, x.2.2))
        else if fv then Res.ok s (r, false) else let x := breakOn s r b; Res.ok x.1 (x.2.1, x.2.2))
        fun s' _ => Inv c s' fl hl := by
    intro s' h
    refine ok_bind (syncComplete_ok h cp) fun s r h' => ?_
    split
    · exact fin r h'
    · exact fin' r h'
  unfold ioQueueEvent
  cases r with
  | completed =>
    have h1 : Inv c s (i :: fl) hl := h
    simp only
    split
    · exact ok_bind (clearIoU_ok h1) fun s' _ h' => fin' .err h'
    · split
      · split
        · refine ok_bind (clearIoU_ok (s := { s with error := true }) ?_) fun s' _ h' => fin .completed h'
          exact h1.same (fun _ => ⟨rfl, rfl, rfl⟩) rfl rfl rfl rfl rfl rfl rfl
        · split
          · exact syncDone (h1.set i _ ⟨rfl, rfl, rfl⟩)
          · exact ok_bind (requeue_ok (Or.inr (h1.set i _ ⟨rfl, rfl, rfl⟩))) fun s' _ h' => fin' .completed h'
      · exact syncDone h1
  | queued => exact fin .queued h
  | busy => exact ok_bind (requeue_ok (Or.inl h)) fun s' _ h' => fin .busy (commit_inv h' cf)
  | err => exact False.elim h

theorem reap_ok {c : Cfg} {s : St} {fl hl : List Nat} (h : Inv c s fl hl) (r : Ret) (vd : List Nat) (lat : Bool)
    (evs : List Ev) : Ok c (reap c s r vd lat evs) fun s' _ => Inv c s' fl hl := by
  refine ok_bind (verDones_ok vd h) fun s _ h => ?_
  simp only
  split
  · exact ok_bind (waitFor_ok h lat evs) fun s _ h => h
  · exact h

theorem turnEnd_ok {c : Cfg} {s : St} {fl hl : List Nat} (h : Inv c s fl hl) (r : Ret) (a : It) :
    Ok c (turnEnd c s r a) fun s' _ => Inv c s' fl hl := by
  unfold turnEnd
  split
  · exact h
  · split
    · exact h
    · exact ok_bind (quiesce_ok h _ _) fun s _ h => h

/-- What `get_io_u` leaves. -/
def Gets (c : Cfg) (fl hl : List Nat) (s : St) : Got → Prop
  | .unit i => Inv c s fl (i :: hl) ∧ (s.u i).file = true
  | .none => Inv c s fl hl
  | .busy => Inv c s fl hl

theorem getIoU_ok {c : Cfg} {s : St} {fl hl : List Nat} (h : Inv c s fl hl) (a : It) :
    Ok c (getIoU c s a) (Gets c fl hl) := by
  refine ok_bind (getU_ok h a.vd1 a.lat1) fun s o h => ?_
  cases o with
  | none => exact h
  | some i =>
    have h1 : Inv c s fl (i :: hl) := h
    have prep : ∀ {s' : St}, Inv c s' fl (i :: hl) → (s'.u i).file = true →
        Ok c (if a.prepFail then (putIoU c s' i).bind fun s _ => Res.ok s Got.none else Res.ok s' (Got.unit i))
          (Gets c fl hl) := by
      intro s' h hf
      split
      · exact ok_bind (put_ok h) fun s _ h => h
      · exact ⟨h, hf⟩
    simp only
    split
    · rename_i hf; exact prep h1 hf
    · refine ok_bind (Q := fun s _ => Inv c s fl (i :: hl)) ?_ fun s _ h => ?_
      · split
        · exact h1
        · exact quiesce_ok h1 _ _
      · split
        · refine ok_bind (put_ok h) fun s _ h => ?_
          show Gets c fl hl s (if a.fillBusy then .busy else .none)
          split <;> exact h
        · exact prep (h.set i _ ⟨rfl, rfl, rfl⟩) (by simp)

theorem doIoTurn_ok {c : Cfg} {s : St} {fl hl : List Nat} (h : Inv c s fl hl) (r : Ret) (a : It) :
    Ok c (doIoTurn c s r a) fun s' _ => Inv c s' fl hl := by
  unfold doIoTurn
  split
  · exact h
  · refine ok_bind (getIoU_ok h a) fun s g hg => ?_
    cases g with
    | none =>
      simp only
      split
      · exact ok_bind (reap_ok hg _ _ _ _) fun s r h => turnEnd_ok h r a
      · exact hg
    | busy => exact ok_bind (reap_ok hg _ _ _ _) fun s r h => turnEnd_ok h r a
    | unit i =>
      obtain ⟨h1, hf⟩ := hg
      simp only
      generalize hs2 : (if (s.u i).ddir = .write ∧ c.doVerify then s.set i fun u => { u with patDone := true } else s) = s2
      have h2 : Inv c s2 fl (i :: hl) ∧ (s2.u i).file = true := by
        rw [← hs2]
        split
        · exact ⟨h1.set i _ ⟨rfl, rfl, rfl⟩, by simp [hf]⟩
        · exact ⟨h1, hf⟩
      split
      · refine ok_bind (put_ok (hl := hl) (fl := fl) ?_) fun s _ h => h
        exact h2.1.same (fun _ => ⟨rfl, rfl, rfl⟩) rfl rfl rfl rfl rfl rfl rfl
      · split
        · exact ok_bind (put_ok h2.1) fun s _ h => h
        · generalize hs3 : (if a.verify = true then s2.set i fun u => { u with endIo := true } else s2) = s3
          have h3 : Inv c s3 fl (i :: hl) ∧ (s3.u i).file = true := by
            rw [← hs3]
            split
            · exact ⟨h2.1.set i _ ⟨rfl, rfl, rfl⟩, by simp [h2.2]⟩
            · exact h2
          refine ok_bind (submit_ok h3.1 h3.2 _ _ _) fun s r h => ?_
          refine ok_bind (ioQueueEvent_ok h _ _ _ _) fun s x h => ?_
          split
          · exact h
          · exact ok_bind (reap_ok h _ _ _ _) fun s r h => turnEnd_ok h r a

theorem doIoLoop_ok {c : Cfg} {fl hl : List Nat} (as : List It) : ∀ {s : St} (r : Ret), Inv c s fl hl →
    Ok c (doIoLoop c s r as) fun s' _ => Inv c s' fl hl := by
  induction as with
  | nil => intro s r h; exact ⟨fl, hl, h⟩
  | cons a as ih =>
    intro s r h
    refine ok_bind (doIoTurn_ok h r a) fun s n h => ?_
    cases n with
    | again r => exact ih r h
    | leave => exact h

theorem doVerifyTurn_ok {c : Cfg} {s : St} {fl hl : List Nat} (h : Inv c s fl hl) (a : It) :
    Ok c (doVerifyTurn c s a) fun s' _ => Inv c s' fl hl := by
  unfold doVerifyTurn
  split
  · exact h
  · refine ok_bind (getU_ok h a.vd1 a.lat1) fun s o h => ?_
    cases o with
    | none => exact h
    | some i =>
      have h1 : Inv c s fl (i :: hl) := h
      simp only
      refine ok_bind (Q := fun s fill => Inv c s fl (i :: hl) ∧ (fill = true → (s.u i).file = true)) ?_ fun s fill h => ?_
      · split
        · rename_i hf; exact ⟨h1, fun _ => hf⟩
        · exact ⟨h1.set i _ ⟨rfl, rfl, rfl⟩, by simp⟩
        · exact ⟨h1, by simp⟩
      · split
        · exact ok_bind (put_ok h.1) fun s _ h => h
        · rename_i hc
          have hfill : fill = true := by
            cases fill with
            | true => rfl
            | false => simp at hc
          have h3 : Inv c (s.set i fun u => { u with endIo := true }) fl (i :: hl) := h.1.set i _ ⟨rfl, rfl, rfl⟩
          refine ok_bind (submit_ok h3 (by simp [h.2 hfill]) _ _ _) fun s r h => ?_
          refine ok_bind (ioQueueEvent_ok h _ _ _ _) fun s x h => ?_
          split
          · exact h
          · exact ok_bind (reap_ok h _ _ _ _) fun s r h => h

theorem doVerifyLoop_ok {c : Cfg} {fl hl : List Nat} (as : List It) : ∀ {s : St}, Inv c s fl hl →
    Ok c (doVerifyLoop c s as) fun s' _ => Inv c s' fl hl := by
  induction as with
  | nil => intro s h; exact ⟨fl, hl, h⟩
  | cons a as ih =>
    intro s h
    refine ok_bind (doVerifyTurn_ok h a) fun s n h => ?_
    cases n with
    | again r => exact ih h
    | leave => exact h

end Fio.IoU
