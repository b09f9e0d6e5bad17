import Verif.IoU.Comp

namespace Fio.IoU

/-- Errors the engine reports for syncs it completes at once. -/
def Sy.errs (a : Sy) : Nat := a.qs.countP fun q => q.1.comp.err
def Phase.errs : Phase → Nat
  | .io _ _ syncs _ _ => (syncs.map Sy.errs).sum
  | .verify syncs _ _ => (syncs.map Sy.errs).sum

/-- Between turns the main thread holds no unit, but for at most `k` it lost. -/
def Lost (c : Cfg) (k : Nat) (s : St) : Prop := ∃ fl, Inv c s fl [] ∧ fl.length ≤ k

theorem Lost.mono {c : Cfg} {k k' : Nat} {s : St} (h : Lost c k s) (e : k ≤ k') : Lost c k' s := by
  obtain ⟨fl, h, l⟩ := h
  exact ⟨fl, h, by omega⟩

theorem Lost.same {c : Cfg} {k : Nat} {s s' : St} (h : Lost c k s)
    (hs : s'.u = s.u ∧ s'.freeq = s.freeq ∧ s'.reqs = s.reqs ∧ s'.ver = s.ver ∧ s'.eng = s.eng ∧ s'.depth = s.depth ∧
      s'.inFlight = s.inFlight ∧ s'.queued = s.queued) : Lost c k s' := by
  obtain ⟨fl, h, l⟩ := h
  obtain ⟨h1, h2, h3, h4, h5, h6, h7, h8⟩ := hs
  exact ⟨fl, h.same (fun _ => by rw [h1]; exact ⟨rfl, rfl, rfl⟩) h2 h3 h4 h5 h6 h8 h7, l⟩

theorem queue_err {c : Cfg} {s s' : St} {i : Nat} {q : Q} {cf : Bool} {r : Ret}
    (h : tdIoQueue c s i q cf = .ok s' r) : r ≠ .err ∧ (r = .completed → (s'.u i).err = q.comp.err) := by
  unfold tdIoQueue at h
  split at h
  · exact absurd h (by simp)
  · split at h
    · exact absurd h (by simp)
    · simp only [Res.ok.injEq] at h
      obtain ⟨h1, h2⟩ := h
      subst h1; subst h2
      cases q <;> simp [queueAns, engDone, Q.comp]

theorem syncLoop_ok {c : Cfg} {k : Nat} {fl : List Nat} (ev : Ev) {i : Nat} (hk : fl.length ≤ k)
    (qs : List (Q × Bool)) : ∀ {s : St},
    Inv c s fl [i] → (s.u i).file = true →
    Ok c (syncLoop c ev i s qs) fun s' _ => Lost c (k + qs.countP fun q => q.1.comp.err) s' := by
  induction qs with
  | nil => intro s h _; exact ⟨fl, [i], h⟩
  | cons p qs ih =>
    intro s h hf
    obtain ⟨q, cf⟩ := p
    have hq := queue_ok h hf q cf
    unfold syncLoop
    cases hr : tdIoQueue c s i q cf with
    | crash => rw [hr] at hq; exact hq
    | more s' => rw [hr] at hq; exact hq
    | ok s' r =>
      rw [hr] at hq
      obtain ⟨_, he⟩ := queue_err hr
      simp only [Res.bind]
      cases r with
      | queued =>
        refine ok_bind (queuedComplete_ok (commit_inv hq cf) 1 ev) fun s _ h => ?_
        exact ⟨fl, h, by simp only [List.countP_cons]; omega⟩
      | completed =>
        have h' : Inv c s' (i :: fl) [] := hq
        simp only
        split
        · rename_i hs
          refine ⟨i :: fl, h'.same (fun _ => ⟨rfl, rfl, rfl⟩) rfl rfl rfl rfl rfl rfl rfl, ?_⟩
          have hc : q.comp.err = true := by rw [← he rfl]; exact hs
          simp only [List.countP_cons, hc, if_true, List.length_cons]
          omega
        · refine ok_bind (syncComplete_ok h' _) fun s _ h => ?_
          exact ⟨fl, h, by simp only [List.countP_cons]; omega⟩
      | busy =>
        have h' : Inv c s' fl [i] ∧ _ := hq
        refine ok_mono (ih (commit_inv h'.1 cf) (by rw [commit_u]; exact h'.2)) fun s _ h => h.mono ?_
        simp only [List.countP_cons]; omega
      | err => exact absurd hq id

theorem ioSync_ok {c : Cfg} {s : St} {k : Nat} (h : Lost c k s) (a : Sy) :
    Ok c (ioSync c s a) fun s' _ => Lost c (k + a.errs) s' := by
  obtain ⟨fl, h, hk⟩ := h
  refine ok_bind (getU_ok h a.vd a.lat) fun s o h => ?_
  cases o with
  | none => exact ⟨fl, h, by omega⟩
  | some i =>
    have h1 : Inv c s fl [i] := h
    have h2 : Inv c (s.set i fun u => { u with ddir := .sync, file := true }) fl [i] := h1.set i _ ⟨rfl, rfl, rfl⟩
    simp only
    split
    · exact ok_mono (put_ok h2) fun s _ h => ⟨fl, h, by omega⟩
    · exact syncLoop_ok a.ev hk a.qs h2 (by simp)

theorem ioSyncs_ok {c : Cfg} (as : List Sy) : ∀ {s : St} {k : Nat}, Lost c k s →
    Ok c (ioSyncs c s as) fun s' _ => Lost c (k + (as.map Sy.errs).sum) s' := by
  induction as with
  | nil => intro s k h; exact h
  | cons a as ih =>
    intro s k h
    refine ok_bind (ioSync_ok h a) fun s _ h => ok_mono (ih h) fun s _ h => h.mono ?_
    simp only [List.map_cons, List.sum_cons]; omega

theorem doIoEnd_ok {c : Cfg} {s : St} {k : Nat} (h : Lost c k s) (ev : Ev) (syncs : List Sy) (clear nob : Bool) :
    Ok c (doIoEnd c s ev syncs clear nob) fun s' _ => Lost c (k + (syncs.map Sy.errs).sum) s' := by
  unfold doIoEnd
  refine ok_bind (Q := fun s' _ => Lost c (k + (syncs.map Sy.errs).sum) s') ?_ fun s _ h =>
    h.same ⟨rfl, rfl, rfl, rfl, rfl, rfl, rfl, rfl⟩
  split
  · have h0 : Lost c k { s with error := false } := h.same ⟨rfl, rfl, rfl, rfl, rfl, rfl, rfl, rfl⟩
    refine ok_bind (Q := fun s' _ => Lost c k s') ?_ fun s _ h => ?_
    · split
      · obtain ⟨fl, h, hk⟩ := h0
        exact ok_mono (queuedComplete_ok h _ ev) fun s _ h => ⟨fl, h, hk⟩
      · exact h0
    · split
      · exact h.mono (by omega)
      · exact ioSyncs_ok syncs (h.same ⟨rfl, rfl, rfl, rfl, rfl, rfl, rfl, rfl⟩)
  · obtain ⟨fl, h, hk⟩ := h
    exact ok_bind (queuedComplete_ok h _ ev) fun s _ h => ⟨fl, h, by omega⟩

theorem phase_ok {c : Cfg} {s : St} {k : Nat} (h : Lost c k s) (p : Phase) :
    Ok c (phase c s p) fun s' _ => Lost c (k + p.errs) s' := by
  cases p with
  | io as ev syncs clear nob =>
    obtain ⟨fl, h, hk⟩ := h
    exact ok_bind (doIoLoop_ok as _ h) fun s _ h => doIoEnd_ok ⟨fl, h, hk⟩ ev syncs clear nob
  | verify syncs as ev =>
    refine ok_bind (ioSyncs_ok syncs h) fun s _ h => ?_
    split
    · exact h
    · obtain ⟨fl, h, hk⟩ := h
      refine ok_bind (doVerifyLoop_ok as h) fun s _ h => ?_
      split
      · exact ok_bind (queuedComplete_ok h _ ev) fun s _ h => ⟨fl, h, hk⟩
      · exact ⟨fl, h, hk⟩

theorem phases_ok {c : Cfg} (ps : List Phase) : ∀ {s : St} {k : Nat}, Lost c k s →
    Ok c (phases c s ps) fun s' _ => Lost c (k + (ps.map Phase.errs).sum) s' := by
  induction ps with
  | nil => intro s k h; exact h
  | cons p ps ih =>
    intro s k h
    refine ok_bind (phase_ok h p) fun s _ h => ?_
    refine ok_mono (ih (h.same ⟨rfl, rfl, rfl, rfl, rfl, rfl, rfl, rfl⟩)) fun s _ h => h.mono ?_
    simp only [List.map_cons, List.sum_cons]; omega

theorem init_inv (c : Cfg) (h : c.n < 4294967296) : Inv c (init c) [] [] := by
  refine ⟨h, ?_, ?_, ?_, ?_, ?_, rfl, rfl, ⟨by simp [init], by simp [init]⟩⟩
  · simp only [init, List.append_nil]; exact List.reverse_perm _
  · intro i _; exact ⟨rfl, rfl⟩
  · intro i hi; simp [init] at hi
  · intro i hi; simp [init] at hi
  · intro i hi; simp at hi

end Fio.IoU
