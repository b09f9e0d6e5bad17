import Verif.IoU.Spec

namespace Fio.IoU

theorem ok_bind {α β : Type} {c : Cfg} {r : Res α} {f : St → α → Res β} {Q : St → α → Prop} {Q' : St → β → Prop}
    (h : Ok c r Q) (hf : ∀ s a, Q s a → Ok c (f s a) Q') : Ok c (r.bind f) Q' := by
  cases r with
  | crash => exact h
  | more s => exact h
  | ok s a => exact hf s a h

theorem ok_mono {α : Type} {c : Cfg} {r : Res α} {Q Q' : St → α → Prop}
    (h : Ok c r Q) (hf : ∀ s a, Q s a → Q' s a) : Ok c r Q' := by
  cases r with
  | crash => exact h
  | more s => exact h
  | ok s a => exact hf s a h

theorem Inv.nodup {c : Cfg} {s : St} {fl hl : List Nat} (h : Inv c s fl hl) :
    (s.freeq ++ (s.reqs ++ (s.ver ++ (s.eng ++ (fl ++ hl))))).Nodup :=
  h.perm.nodup_iff.mpr List.nodup_range

theorem Inv.len {c : Cfg} {s : St} {fl hl : List Nat} (h : Inv c s fl hl) :
    s.freeq.length + (s.reqs.length + (s.ver.length + (s.eng.length + (fl.length + hl.length)))) = c.n := by
  have := h.perm.length_eq
  simpa using this

@[simp] theorem set_u (s : St) (i : Nat) (f : U → U) (j : Nat) :
    (s.set i f).u j = if j = i then f (s.u i) else s.u j := rfl
@[simp] theorem set_freeq (s : St) (i : Nat) (f : U → U) : (s.set i f).freeq = s.freeq := rfl
@[simp] theorem set_reqs (s : St) (i : Nat) (f : U → U) : (s.set i f).reqs = s.reqs := rfl
@[simp] theorem set_ver (s : St) (i : Nat) (f : U → U) : (s.set i f).ver = s.ver := rfl
@[simp] theorem set_eng (s : St) (i : Nat) (f : U → U) : (s.set i f).eng = s.eng := rfl
@[simp] theorem set_depth (s : St) (i : Nat) (f : U → U) : (s.set i f).depth = s.depth := rfl
@[simp] theorem set_queued (s : St) (i : Nat) (f : U → U) : (s.set i f).queued = s.queued := rfl
@[simp] theorem set_inFlight (s : St) (i : Nat) (f : U → U) : (s.set i f).inFlight = s.inFlight := rfl

/-- Everything that matters is as before. -/
theorem Inv.same {c : Cfg} {s s' : St} {fl hl : List Nat} (h : Inv c s fl hl)
    (hu : ∀ i, (s'.u i).free = (s.u i).free ∧ (s'.u i).flight = (s.u i).flight ∧ (s'.u i).inDepth = (s.u i).inDepth)
    (h1 : s'.freeq = s.freeq) (h2 : s'.reqs = s.reqs) (h3 : s'.ver = s.ver) (h4 : s'.eng = s.eng)
    (h5 : s'.depth = s.depth) (h6 : s'.queued = s.queued) (h7 : s'.inFlight = s.inFlight) : Inv c s' fl hl := by
  obtain ⟨a, b, d, e, f, g, i, j, k⟩ := h
  refine ⟨a, ?_, ?_, ?_, ?_, ?_, ?_, ?_, ?_⟩
  · rw [h1, h2, h3, h4]; exact b
  · intro x hx; rw [h1, h2] at hx; rw [(hu x).1, (hu x).2.1]; exact d x hx
  · intro x hx; rw [h3] at hx; rw [(hu x).1, (hu x).2.1, (hu x).2.2]; exact e x hx
  · intro x hx; rw [h4] at hx; rw [(hu x).1, (hu x).2.1, (hu x).2.2]; exact f x hx
  · intro x hx; rw [(hu x).1, (hu x).2.1, (hu x).2.2]; exact g x hx
  · rw [h5, h4]; exact i
  · rw [h6, h7, h4]; exact j
  · rw [h6, h7]; exact k

/-- A change of other fields of a unit. -/
theorem Inv.set {c : Cfg} {s : St} {fl hl : List Nat} (h : Inv c s fl hl) (i : Nat) (f : U → U)
    (hf : (f (s.u i)).free = (s.u i).free ∧ (f (s.u i)).flight = (s.u i).flight ∧
      (f (s.u i)).inDepth = (s.u i).inDepth) : Inv c (s.set i f) fl hl := by
  refine h.same ?_ rfl rfl rfl rfl rfl rfl rfl
  intro j
  rw [set_u]
  split
  · rename_i e; rw [e]; exact hf
  · exact ⟨rfl, rfl, rfl⟩

theorem dec32 (n : Nat) (h : 0 < n) (h2 : n < 4294967296) : (n + (w32 - 1)) % w32 = n - 1 := by
  unfold w32; omega

theorem perm_count {l l' : List Nat} : l.Perm l' ↔ ∀ a, l.count a = l'.count a := List.perm_iff_count

theorem Inv.perm_held {c : Cfg} {s : St} {fl hl fl' hl' : List Nat} (h : Inv c s fl hl) (h1 : fl.Perm fl')
    (h2 : hl.Perm hl') : Inv c s fl' hl' := by
  refine ⟨h.small, ?_, h.idle, h.verif, ?_, ?_, ?_, h.count, h.bnd⟩
  · refine List.Perm.trans ?_ h.perm
    exact (((((h1.append h2).symm.append_left _).append_left _).append_left _).append_left _)
  · intro i hi; exact h.flying i (by rw [h1.mem_iff]; exact hi)
  · intro i hi; exact h.main i (by rw [h2.mem_iff]; exact hi)
  · rw [h.depth, h1.length_eq, h2.length_eq]

theorem eraseIdx_perm (l : List Nat) : ∀ (k i : Nat), l[k]? = some i → l.Perm (i :: l.eraseIdx k) := by
  induction l with
  | nil => intro k i h; simp at h
  | cons a l ih =>
    intro k i h
    cases k with
    | zero => simp only [List.getElem?_cons_zero, Option.some.injEq] at h; subst h; exact List.Perm.refl _
    | succ k =>
      rw [List.getElem?_cons_succ] at h
      exact ((ih k i h).cons a).trans (List.Perm.swap i a _)

/-! ## Giving units back -/

theorem put_ok {c : Cfg} {s : St} {fl hl : List Nat} {i : Nat} (h : Inv c s fl (i :: hl)) :
    Ok c (putIoU c s i) fun s' _ => Inv c s' fl hl := by
  have hd := h.nodup
  have hlen := h.len
  have hm := h.main i (by simp)
  have hdep := h.depth
  simp only [List.length_cons] at hlen hdep
  have hsm := h.small
  unfold putIoU
  simp only [set_u, if_true, hm.2.2]
  rw [if_pos (by simp only [set_freeq]; omega)]
  have ndi : i ∉ s.freeq ∧ i ∉ s.reqs ∧ i ∉ s.ver ∧ i ∉ s.eng ∧ i ∉ fl ∧ i ∉ hl := by
    simp only [List.nodup_append, List.nodup_cons, List.mem_append, List.mem_cons] at hd
    grind
  refine ⟨h.small, ?_, ?_, ?_, ?_, ?_, ?_, h.count, h.bnd⟩
  · refine List.Perm.trans ?_ h.perm
    rw [perm_count]; intro a
    simp only [set_freeq, set_reqs, set_ver, set_eng, List.cons_append, List.count_cons, List.count_append]
    omega
  · intro j hj
    simp only [set_freeq, set_reqs, List.mem_cons] at hj
    have := h.idle j
    simp only [set_u]
    split
    · exact ⟨rfl, by rw [hm.2.1]⟩
    · grind
  · intro j hj
    have e : j ≠ i := by rintro rfl; exact ndi.2.2.1 hj
    simp only [set_u, if_neg e]; exact h.verif j hj
  · intro j hj
    have e : j ≠ i := by rintro rfl; exact hj.elim ndi.2.2.2.1 ndi.2.2.2.2.1
    simp only [set_u, if_neg e]; exact h.flying j hj
  · intro j hj
    have e : j ≠ i := by rintro rfl; exact ndi.2.2.2.2.2 hj
    simp only [set_u, if_neg e]; exact h.main j (by simp [hj])
  · simp only [set_depth, set_eng]
    rw [dec32 _ (by omega) (by omega), hdep]; omega

/-- A unit from the verification threads. -/
theorem verDone_ok {c : Cfg} {s : St} {fl hl : List Nat} (h : Inv c s fl hl) (k : Nat) :
    Ok c (verDone c s k) fun s' _ => Inv c s' fl hl := by
  unfold verDone
  cases hk : s.ver[k]? with
  | none => exact h
  | some i =>
    have him : i ∈ s.ver := List.mem_of_getElem? hk
    have hd := h.nodup
    have hlen := h.len
    have hv := h.verif i him
    have hp : s.ver.Perm (i :: s.ver.eraseIdx k) := by
      exact eraseIdx_perm s.ver k i hk
    have hpl := hp.length_eq
    simp only [List.length_cons] at hpl
    have ndi : i ∉ s.freeq ∧ i ∉ s.reqs ∧ i ∉ s.ver.eraseIdx k ∧ i ∉ s.eng ∧ i ∉ fl ∧ i ∉ hl := by
      have hv2 : (i :: s.ver.eraseIdx k).Nodup := hp.nodup_iff.mp (by
        simp only [List.nodup_append] at hd; exact hd.2.1.2.1.1)
      simp only [List.nodup_append, List.nodup_cons, List.mem_append] at hd hv2
      grind
    show Ok c (putIoU c { s with ver := s.ver.eraseIdx k } i) _
    unfold putIoU
    simp only [set_u, if_true, hv.2.2, Bool.false_eq_true, if_false]
    rw [if_pos (by simp only [set_freeq]; omega)]
    refine ⟨h.small, ?_, ?_, ?_, ?_, ?_, h.depth, h.count, h.bnd⟩
    · refine List.Perm.trans ?_ h.perm
      rw [perm_count]; intro a
      have := perm_count.mp hp a
      simp only [set_freeq, set_reqs, set_ver, set_eng, List.cons_append, List.count_cons, List.count_append] at this ⊢
      omega
    · intro j hj
      simp only [set_freeq, set_reqs, List.mem_cons] at hj
      have := h.idle j
      simp only [set_u]
      split
      · exact ⟨rfl, by simp [hv.2.1]⟩
      · grind
    · intro j hj
      have e : j ≠ i := by rintro rfl; exact ndi.2.2.1 hj
      simp only [set_u, if_neg e]; exact h.verif j (List.mem_of_mem_eraseIdx hj)
    · intro j hj
      have e : j ≠ i := by rintro rfl; exact hj.elim ndi.2.2.2.1 ndi.2.2.2.2.1
      simp only [set_u, if_neg e]; exact h.flying j hj
    · intro j hj
      have e : j ≠ i := by rintro rfl; exact ndi.2.2.2.2.2 hj
      simp only [set_u, if_neg e]; exact h.main j hj

theorem verDones_ok {c : Cfg} {fl hl : List Nat} (ks : List Nat) : ∀ {s : St}, Inv c s fl hl →
    Ok c (verDones c s ks) fun s' _ => Inv c s' fl hl := by
  induction ks with
  | nil => intro s h; exact h
  | cons k ks ih => intro s h; exact ok_bind (verDone_ok h k) fun s' _ h' => ih h'

/-- To be issued again: the unit was not in flight. -/
theorem requeue_ok {c : Cfg} {s : St} {fl hl : List Nat} {i : Nat}
    (h : Inv c s fl (i :: hl) ∨ Inv c s (i :: fl) hl) :
    Ok c (requeueIoU c s i) fun s' _ => Inv c s' fl hl := by
  have hsm : c.n < 4294967296 := by rcases h with h | h <;> exact h.small
  have hin : (s.u i).inDepth = true := by
    rcases h with h | h
    · exact (h.main i (by simp)).2.2
    · exact (h.flying i (by simp)).2.2
  have hdep : s.depth = s.eng.length + (fl.length + hl.length) + 1 := by
    rcases h with h | h <;> (have := h.depth; simp only [List.length_cons] at this; omega)
  have hlen : s.freeq.length + (s.reqs.length + (s.ver.length + (s.eng.length + (fl.length + hl.length)))) + 1 = c.n := by
    rcases h with h | h <;> (have := h.len; simp only [List.length_cons] at this; omega)
  have ndi : i ∉ s.freeq ∧ i ∉ s.reqs ∧ i ∉ s.ver ∧ i ∉ s.eng ∧ i ∉ fl ∧ i ∉ hl := by
    rcases h with h | h <;>
    · have hd := h.nodup
      simp only [List.nodup_append, List.nodup_cons, List.mem_append, List.mem_cons] at hd
      grind
  have hperm : (s.freeq ++ (s.reqs ++ [i] ++ (s.ver ++ (s.eng ++ (fl ++ hl))))).Perm (List.range c.n) := by
    rcases h with h | h <;>
    · refine List.Perm.trans ?_ h.perm
      rw [perm_count]; intro a
      simp only [List.cons_append, List.count_cons, List.count_append, List.count_nil]
      omega
  have hcount : (s.inFlight + s.queued) % 4294967296 = s.eng.length := by rcases h with h | h <;> exact h.count
  have hbnd := (by rcases h with h | h <;> exact h.bnd : s.inFlight < 4294967296 ∧ s.queued < 4294967296)
  have hidle : ∀ j, j ∈ s.freeq ∨ j ∈ s.reqs → (s.u j).free = true ∧ (s.u j).flight = false := by
    rcases h with h | h <;> exact h.idle
  have hver : ∀ j ∈ s.ver, (s.u j).free = false ∧ (s.u j).flight = false ∧ (s.u j).inDepth = false := by
    rcases h with h | h <;> exact h.verif
  have hfly : ∀ j, j ∈ s.eng ∨ j ∈ fl → (s.u j).free = false ∧ (s.u j).flight = true ∧ (s.u j).inDepth = true := by
    rcases h with h | h
    · exact h.flying
    · intro j hj; exact h.flying j (by grind)
  have hmain : ∀ j ∈ hl, (s.u j).free = false ∧ (s.u j).flight = false ∧ (s.u j).inDepth = true := by
    rcases h with h | h
    · intro j hj; exact h.main j (by grind)
    · exact h.main
  unfold requeueIoU
  simp only [set_u, if_true, unissue, hin]
  rw [if_pos (by simp only [set_reqs]; omega)]
  refine ⟨hsm, hperm, ?_, ?_, ?_, ?_, ?_, hcount, hbnd⟩
  · intro j hj
    simp only [set_freeq, set_reqs, List.mem_append, List.mem_singleton] at hj
    simp only [set_u]
    split
    · exact ⟨rfl, rfl⟩
    · exact hidle j (by grind)
  · intro j hj
    have e : j ≠ i := by rintro rfl; exact ndi.2.2.1 hj
    simp only [set_u, if_neg e]; exact hver j hj
  · intro j hj
    have e : j ≠ i := by rintro rfl; exact hj.elim ndi.2.2.2.1 ndi.2.2.2.2.1
    simp only [set_u, if_neg e]; exact hfly j hj
  · intro j hj
    have e : j ≠ i := by rintro rfl; exact ndi.2.2.2.2.2 hj
    simp only [set_u, if_neg e]; exact hmain j hj
  · simp only [set_depth, set_eng]
    rw [dec32 _ (by omega) (by omega)]; omega

/-! ## Taking units -/

/-- A unit leaves the free list or the ring. -/
theorem take_ok {c : Cfg} {s : St} {fl hl : List Nat} {i : Nat} (hs : Inv c s fl hl) {s' : St}
    (hu : ∀ j, (s'.u j).free = (s.u j).free ∧ (s'.u j).flight = (s.u j).flight ∧ (s'.u j).inDepth = (s.u j).inDepth)
    (hp : (s.freeq ++ s.reqs).Perm (i :: (s'.freeq ++ s'.reqs)))
    (h3 : s'.ver = s.ver) (h4 : s'.eng = s.eng)
    (h5 : s'.depth = s.depth) (h6 : s'.queued = s.queued) (h7 : s'.inFlight = s.inFlight) :
    Ok c (takeU s' i) fun t o => o = some i ∧ Inv c t fl (i :: hl) ∧ (t.u i).file = (s'.u i).file := by
  have hd := hs.nodup
  have hlen := hs.len
  have hdep := hs.depth
  have hsm := hs.small
  have hi : i ∈ s.freeq ∨ i ∈ s.reqs := by
    have : i ∈ s.freeq ++ s.reqs := by rw [hp.mem_iff]; simp
    simpa using this
  have hsub : ∀ j, j ∈ s'.freeq ∨ j ∈ s'.reqs → j ∈ s.freeq ∨ j ∈ s.reqs := by
    intro j hj
    have : j ∈ s.freeq ++ s.reqs := by rw [hp.mem_iff]; simp; exact Or.inr hj
    simpa using this
  have hid := hs.idle i hi
  have hplen := hp.length_eq
  simp only [List.length_append, List.length_cons] at hplen
  have hperm : (s'.freeq ++ (s'.reqs ++ (s.ver ++ (s.eng ++ (fl ++ i :: hl))))).Perm (List.range c.n) := by
    refine List.Perm.trans ?_ hs.perm
    rw [perm_count]; intro a
    have := perm_count.mp hp a
    simp only [List.count_cons, List.count_append] at this ⊢
    omega
  have ndi : i ∉ s'.freeq ∧ i ∉ s'.reqs ∧ i ∉ s.ver ∧ i ∉ s.eng ∧ i ∉ fl ∧ i ∉ hl := by
    have hd2 := hperm.nodup_iff.mpr List.nodup_range
    simp only [List.nodup_append, List.nodup_cons, List.mem_append, List.mem_cons] at hd2
    grind
  unfold takeU
  rw [if_pos (by rw [(hu i).1]; exact hid.1)]
  refine ⟨rfl, ⟨hsm, ?_, ?_, ?_, ?_, ?_, ?_, ?_, ?_⟩, by simp⟩
  · simp only [set_freeq, set_reqs, set_ver, set_eng, h3, h4]; exact hperm
  · intro j hj
    simp only [set_freeq, set_reqs] at hj
    have e : j ≠ i := by rintro rfl; exact hj.elim ndi.1 ndi.2.1
    simp only [set_u, if_neg e, (hu j).1, (hu j).2.1]; exact hs.idle j (hsub j hj)
  · intro j hj
    simp only [set_ver, h3] at hj
    have e : j ≠ i := by rintro rfl; exact ndi.2.2.1 hj
    simp only [set_u, if_neg e, (hu j).1, (hu j).2.1, (hu j).2.2]; exact hs.verif j hj
  · intro j hj
    simp only [set_eng, h4] at hj
    have e : j ≠ i := by rintro rfl; exact hj.elim ndi.2.2.2.1 ndi.2.2.2.2.1
    simp only [set_u, if_neg e, (hu j).1, (hu j).2.1, (hu j).2.2]; exact hs.flying j hj
  · intro j hj
    simp only [set_u]
    split
    · exact ⟨rfl, by simp only [(hu i).2.1]; exact hid.2, rfl⟩
    · simp only [(hu j).1, (hu j).2.1, (hu j).2.2]
      exact hs.main j (by grind)
  · simp only [set_depth, set_eng, h4, h5, List.length_cons]; unfold w32; omega
  · simp only [set_inFlight, set_queued, set_eng, h4, h6, h7]; exact hs.count
  · simp only [set_inFlight, set_queued, h6, h7]; exact hs.bnd

theorem getU_ok {c : Cfg} {s : St} {fl hl : List Nat} (h : Inv c s fl hl) (vd : List Nat) (lat : Bool) :
    Ok c (getU c s vd lat) fun s' o => match o with
      | none => Inv c s' fl hl
      | some i => Inv c s' fl (i :: hl) := by
  refine ok_bind (verDones_ok vd h) fun s _ h => ?_
  show Ok c (if s.stopIo then _ else _) _
  split
  · exact h
  · split
    · rename_i i rest hr
      refine ok_mono (take_ok (i := i) h ?_ ?_ rfl rfl rfl rfl rfl) (fun t o x => by rw [x.1]; exact x.2.1)
      · intro j; simp only [set_u]; split
        · rename_i e; rw [e]; exact ⟨rfl, rfl, rfl⟩
        · exact ⟨rfl, rfl, rfl⟩
      · simp only [set_freeq, set_reqs, hr]; exact List.perm_middle
    · split
      · exact h
      · rename_i hr hq
        split
        · rename_i hf; simp [queueFull, hf] at hq
        · rename_i i rest hf
          refine ok_mono (take_ok (i := i) h ?_ ?_ rfl rfl rfl rfl rfl) (fun t o x => by rw [x.1]; exact x.2.1)
          · intro j; simp only [set_u]; split
            · rename_i e; rw [e]; exact ⟨rfl, rfl, rfl⟩
            · exact ⟨rfl, rfl, rfl⟩
          · simp only [set_freeq, set_reqs, hf, hr]; exact List.Perm.refl _

/-! ## The engine -/

theorem commit_inv {c : Cfg} {s : St} {fl hl : List Nat} (h : Inv c s fl hl) (cf : Bool) :
    Inv c (tdIoCommit c s cf) fl hl := by
  unfold tdIoCommit
  split
  · exact h
  · have key : ∀ s' : St, s'.u = s.u → s'.freeq = s.freeq → s'.reqs = s.reqs → s'.ver = s.ver → s'.eng = s.eng →
        s'.depth = s.depth → s'.queued = s.queued → s'.inFlight = s.inFlight →
        Inv c { s' with inFlight := (s'.inFlight + s'.queued) % w32, queued := 0 } fl hl := by
      intro s' e0 e1 e2 e3 e4 e5 e6 e7
      have hb := h.bnd
      have hc := h.count
      refine ⟨h.small, ?_, ?_, ?_, ?_, ?_, ?_, ?_, ?_⟩
      · simp only [e1, e2, e3, e4]; exact h.perm
      · simp only [e0, e1, e2]; exact h.idle
      · simp only [e0, e3]; exact h.verif
      · simp only [e0, e4]; exact h.flying
      · simp only [e0]; exact h.main
      · simp only [e4, e5]; exact h.depth
      · simp only [e4, e6, e7]; unfold w32; omega
      · simp only [e6, e7]; unfold w32; omega
    split <;> exact key _ rfl rfl rfl rfl rfl rfl rfl rfl

theorem commit_u (c : Cfg) (s : St) (cf : Bool) : (tdIoCommit c s cf).u = s.u := by
  unfold tdIoCommit; split
  · rfl
  · split <;> rfl

theorem engDone_inv {c : Cfg} {s : St} {fl hl : List Nat} (h : Inv c s fl hl) (i : Nat) (cp : Comp) :
    Inv c (engDone s i cp) fl hl := by
  refine h.same (fun j => ?_) rfl rfl rfl rfl rfl rfl rfl
  simp only [engDone, set_u]
  split
  · rename_i e; rw [e]; exact ⟨rfl, rfl, rfl⟩
  · exact ⟨rfl, rfl, rfl⟩

theorem engDones_inv {c : Cfg} {fl hl : List Nat} (evs : List (Nat × Comp)) : ∀ {s : St}, Inv c s fl hl →
    Inv c (evs.foldl (fun s e => engDone s e.1 e.2) s) fl hl := by
  induction evs with
  | nil => intro s h; exact h
  | cons e evs ih => intro s h; exact ih (engDone_inv h e.1 e.2)

theorem queueAns_ok {c : Cfg} {t : St} {fl hl : List Nat} {i : Nat} (h : Inv c t (i :: fl) hl)
    (hf : (t.u i).file = true) (q : Q) (cf : Bool) :
    match (queueAns c t i q cf).2 with
      | .completed => Inv c (queueAns c t i q cf).1 (i :: fl) hl
      | .queued => Inv c (queueAns c t i q cf).1 fl hl
      | .busy => Inv c (queueAns c t i q cf).1 fl (i :: hl) ∧ ((queueAns c t i q cf).1.u i).file = true
      | .err => False := by
  have hm := h.flying i (by simp)
  have hd := h.nodup
  have ndi : i ∉ t.freeq ∧ i ∉ t.reqs ∧ i ∉ t.ver ∧ i ∉ t.eng ∧ i ∉ fl ∧ i ∉ hl := by
    simp only [List.nodup_append, List.nodup_cons, List.mem_append, List.mem_cons] at hd
    grind
  cases q with
  | completed cp =>
    exact (engDone_inv h i cp).same (fun _ => ⟨rfl, rfl, rfl⟩) rfl rfl rfl rfl rfl rfl rfl
  | queued =>
    have hdep := h.depth
    have hc := h.count
    have hb := h.bnd
    have hlen := h.len
    have hsm := h.small
    simp only [List.length_cons] at hlen hdep
    have key : Inv c { t with eng := t.eng ++ [i], queued := (t.queued + 1) % w32 } fl hl := by
      refine ⟨h.small, ?_, h.idle, h.verif, ?_, h.main, ?_, ?_, ?_⟩
      · refine List.Perm.trans ?_ h.perm
        rw [perm_count]; intro a
        simp only [List.cons_append, List.count_cons, List.count_append, List.count_nil]
        omega
      · intro j hj
        exact h.flying j (by simp only [List.mem_append, List.mem_singleton] at hj; grind)
      · simp only [List.length_append, List.length_singleton]; omega
      · simp only [List.length_append, List.length_singleton]; unfold w32; omega
      · simp only; unfold w32; omega
    show Inv c (if (t.queued + 1) % w32 ≥ c.batch then _ else _) fl hl
    split
    · exact commit_inv key cf
    · exact key
  | busy =>
    refine ⟨⟨h.small, ?_, ?_, ?_, ?_, ?_, ?_, h.count, h.bnd⟩, ?_⟩
    · refine List.Perm.trans ?_ h.perm
      rw [perm_count]; intro a
      simp only [queueAns, notIssued, set_freeq, set_reqs, set_ver, set_eng, List.cons_append, List.count_cons,
        List.count_append]
      omega
    · intro j hj
      have e : j ≠ i := by rintro rfl; exact hj.elim ndi.1 ndi.2.1
      simp only [queueAns, notIssued, set_u, if_neg e]; exact h.idle j hj
    · intro j hj
      have e : j ≠ i := by rintro rfl; exact ndi.2.2.1 hj
      simp only [queueAns, notIssued, set_u, if_neg e]; exact h.verif j hj
    · intro j hj
      have e : j ≠ i := by rintro rfl; exact hj.elim ndi.2.2.2.1 ndi.2.2.2.2.1
      simp only [queueAns, notIssued, set_u, if_neg e]
      exact h.flying j (hj.imp id (List.mem_cons_of_mem _))
    · intro j hj
      simp only [queueAns, notIssued, set_u]
      split
      · exact ⟨hm.1, rfl, hm.2.2⟩
      · exact h.main j (by grind)
    · have := h.depth
      simp only [List.length_cons] at this ⊢
      simp only [queueAns, notIssued, set_depth, set_eng]; omega
    · simp only [queueAns, notIssued, set_u, if_true]; exact hf

/-- Issuing a unit. -/
theorem queue_ok {c : Cfg} {s : St} {fl hl : List Nat} {i : Nat} (h : Inv c s fl (i :: hl))
    (hf : (s.u i).file = true) (q : Q) (cf : Bool) :
    Ok c (tdIoQueue c s i q cf) fun s' r => match r with
      | .completed => Inv c s' (i :: fl) hl
      | .queued => Inv c s' fl hl
      | .busy => Inv c s' fl (i :: hl) ∧ (s'.u i).file = true
      | .err => False := by
  have hm := h.main i (by simp)
  have hd := h.nodup
  have ndi : i ∉ s.freeq ∧ i ∉ s.reqs ∧ i ∉ s.ver ∧ i ∉ s.eng ∧ i ∉ fl ∧ i ∉ hl := by
    simp only [List.nodup_append, List.nodup_cons, List.mem_append, List.mem_cons] at hd
    grind
  -- the unit is in flight now
  have hfl : ∀ s' : St, s'.freeq = s.freeq → s'.reqs = s.reqs → s'.ver = s.ver → s'.eng = s.eng →
      s'.depth = s.depth → s'.queued = s.queued → s'.inFlight = s.inFlight →
      (s'.u i).free = false → (s'.u i).flight = true → (s'.u i).inDepth = true → (∀ j, j ≠ i → s'.u j = s.u j) →
      Inv c s' (i :: fl) hl := by
    intro s' e1 e2 e3 e4 e5 e6 e7 e8 e9 e10 e11
    refine ⟨h.small, ?_, ?_, ?_, ?_, ?_, ?_, ?_, ?_⟩
    · rw [e1, e2, e3, e4]
      refine List.Perm.trans ?_ h.perm
      rw [perm_count]; intro a
      simp only [List.cons_append, List.count_cons, List.count_append]
      omega
    · intro j hj
      rw [e1, e2] at hj
      have e : j ≠ i := by rintro rfl; exact hj.elim ndi.1 ndi.2.1
      rw [e11 j e]; exact h.idle j hj
    · intro j hj
      rw [e3] at hj
      have e : j ≠ i := by rintro rfl; exact ndi.2.2.1 hj
      rw [e11 j e]; exact h.verif j hj
    · intro j hj
      rw [e4, List.mem_cons] at hj
      by_cases e : j = i
      · rw [e]; exact ⟨e8, e9, e10⟩
      · rw [e11 j e]; exact h.flying j (by grind)
    · intro j hj
      have e : j ≠ i := by rintro rfl; exact ndi.2.2.2.2.2 hj
      rw [e11 j e]; exact h.main j (by simp [hj])
    · have := h.depth
      simp only [List.length_cons] at this ⊢
      rw [e4, e5, this]; omega
    · rw [e4, e6, e7]; exact h.count
    · rw [e6, e7]; exact h.bnd
  unfold tdIoQueue
  rw [if_neg (by rw [hm.2.1]; decide), if_neg (by rw [hf]; decide)]
  have hs1 : Inv c (issue (s.set i fun u => { u with flight := true, err := false, resid := 0 }) (acctDdir (s.u i))
      (s.u i).xferLen ((acctDdir (s.u i)).rw && !(s.u i).verList)) (i :: fl) hl :=
    hfl _ rfl rfl rfl rfl rfl rfl rfl (by simp [issue, hm.1]) (by simp [issue]) (by simp [issue, hm.2.2])
      (by intro j e; simp [issue, e])
  have hfile : ((issue (s.set i fun u => { u with flight := true, err := false, resid := 0 }) (acctDdir (s.u i))
      (s.u i).xferLen ((acctDdir (s.u i)).rw && !(s.u i).verList)).u i).file = true := by simp [issue, hf]
  have e1 : (s.set i fun u => { u with flight := true, err := false, resid := 0 }).u i =
      { s.u i with flight := true, err := false, resid := 0 } := by simp
  simp only [e1]
  show Ok c (Res.ok (queueAns c (issue (s.set i fun u => { u with flight := true, err := false, resid := 0 })
    (acctDdir (s.u i)) (s.u i).xferLen ((acctDdir (s.u i)).rw && !(s.u i).verList)) i q cf).1 (queueAns c (issue
    (s.set i fun u => { u with flight := true, err := false, resid := 0 })
    (acctDdir (s.u i)) (s.u i).xferLen ((acctDdir (s.u i)).rw && !(s.u i).verList)) i q cf).2) _
  revert hs1 hfile
  generalize issue (s.set i fun u => { u with flight := true, err := false, resid := 0 })
    (acctDdir (s.u i)) (s.u i).xferLen ((acctDdir (s.u i)).rw && !(s.u i).verList) = t
  intro ht hfile
  clear hfl h hm hf hd ndi e1
  exact queueAns_ok ht hfile q cf

end Fio.IoU
