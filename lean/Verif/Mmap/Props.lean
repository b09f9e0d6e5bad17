import Verif.Mmap.Spec

namespace Fio.Mmap

open Spec

/-- The mapping in use. -/
def cur (s : St) : Option Map := s.live.find? (fun m => some m.id = s.ptr)

/-- The engine's idea of the mapping is right. -/
structure Inv (s : St) : Prop where
  here : (s.ptr = none ∧ s.sz = 0) ∨ ∃ id, s.ptr = some id ∧ cur s = some ⟨id, s.off, s.sz⟩
  old : ∀ m ∈ s.live, m.id < s.next

theorem open_inv (f : Nat → Nat) : Inv (openFile f) := ⟨Or.inl ⟨rfl, rfl⟩, by simp [openFile]⟩

theorem mmapFile_ok {s s' : St} {length off : Nat} {mm ad : Bool} (hold : ∀ m ∈ s.live, m.id < s.next) (hsz : s.sz = length)
    (hoff : s.off = off) (h : mmapFile s length off mm ad = (s', true)) :
    Inv s' ∧ s'.sz = length ∧ s'.off = off ∧ s'.file = s.file ∧ s'.dirty = s.dirty ∧ s'.partMap = s.partMap ∧ s'.ptr ≠ none := by
  unfold mmapFile at h
  cases mm <;> cases ad <;> simp only [Bool.false_eq_true, if_false, if_true] at h <;> injection h with h1 h2
  · cases h2
  · cases h2
  · cases h2
  · subst h1
    refine ⟨⟨Or.inr ⟨s.next, rfl, ?_⟩, ?_⟩, hsz, hoff, rfl, rfl, rfl, by simp⟩
    · simp [cur, hsz, hoff]
    · intro m hm
      rcases List.mem_cons.1 hm with rfl | hm
      · exact Nat.lt_succ_self _
      · exact Nat.lt_succ_of_lt (hold m hm)

theorem mmapFile_any (s : St) (length off : Nat) (mm ad : Bool) (hold : ∀ m ∈ s.live, m.id < s.next) :
    (∀ m ∈ (mmapFile s length off mm ad).1.live, m.id < (mmapFile s length off mm ad).1.next) ∧
      (mmapFile s length off mm ad).1.file = s.file ∧ (mmapFile s length off mm ad).1.dirty = s.dirty := by
  unfold mmapFile
  have hc : ∀ m ∈ (⟨s.next, off, length⟩ :: s.live : List Map), m.id < s.next + 1 := by
    intro m hm
    rcases List.mem_cons.1 hm with rfl | hm
    · exact Nat.lt_succ_self _
    · exact Nat.lt_succ_of_lt (hold m hm)
  cases mm <;> cases ad <;> simp only [Bool.false_eq_true, if_false, if_true]
  · exact ⟨hold, trivial, trivial⟩
  · exact ⟨hold, trivial, trivial⟩
  · exact ⟨fun m hm => hc m (List.mem_filter.1 hm).1, trivial, trivial⟩
  · exact ⟨hc, trivial, trivial⟩

theorem prepFull_any (c : Cfg) (s : St) (a : Ans) (hold : ∀ m ∈ s.live, m.id < s.next) :
    (∀ m ∈ (prepFull c s a).1.live, m.id < (prepFull c s a).1.next) ∧
      (prepFull c s a).1.file = s.file ∧ (prepFull c s a).1.dirty = s.dirty := by
  unfold prepFull
  have h := mmapFile_any { s with sz := c.ioSize, off := c.fileOff } c.ioSize c.fileOff a.mmap1 a.adv1 hold
  split
  · exact ⟨hold, rfl, rfl⟩
  · split
    · exact ⟨hold, rfl, rfl⟩
    · dsimp only
      split
      · exact h
      · exact h

theorem prepFull_ok {c : Cfg} {s s' : St} {a : Ans} (hold : ∀ m ∈ s.live, m.id < s.next) (h : prepFull c s a = (s', true)) :
    Inv s' ∧ s'.sz = c.ioSize ∧ s'.off = c.fileOff ∧ s'.file = s.file ∧ s'.dirty = s.dirty ∧ s'.partMap = false ∧ s'.ptr ≠ none := by
  unfold prepFull at h
  split at h
  · injection h with _ h; cases h
  · rename_i hp
    split at h
    · injection h with _ h; cases h
    · dsimp only at h
      split at h
      · obtain ⟨q1, q2, q3, q4, q5, q6, q7⟩ := mmapFile_ok (s := { s with sz := c.ioSize, off := c.fileOff }) hold rfl rfl h
        refine ⟨q1, q2, q3, q4, q5, ?_, q7⟩
        rw [q6]
        simpa using hp
      · injection h with _ h; cases h

/-- What a successful `prep` establishes. -/
theorem remap_ok {c : Cfg} {s s' : St} {offset buflen : Nat} {a : Ans} (hi : Inv s) (h : remap c s offset buflen a = (s', true)) :
    Inv s' ∧ s'.file = s.file ∧ s'.dirty = s.dirty ∧ s'.ptr ≠ none ∧
      ((s'.sz = c.ioSize ∧ s'.off = c.fileOff ∧ s'.partMap = false) ∨ (s'.sz = buflen ∧ s'.off = offset)) := by
  unfold remap at h
  split at h
  · injection h with _ h; cases h
  · dsimp only at h
    generalize hu : (if s.ptr.isSome = true then unmap s else s) = t at h
    have hold : ∀ m ∈ t.live, m.id < t.next := by
      intro m hm
      rw [← hu] at hm ⊢
      cases hp : s.ptr.isSome with
      | true =>
        rw [hp] at hm
        simp only [if_true, unmap] at hm ⊢
        exact hi.old m (List.mem_filter.1 hm).1
      | false =>
        rw [hp] at hm
        simp only [Bool.false_eq_true, if_false] at hm ⊢
        exact hi.old m hm
    have hfd : t.file = s.file ∧ t.dirty = s.dirty := by
      rw [← hu]
      split <;> exact ⟨rfl, rfl⟩
    split at h
    · rename_i hr
      have hq : prepFull c t a = (s', true) := h
      obtain ⟨q1, q2, q3, q4, q5, q6, q7⟩ := prepFull_ok hold hq
      exact ⟨q1, q4.trans hfd.1, q5.trans hfd.2, q7, Or.inl ⟨q2, q3, q6⟩⟩
    · obtain ⟨r1, r2, r3⟩ := prepFull_any c t a hold
      generalize (prepFull c t a).1 = w at *
      unfold prepLimited at h
      split at h
      · injection h with _ h; cases h
      · obtain ⟨q1, q2, q3, q4, q5, q6, q7⟩ := mmapFile_ok (s := { w with off := offset, sz := buflen }) r1 rfl rfl h
        exact ⟨q1, (q4.trans r2).trans hfd.1, (q5.trans r3).trans hfd.2, q7, Or.inr ⟨q2, q3⟩⟩

/-- The pointer is good for the bytes of the unit. -/
theorem deref_ok {s : St} (hi : Inv s) {offset buflen len : Nat} (hf : fits s offset buflen = true) (hl : len ≤ buflen) (hpos : len ≠ 0) :
    deref s (s.ptr, (offset : Int) - s.off) len = some offset := by
  unfold fits at hf
  have hf := of_decide_eq_true hf
  rcases hi.here with ⟨h1, h2⟩ | ⟨id, h1, h2⟩
  · omega
  · unfold cur at h2
    unfold deref
    rw [h2]
    dsimp only
    rw [if_pos (by omega)]
    congr 1
    omega

theorem prep_ok {c : Cfg} {s s' : St} {offset buflen : Nat} {a : Ans} {p : Option Nat × Int} (hi : Inv s)
    (h : prep c s offset buflen a = (s', some p)) :
    Inv s' ∧ s'.file = s.file ∧ s'.dirty = s.dirty ∧ p = (s'.ptr, (offset : Int) - s'.off) ∧
      (c.fileOff ≤ offset → offset + buflen ≤ c.fileOff + c.ioSize → fits s' offset buflen = true) := by
  unfold prep at h
  split at h
  · rename_i hf
    injection h with h1 h2
    injection h2 with h2
    subst h1
    exact ⟨hi, rfl, rfl, h2.symm, fun _ _ => hf⟩
  · dsimp only at h
    split at h
    · rename_i hr
      injection h with h1 h2
      injection h2 with h2
      have hq : remap c s offset buflen a = (s', true) := by
        rw [← h1, ← hr]
      obtain ⟨q1, q2, q3, q4, q5⟩ := remap_ok hi hq
      rw [h1] at h2
      refine ⟨q1, q2, q3, h2.symm, fun b1 b2 => ?_⟩
      unfold fits
      apply decide_eq_true
      rcases q5 with q5 | q5 <;> omega
    · injection h with _ h; cases h

/-- Storing is writing. -/
theorem store_written (file : Nat → Nat) (off : Nat) (data : List Nat) : Written file (store file off data) off data := by
  constructor
  · unfold part
    apply List.ext_getElem
    · simp
    · intro i h1 h2
      have h2' : i < data.length := h2
      simp [store, h2']
  · intro i hi
    unfold store
    split
    · rw [List.getElem?_eq_none (by omega)]
    · rfl

theorem inv_congr {s t : St} (h : Inv s) (h1 : t.ptr = s.ptr) (h2 : t.sz = s.sz) (h3 : t.off = s.off) (h4 : t.live = s.live)
    (h5 : t.next = s.next) : Inv t := by
  constructor
  · unfold cur
    rw [h1, h2, h3, h4]
    exact h.here
  · rw [h4, h5]
    exact h.old

theorem msync_fields (s : St) : (msync s).ptr = s.ptr ∧ (msync s).sz = s.sz ∧ (msync s).off = s.off ∧ (msync s).live = s.live ∧
    (msync s).next = s.next ∧ (msync s).file = s.file ∧ (msync s).partMap = s.partMap := by
  unfold msync
  split <;> exact ⟨rfl, rfl, rfl, rfl, rfl, rfl, rfl⟩

/-- One unit: if it does not fail it does what it says. -/
theorem step_right {c : Cfg} {s : St} (hi : Inv s) (op : Op) (a : Ans) (hin : Inside c op) :
    (step c s op a).2 = .failed ∨ (Right s.file (step c s op a).1.file op (step c s op a).2 ∧ Inv (step c s op a).1) := by
  cases op with
  | read offset buflen len =>
    unfold step
    dsimp only
    generalize hp : prep c s offset buflen a = r
    obtain ⟨t, o⟩ := r
    cases o with
    | none => exact Or.inl rfl
    | some p =>
      right
      obtain ⟨q1, q2, q3, q4, q5⟩ := prep_ok hi hp
      dsimp only
      by_cases h0 : len = 0
      · rw [if_pos h0]
        subst h0
        exact ⟨⟨rfl, q2⟩, q1⟩
      · rw [if_neg h0, q4, deref_ok q1 (q5 hin.1 hin.2.1) hin.2.2 h0]
        refine ⟨⟨?_, q2⟩, q1⟩
        unfold part
        rw [q2]
  | write offset buflen data =>
    unfold step
    dsimp only
    generalize hp : prep c s offset buflen a = r
    obtain ⟨t, o⟩ := r
    cases o with
    | none => exact Or.inl rfl
    | some p =>
      right
      obtain ⟨q1, q2, q3, q4, q5⟩ := prep_ok hi hp
      dsimp only
      by_cases h0 : data.length = 0
      · rw [if_pos h0]
        have hn : data = [] := List.length_eq_zero_iff.1 h0
        subst hn
        refine ⟨⟨rfl, ⟨rfl, fun i _ => ?_⟩⟩, q1⟩
        dsimp only
        rw [q2]
      · rw [if_neg h0, q4, deref_ok q1 (q5 hin.1 hin.2.1) hin.2.2 h0]
        refine ⟨⟨rfl, ?_⟩, inv_congr q1 rfl rfl rfl rfl rfl⟩
        dsimp only
        rw [q2]
        exact store_written _ _ _
  | sync offset buflen =>
    unfold step
    dsimp only
    generalize hp : prep c s offset buflen a = r
    obtain ⟨t, o⟩ := r
    cases o with
    | none => exact Or.inl rfl
    | some p =>
      right
      obtain ⟨q1, q2, q3, q4, q5⟩ := prep_ok hi hp
      obtain ⟨m1, m2, m3, m4, m5, m6, m7⟩ := msync_fields t
      exact ⟨⟨rfl, m6.trans q2⟩, inv_congr q1 m1 m2 m3 m4 m5⟩
  | reopen =>
    right
    unfold step reopen
    exact ⟨⟨rfl, rfl⟩, ⟨Or.inl ⟨rfl, rfl⟩, hi.old⟩⟩

theorem run_inv {c : Cfg} (ops : List (Op × Ans)) : ∀ {s : St}, Inv s → (∀ x ∈ ops, Inside c x.1) → (.failed ∉ (run c s ops).2) →
    Inv (run c s ops).1 := by
  induction ops with
  | nil => intro s hi _ _; exact hi
  | cons x ops ih =>
    intro s hi hin hnf
    obtain ⟨op, a⟩ := x
    unfold run at hnf ⊢
    dsimp only at hnf ⊢
    rw [List.mem_cons, not_or] at hnf
    rcases step_right hi op a (hin _ (List.mem_cons_self ..)) with h | h
    · exact absurd h.symm hnf.1
    · exact ih h.2 (fun y hy => hin y (List.mem_cons_of_mem _ hy)) hnf.2

/-- Whatever the system answers: as long as no unit has failed, every further one inside the file fails, or reads or writes
exactly the bytes at its offset; nothing outside of a mapping is touched. -/
theorem C85_right (c : Cfg) (f : Nat → Nat) (ops : List (Op × Ans)) (op : Op) (a : Ans) (hin : ∀ x ∈ ops, Inside c x.1)
    (hop : Inside c op) (hnf : .failed ∉ (run c (openFile f) ops).2) :
    (step c (run c (openFile f) ops).1 op a).2 = .failed ∨
      Right (run c (openFile f) ops).1.file (step c (run c (openFile f) ops).1 op a).1.file op
        (step c (run c (openFile f) ops).1 op a).2 := by
  have hi := run_inv ops (open_inv f) hin hnf
  rcases step_right hi op a hop with h | h
  · exact Or.inl h
  · exact Or.inr h.1

/-! ## If the system works -/

/-- The length prepared. -/
def prepared : Op → Nat
  | .read _ b _ => b
  | .write _ b _ => b
  | .sync _ b => b
  | .reopen => 0

/-- Nothing fails if all calls work, and units are not longer than a part if only parts can be mapped. -/
theorem prep_total {c : Cfg} {s : St} (offset buflen : Nat) (hs : (c.small = false ∧ s.partMap = false) ∨ buflen ≤ c.mapSize) :
    (prep c s offset buflen allOk).2 ≠ none := by
  unfold prep
  split
  · simp
  · have : (remap c s offset buflen allOk).2 = true := by
      unfold remap
      rw [if_neg (by simp [allOk])]
      dsimp only
      generalize hu : (if s.ptr.isSome = true then unmap s else s) = t
      have htp : t.partMap = s.partMap := by
        rw [← hu]
        split <;> rfl
      split
      · assumption
      · rename_i hr
        rcases hs with ⟨h1, h2⟩ | h
        · exfalso
          apply hr
          unfold prepFull
          rw [htp, h2, h1]
          simp [mmapFile, allOk]
        · unfold prepLimited
          rw [if_neg (by omega)]
          simp [mmapFile, allOk]
    dsimp only
    rw [this]
    simp

/-- In use is the whole file, or nothing yet. -/
structure Whole (c : Cfg) (s : St) : Prop where
  inv : Inv s
  part : s.partMap = false
  win : (s.ptr = none ∧ s.sz = 0 ∧ s.off = 0) ∨ (s.ptr ≠ none ∧ s.sz = c.ioSize ∧ s.off = c.fileOff)

theorem prep_whole {c : Cfg} {s : St} (hc : c.small = false) (h : Whole c s) (offset buflen : Nat) :
    ∃ s' p, prep c s offset buflen allOk = (s', some p) ∧ Whole c s' ∧ s'.dirty = s.dirty ∧ s'.file = s.file := by
  have ht := prep_total (c := c) (s := s) offset buflen (Or.inl ⟨hc, h.part⟩)
  generalize hr : prep c s offset buflen allOk = r at ht
  obtain ⟨s', o⟩ := r
  cases o with
  | none => exact absurd rfl ht
  | some p =>
    obtain ⟨q1, q2, q3, q4, q5⟩ := prep_ok h.inv hr
    refine ⟨s', p, rfl, ?_, q3, q2⟩
    unfold prep at hr
    split at hr
    · injection hr with hr _
      rw [← hr]
      exact h
    · dsimp only at hr
      split at hr
      · rename_i hm
        injection hr with hr _
        rw [← hr]
        unfold remap
        rw [if_neg (by simp [allOk])]
        dsimp only
        generalize hu : (if s.ptr.isSome = true then unmap s else s) = t
        have htp : t.partMap = false := by
          rw [← hu]
          split <;> exact h.part
        have hold : ∀ m ∈ t.live, m.id < t.next := by
          rw [← hu]
          split
          · exact fun m hm => h.inv.old m (List.mem_filter.1 hm).1
          · exact h.inv.old
        have hf : (prepFull c t allOk).2 = true := by
          unfold prepFull
          rw [htp, hc]
          simp [mmapFile, allOk]
        rw [if_pos hf]
        obtain ⟨w1, w2, w3, w4, w5, w6, w7⟩ := prepFull_ok (s' := (prepFull c t allOk).1) hold (by rw [← hf])
        exact ⟨w1, w6, Or.inr ⟨w7, w2, w3⟩⟩
      · injection hr with _ hr; cases hr

/-- Parts not yet synced lie in the part of the file the job works on; there are none while nothing is mapped. -/
def Dirty (c : Cfg) (s : St) : Prop := ∀ d ∈ s.dirty, c.fileOff ≤ d.1 ∧ d.1 + d.2 ≤ c.fileOff + c.ioSize

/-- Units, the file not being closed. -/
def Stays : Op → Prop
  | .reopen => False
  | _ => True

structure WholeD (c : Cfg) (s : St) : Prop where
  whole : Whole c s
  dirty : Dirty c s
  none : s.ptr = none → s.dirty = []

theorem msync_whole {c : Cfg} {s : St} (h : WholeD c s) : (msync s).dirty = [] := by
  rcases h.whole.inv.here with ⟨h1, h2⟩ | ⟨id, h1, h2⟩
  · have hd := h.none h1
    unfold msync
    split
    · exact hd
    · dsimp only
      rw [hd]
      rfl
  · rcases h.whole.win with ⟨w1, _⟩ | ⟨w1, w2, w3⟩
    · rw [w1] at h1; cases h1
    · unfold cur at h2
      unfold msync
      rw [h2]
      dsimp only
      rw [List.filter_eq_nil_iff]
      intro d hd
      have := h.dirty d hd
      rw [w2, w3]
      simp [this]

theorem prep_ptr {c : Cfg} {s s' : St} {offset buflen : Nat} {p : Option Nat × Int} (h : Whole c s)
    (hr : prep c s offset buflen allOk = (s', some p)) : s'.ptr = none → s.ptr = none := by
  unfold prep at hr
  split at hr
  · injection hr with hr _
    rw [← hr]
    exact fun h => h
  · dsimp only at hr
    split at hr
    · rename_i hm
      injection hr with hr _
      have hq : remap c s offset buflen allOk = (s', true) := by rw [← hr, ← hm]
      exact fun he => absurd he (remap_ok h.inv hq).2.2.2.1
    · injection hr with _ hr; cases hr

theorem step_whole {c : Cfg} {s : St} (hc : c.small = false) (h : WholeD c s) (op : Op) (hin : Inside c op) (hst : Stays op) :
    WholeD c (step c s op allOk).1 ∧ (step c s op allOk).2 ≠ .failed ∧ (step c s op allOk).2 ≠ .crash := by
  cases op with
  | reopen => exact hst.elim
  | sync offset buflen =>
    obtain ⟨s', p, p1, p2, p3, p4⟩ := prep_whole hc h.whole offset buflen
    unfold step
    dsimp only
    rw [p1]
    dsimp only
    obtain ⟨m1, m2, m3, m4, m5, m6, m7⟩ := msync_fields s'
    have hw : WholeD c s' := ⟨p2, by unfold Dirty; rw [p3]; exact h.dirty, fun he => by
      rw [p3]; exact h.none (prep_ptr h.whole p1 he)⟩
    have hd := msync_whole hw
    refine ⟨⟨⟨inv_congr p2.inv m1 m2 m3 m4 m5, m7.trans p2.part, ?_⟩, ?_, fun _ => hd⟩, by simp, by simp⟩
    · rw [m1, m2, m3]; exact p2.win
    · unfold Dirty; rw [hd]; simp
  | read offset buflen len =>
    obtain ⟨s', p, p1, p2, p3, p4⟩ := prep_whole hc h.whole offset buflen
    obtain ⟨q1, q2, q3, q4, q5⟩ := prep_ok h.whole.inv p1
    have hw : WholeD c s' := ⟨p2, by unfold Dirty; rw [p3]; exact h.dirty, fun he => by
      rw [p3]; exact h.none (prep_ptr h.whole p1 he)⟩
    unfold step
    dsimp only
    rw [p1]
    dsimp only
    by_cases h0 : len = 0
    · rw [if_pos h0]
      exact ⟨hw, by simp, by simp⟩
    · rw [if_neg h0, q4, deref_ok q1 (q5 hin.1 hin.2.1) hin.2.2 h0]
      exact ⟨hw, by simp, by simp⟩
  | write offset buflen data =>
    obtain ⟨s', p, p1, p2, p3, p4⟩ := prep_whole hc h.whole offset buflen
    obtain ⟨q1, q2, q3, q4, q5⟩ := prep_ok h.whole.inv p1
    have hw : WholeD c s' := ⟨p2, by unfold Dirty; rw [p3]; exact h.dirty, fun he => by
      rw [p3]; exact h.none (prep_ptr h.whole p1 he)⟩
    unfold step
    dsimp only
    rw [p1]
    dsimp only
    by_cases h0 : data.length = 0
    · rw [if_pos h0]
      exact ⟨hw, by simp, by simp⟩
    · have hfit := q5 hin.1 hin.2.1
      rw [if_neg h0, q4, deref_ok q1 hfit hin.2.2 h0]
      refine ⟨⟨⟨inv_congr q1 rfl rfl rfl rfl rfl, p2.part, p2.win⟩, ?_, ?_⟩, by simp, by simp⟩
      · intro d hd
        rcases List.mem_cons.1 hd with rfl | hd
        · have h1 := hin.1
          have h2 := hin.2.1
          have h3 := hin.2.2
          dsimp only
          omega
        · exact hw.dirty d hd
      · intro he
        exfalso
        dsimp only at he
        rcases q1.here with ⟨_, g2⟩ | ⟨id, g1, _⟩
        · unfold fits at hfit
          have := of_decide_eq_true hfit
          have h3 := hin.2.2
          omega
        · rw [g1] at he; cases he

theorem run_whole {c : Cfg} (hc : c.small = false) (ops : List Op) : ∀ {s : St}, WholeD c s → (∀ x ∈ ops, Inside c x ∧ Stays x) →
    WholeD c (run c s (ops.map (fun o => (o, allOk)))).1 ∧
      ∀ r ∈ (run c s (ops.map (fun o => (o, allOk)))).2, r ≠ .failed ∧ r ≠ .crash := by
  induction ops with
  | nil => intro s h _; exact ⟨h, by simp [run]⟩
  | cons o ops ih =>
    intro s h hin
    obtain ⟨h1, h2, h3⟩ := step_whole hc h o (hin o (List.mem_cons_self ..)).1 (hin o (List.mem_cons_self ..)).2
    obtain ⟨g1, g2⟩ := ih h1 (fun y hy => hin y (List.mem_cons_of_mem _ hy))
    simp only [List.map_cons]
    unfold run
    dsimp only
    refine ⟨g1, fun r hr => ?_⟩
    rcases List.mem_cons.1 hr with rfl | hr
    · exact ⟨h2, h3⟩
    · exact g2 r hr

theorem open_whole (c : Cfg) (f : Nat → Nat) : WholeD c (openFile f) :=
  ⟨⟨open_inv f, rfl, Or.inl ⟨rfl, rfl, rfl⟩⟩, by simp [Dirty, openFile], fun _ => rfl⟩

/-- If the system does what it is asked and the whole file can be mapped, no unit fails, and after a sync nothing written
before is missing on the disk. -/
theorem C85_sync (c : Cfg) (hc : c.small = false) (f : Nat → Nat) (ops : List Op) (hin : ∀ x ∈ ops, Inside c x ∧ Stays x)
    (offset buflen : Nat) :
    (∀ r ∈ (run c (openFile f) (ops.map (fun o => (o, allOk)))).2, r ≠ .failed ∧ r ≠ .crash) ∧
      (step c (run c (openFile f) (ops.map (fun o => (o, allOk)))).1 (.sync offset buflen) allOk).2 = .done [] ∧
      (step c (run c (openFile f) (ops.map (fun o => (o, allOk)))).1 (.sync offset buflen) allOk).1.dirty = [] := by
  obtain ⟨h1, h2⟩ := run_whole hc ops (open_whole c f) hin
  refine ⟨h2, ?_⟩
  generalize (run c (openFile f) (ops.map (fun o => (o, allOk)))).1 = s at *
  obtain ⟨s', p, p1, p2, p3, p4⟩ := prep_whole hc h1.whole offset buflen
  have hw : WholeD c s' := ⟨p2, by unfold Dirty; rw [p3]; exact h1.dirty, fun he => by
    rw [p3]; exact h1.none (prep_ptr h1.whole p1 he)⟩
  unfold step
  dsimp only
  rw [p1]
  exact ⟨rfl, msync_whole hw⟩

/-- Where only parts can be mapped, units not longer than a part never fail while the system works. -/
theorem C85_parts (c : Cfg) (s : St) (op : Op) (hb : prepared op ≤ c.mapSize) : (step c s op allOk).2 ≠ .failed := by
  cases op with
  | reopen => simp [step]
  | read offset buflen len =>
    have := prep_total (c := c) (s := s) offset buflen (Or.inr hb)
    unfold step
    dsimp only
    generalize prep c s offset buflen allOk = r at *
    obtain ⟨t, o⟩ := r
    cases o with
    | none => exact absurd rfl this
    | some p =>
      dsimp only
      split
      · simp
      · split <;> simp
  | write offset buflen data =>
    have := prep_total (c := c) (s := s) offset buflen (Or.inr hb)
    unfold step
    dsimp only
    generalize prep c s offset buflen allOk = r at *
    obtain ⟨t, o⟩ := r
    cases o with
    | none => exact absurd rfl this
    | some p =>
      dsimp only
      split
      · simp
      · split <;> simp
  | sync offset buflen =>
    have := prep_total (c := c) (s := s) offset buflen (Or.inr hb)
    unfold step
    dsimp only
    generalize prep c s offset buflen allOk = r at *
    obtain ⟨t, o⟩ := r
    cases o with
    | none => exact absurd rfl this
    | some p => simp

end Fio.Mmap
