import Verif.SkOut.Model
/-!
# C112: messages of the server go out whole, once, and those queued in order
-/

namespace Fio.SkOut

def plain (l : List Entry) : List Entry := l.filter fun e => !e.inl

def inline (l : List Entry) : List Entry := l.filter fun e => e.inl

/-- The message being sent. -/
def cur (st : St) : List Entry := match st.hold with | none => [] | some (e, _) => [e]

structure Inv (st : St) : Prop where
  kindL : ∀ e ∈ st.list, e.inl = false
  kindC : ∀ e ∈ st.loc, e.inl = false
  kindW : ∀ e ∈ st.waiting, e.inl = true
  order : st.queued = plain (st.sent ++ cur st) ++ st.loc ++ st.list
  count : ∀ e, st.asked.count e = (inline (st.sent ++ cur st)).count e + st.waiting.count e
  wire : ∃ done, st.wire = (st.sent.map (·.parts)).flatten ++ done ∧
    match st.hold with | none => done = [] | some (e, rest) => e.parts = done ++ rest

theorem init_inv : Inv init := by
  constructor
  · simp [init]
  · simp [init]
  · simp [init]
  · simp [init, plain, cur]
  · intro e; simp [init, inline, cur]
  · exact ⟨[], by simp [init], by simp [init]⟩

theorem count_eraseIdx (l : List Entry) (i : Nat) (x e : Entry) (h : l[i]? = some x) :
    l.count e = (l.eraseIdx i).count e + [x].count e := by
  induction l generalizing i with
  | nil => simp at h
  | cons a l ih =>
    cases i with
    | zero =>
      simp only [List.getElem?_cons_zero, Option.some.injEq] at h
      subst h
      simp only [List.eraseIdx_cons_zero, List.count_cons, List.count_nil]
      omega
    | succ i =>
      have := ih i (by simpa using h)
      simp only [List.eraseIdx_cons_succ, List.count_cons, List.count_nil] at this ⊢
      omega

theorem step_inv (st : St) (o : Op) (h : Inv st) : Inv (step st o) := by
  obtain ⟨k1, k2, k3, ord, cnt, w⟩ := h
  cases o with
  | queue e =>
    simp only [step]
    by_cases hi : e.inl = true
    · rw [if_pos hi]
      refine ⟨k1, k2, ?_, ord, ?_, w⟩
      · intro x hx
        rcases List.mem_append.1 hx with hx | hx
        · exact k3 x hx
        · rw [List.mem_singleton] at hx; rw [hx]; exact hi
      · intro x
        have := cnt x
        simp only [cur, List.count_append] at this ⊢
        omega
    · rw [if_neg hi]
      refine ⟨?_, k2, k3, ?_, cnt, w⟩
      · intro x hx
        rcases List.mem_append.1 hx with hx | hx
        · exact k1 x hx
        · rw [List.mem_singleton] at hx; rw [hx]; simpa using hi
      · simp only [cur] at ord ⊢
        rw [ord, List.append_assoc _ st.list]
  | splice =>
    simp only [step]
    by_cases hc : st.loc = [] ∧ ¬ (∃ x ∈ st.hold, x.1.inl = false)
    · rw [if_pos hc]
      refine ⟨by simp, k1, k3, ?_, cnt, w⟩
      simp only [cur] at ord ⊢
      rw [ord, hc.1]
      simp
    · rw [if_neg hc]
      exact ⟨k1, k2, k3, ord, cnt, w⟩
  | take =>
    simp only [step]
    cases hh : st.hold with
    | some x => exact ⟨k1, k2, k3, ord, cnt, w⟩
    | none =>
      cases hl : st.loc with
      | nil => exact ⟨k1, k2, k3, ord, cnt, w⟩
      | cons e es =>
        have he := k2 e (by rw [hl]; simp)
        refine ⟨k1, fun x hx => k2 x (by rw [hl]; exact List.mem_cons_of_mem _ hx), k3, ?_, ?_, ?_⟩
        · simp only [cur, hh, hl] at ord ⊢
          rw [ord]
          simp [plain, List.filter_append, he]
        · intro x
          have := cnt x
          simp only [cur, hh] at this ⊢
          rw [this]
          simp [inline, List.filter_append, he]
        · obtain ⟨d, w1, w2⟩ := w
          rw [hh] at w2
          simp only at w2
          subst w2
          exact ⟨[], w1, by simp⟩
  | takeInline i =>
    simp only [step]
    cases hh : st.hold with
    | some x => exact ⟨k1, k2, k3, ord, cnt, w⟩
    | none =>
      cases hw : st.waiting[i]? with
      | none => exact ⟨k1, k2, k3, ord, cnt, w⟩
      | some e =>
        have he := k3 e (List.mem_of_getElem? hw)
        refine ⟨k1, k2, fun x hx => k3 x (List.mem_of_mem_eraseIdx hx), ?_, ?_, ?_⟩
        · simp only [cur, hh] at ord ⊢
          rw [ord]
          simp [plain, List.filter_append, he]
        · intro x
          have := cnt x
          have hc := count_eraseIdx st.waiting i e x hw
          simp only [cur, hh, inline, List.filter_append, List.append_nil] at this ⊢
          have hf : List.filter (fun e => e.inl) [e] = [e] := by simp [he]
          rw [hf, List.count_append]
          omega
        · obtain ⟨d, w1, w2⟩ := w
          rw [hh] at w2
          simp only at w2
          subst w2
          exact ⟨[], w1, by simp⟩
  | part =>
    simp only [step]
    cases hh : st.hold with
    | none => exact ⟨k1, k2, k3, ord, cnt, w⟩
    | some x =>
      obtain ⟨e, rest⟩ := x
      cases rest with
      | nil => exact ⟨k1, k2, k3, ord, cnt, w⟩
      | cons p ps =>
        obtain ⟨d, w1, w2⟩ := w
        rw [hh] at w2
        simp only [cur, hh] at ord cnt
        refine ⟨k1, k2, k3, ord, cnt, ⟨d ++ [p], ?_, ?_⟩⟩
        · simp only [w1, List.append_assoc]
        · simp only at w2 ⊢
          rw [w2]; simp
  | release =>
    simp only [step]
    cases hh : st.hold with
    | none => exact ⟨k1, k2, k3, ord, cnt, w⟩
    | some x =>
      obtain ⟨e, rest⟩ := x
      cases rest with
      | cons p ps => exact ⟨k1, k2, k3, ord, cnt, w⟩
      | nil =>
        obtain ⟨d, w1, w2⟩ := w
        rw [hh] at w2
        simp only [cur, hh] at ord cnt
        simp only [List.append_nil] at w2
        refine ⟨k1, k2, k3, ?_, ?_, ⟨[], ?_, ?_⟩⟩
        · simpa [cur] using ord
        · intro x; simpa [cur] using cnt x
        · simp only [w1, List.map_append, List.flatten_append]
          simp [w2]
        · simp

theorem run_inv (os : List Op) (st : St) (h : Inv st) : Inv (run st os) := by
  induction os generalizing st with
  | nil => exact h
  | cons o os ih => exact ih _ (step_inv st o h)

/-- What went out is at every moment whole messages, and of one more that was queued or asked for a part from its beginning: messages are never mixed. -/
theorem C112_whole (os : List Op) : ∃ done, (run init os).wire = ((run init os).sent.map (·.parts)).flatten ++ done ∧
    (done = [] ∨ ∃ e rest, (e ∈ (run init os).queued ∨ e ∈ (run init os).asked) ∧ e.parts = done ++ rest) := by
  obtain ⟨_, _, _, ord, cnt, d, w1, w2⟩ := run_inv os init init_inv
  cases hh : (run init os).hold with
  | none =>
    rw [hh] at w2
    exact ⟨d, w1, Or.inl w2⟩
  | some x =>
    rw [hh] at w2
    refine ⟨d, w1, Or.inr ⟨x.1, x.2, ?_, w2⟩⟩
    have hm : x.1 ∈ (run init os).sent ++ cur (run init os) := by simp [cur, hh]
    cases hi : x.1.inl with
    | false =>
      left
      rw [ord]
      simp only [List.append_assoc]
      exact List.mem_append.2 (Or.inl (List.mem_filter.2 ⟨hm, by simp [hi]⟩))
    | true =>
      right
      have h1 : 0 < (inline ((run init os).sent ++ cur (run init os))).count x.1 := List.count_pos_iff.2 (List.mem_filter.2 ⟨hm, hi⟩)
      have h2 := cnt x.1
      exact List.count_pos_iff.1 (by omega)

/-- The messages queued go out in the order in which they were queued, each once. -/
theorem C112_order (os : List Op) : ∃ rest, (run init os).queued = ((run init os).sent.filter fun e => !e.inl) ++ rest := by
  have h := (run_inv os init init_inv).order
  rw [plain, List.filter_append, List.append_assoc, List.append_assoc] at h
  exact ⟨_, h⟩

/-- When nothing waits, all messages went out: those queued in order, and each of the others as often as it was asked for. -/
theorem C112_all (os : List Op) (h1 : (run init os).list = []) (h2 : (run init os).loc = []) (h3 : (run init os).hold = none)
    (h4 : (run init os).waiting = []) : ((run init os).sent.filter fun e => !e.inl) = (run init os).queued ∧
      (∀ e, ((run init os).sent.filter fun e => e.inl).count e = (run init os).asked.count e) ∧
      (run init os).wire = ((run init os).sent.map (·.parts)).flatten := by
  obtain ⟨_, _, _, ord, cnt, d, w1, w2⟩ := run_inv os init init_inv
  rw [h3] at w2
  simp only at w2
  subst w2
  refine ⟨?_, ?_, by simpa using w1⟩
  · rw [ord, h1, h2]
    simp [plain, cur, h3]
  · intro e
    rw [cnt e, h4]
    simp [inline, cur, h3]

/-- How much is still to be done: steps that bring messages to an end. -/
def left (st : St) : Nat :=
  (st.list.map fun e => e.parts.length + 4).sum + (st.loc.map fun e => e.parts.length + 3).sum + (st.waiting.map fun e => e.parts.length + 3).sum +
    match st.hold with | none => 0 | some (_, rest) => rest.length + 1

theorem left_splice (l : List Entry) (h : l ≠ []) : (l.map fun e => e.parts.length + 3).sum < (l.map fun e => e.parts.length + 4).sum := by
  have : ∀ l : List Entry, (l.map fun e => e.parts.length + 4).sum = (l.map fun e => e.parts.length + 3).sum + l.length := by
    intro l
    induction l with
    | nil => rfl
    | cons a l ih => simp only [List.map_cons, List.sum_cons, List.length_cons, ih]; omega
  have h2 := this l
  have h3 := List.length_pos_iff.2 h
  omega

/-- While something waits there is a step that can be taken and leaves less to be done, so that without new messages all are sent in the end. -/
theorem C112_progress (st : St) (h : st.list ≠ [] ∨ st.loc ≠ [] ∨ st.hold ≠ none ∨ st.waiting ≠ []) :
    ∃ o, (o = .splice ∨ o = .take ∨ o = .takeInline 0 ∨ o = .part ∨ o = .release) ∧ left (step st o) < left st := by
  cases hh : st.hold with
  | some x =>
    obtain ⟨e, rest⟩ := x
    cases rest with
    | nil => exact ⟨.release, by simp, by simp [step, hh, left]⟩
    | cons p ps => exact ⟨.part, by simp, by simp [step, hh, left]⟩
  | none =>
    cases hl : st.loc with
    | cons e es => exact ⟨.take, by simp, by simp [step, hh, hl, left]; omega⟩
    | nil =>
      cases hw : st.waiting with
      | cons e es => exact ⟨.takeInline 0, by simp, by simp [step, hh, hw, left]; omega⟩
      | nil =>
        have hli : st.list ≠ [] := by
          rcases h with h | h | h | h
          · exact h
          · exact absurd hl h
          · exact absurd hh h
          · exact absurd hw h
        have := left_splice st.list hli
        exact ⟨.splice, by simp, by simpa [step, hh, hl, hw, left] using this⟩

/-- Two messages queued, one of three parts, and another thread that comes between. -/
def exOps : List Op := [.queue ⟨false, [1, 2, 3]⟩, .queue ⟨false, [4]⟩, .splice, .take, .part, .queue ⟨true, [9]⟩, .takeInline 0, .part, .part, .release,
  .takeInline 0, .part, .take, .release, .take, .part, .release]

theorem C112_example : (run init exOps).wire = [1, 2, 3, 9, 4] ∧ (run init exOps).hold = none ∧ (run init exOps).waiting = [] := by decide +kernel

/-- A message sent at once overtakes those queued before it. -/
theorem C112_overtake_counterexample :
    (run init [.queue ⟨false, [1]⟩, .queue ⟨true, [9]⟩, .takeInline 0, .part, .release, .splice, .take, .part, .release]).wire = [9, 1] := by
  decide +kernel

end Fio.SkOut
