import Verif.Log.Model
import Verif.Log.Spec
/-
What holds of a log between the steps.
-/
namespace Fio.Log

/-- The entries of a chunk are counted and there is room for them. -/
def Chunk.Ok (ch : Chunk) : Prop := ch.rev.length = ch.nr ∧ ch.nr ≤ ch.max

/-- All entries, newest first. -/
def content (l : Log) : List Nat :=
  (l.pend.toList ++ (l.cur.toList ++ l.old)).flatMap Chunk.rev

/-- `n - 1, …, 1, 0`. -/
def down : Nat → List Nat
  | 0 => []
  | n + 1 => n :: down n

structure Ok (l : Log) (d : Nat) : Prop where
  cur : ∀ ch, l.cur = some ch → ch.Ok
  pend : ∀ p, l.pend = some p → p.Ok
  full : ∀ p, l.pend = some p → 0 < p.nr → ∃ ch, l.cur = some ch ∧ ch.nr = ch.max
  cont : ∃ k, k ≤ d ∧ content l = down k ∧ (l.disabled = false → k = d)

/-- The two outcomes of get_new_log. -/
theorem getNew_cases (c : Cfg) (l : Log) :
    (c.fails l.allocs = true ∧ getNew c l = ({ l with allocs := l.allocs + 1 }, none)) ∨
    (c.fails l.allocs = false ∧ ∃ n, (l.curMax = 0 → n = c.entries) ∧
      (l.curMax ≠ 0 → n = min (2 * l.curMax) (1024 * 1024)) ∧
      getNew c l = ({ l with old := l.cur.toList ++ l.old, cur := some ⟨[], 0, n⟩, curMax := n,
                             allocs := l.allocs + 1 }, some ⟨[], 0, n⟩)) := by
  simp only [getNew]
  cases c.fails l.allocs
  · right
    refine ⟨rfl, _, ?_, ?_, rfl⟩
    · intro h; simp [h]
    · intro h
      rw [if_neg h]
      split <;> omega
  · left; simp

/-- The log after `getNew` has succeeded. -/
def grown (l : Log) (n : Nat) : Log :=
  { l with old := l.cur.toList ++ l.old, cur := some ⟨[], 0, n⟩, curMax := n, allocs := l.allocs + 1 }

/-- The outcomes of the search for the chunk to write to. -/
theorem cur_cases (c : Cfg) (l : Log) :
    (∃ ch, l.cur = some ch ∧ curChunk c l = (l, some ch)) ∨
    (l.cur = none ∧ c.fails l.allocs = true ∧ curChunk c l = ({ l with allocs := l.allocs + 1 }, none)) ∨
    (l.cur = none ∧ c.fails l.allocs = false ∧ ∃ n, (l.curMax = 0 → n = c.entries) ∧
      curChunk c l = (grown l n, some ⟨[], 0, n⟩)) := by
  cases hc : l.cur with
  | some ch => left; exact ⟨ch, rfl, by simp [curChunk, hc]⟩
  | none =>
    right
    have e0 : curChunk c l = getNew c l := by simp [curChunk, hc]
    rw [e0]
    rcases getNew_cases c l with ⟨hf, e⟩ | ⟨hf, n, hn, _, e⟩
    · left; exact ⟨rfl, hf, by rw [e, hc]⟩
    · right; exact ⟨rfl, hf, n, hn, by rw [e]; rfl⟩

theorem Ok.allocs {l d} (h : Ok l d) (a : Nat) : Ok { l with allocs := a } d :=
  ⟨h.cur, h.pend, h.full, h.cont⟩

theorem Ok.flag {l d} (h : Ok l d) (a : Bool) : Ok { l with flag := a } d :=
  ⟨h.cur, h.pend, h.full, h.cont⟩

theorem Ok.off {l d} (h : Ok l d) : Ok { l with disabled := true } d := by
  obtain ⟨h1, h2, h3, k, hk, h4, h5⟩ := h
  exact ⟨h1, h2, h3, k, hk, h4, by simp⟩

theorem Ok.off_later {l d} (h : Ok l d) (e : l.disabled = true) : Ok l (d + 1) := by
  obtain ⟨h1, h2, h3, k, hk, h4, h5⟩ := h
  exact ⟨h1, h2, h3, k, by omega, h4, by simp [e]⟩

theorem Ok.grown {l d} (h : Ok l d) (n : Nat) (hp : ∀ p, l.pend = some p → p.nr = 0) :
    Ok (grown l n) d := by
  obtain ⟨h1, h2, h3, k, hk, h4, h5⟩ := h
  refine ⟨?_, h2, ?_, k, hk, ?_, h5⟩
  · intro ch hch
    cases hch
    simp [Chunk.Ok]
  · intro p hp' h0
    have := hp p hp'
    omega
  · simpa [content, grown, Fio.Log.grown] using h4

/-- An entry goes into the chunk at the end of the list. -/
theorem Ok.push {l d ch} (h : Ok l d) (e : l.cur = some ch) (hr : ch.nr < ch.max) :
    Ok { l with cur := some ⟨d :: ch.rev, ch.nr + 1, ch.max⟩ } (d + 1) ∨ l.disabled = true := by
  obtain ⟨h1, h2, h3, k, hk, h4, h5⟩ := h
  cases hd : l.disabled with
  | true => right; rfl
  | false =>
    left
    have hkd := h5 hd
    subst hkd
    have np : ∀ p, l.pend = some p → p.rev = [] ∧ p.nr = 0 := by
      intro p hp
      by_cases h0 : 0 < p.nr
      · obtain ⟨ch', e', hf⟩ := h3 p hp h0
        rw [e] at e'
        cases e'
        omega
      · have := (h2 p hp).1
        have h0 : p.nr = 0 := by omega
        rw [h0] at this
        exact ⟨List.length_eq_zero_iff.1 this, h0⟩
    refine ⟨?_, h2, ?_, k + 1, Nat.le_refl _, ?_, fun _ => rfl⟩
    · intro ch' hch
      cases hch
      have := h1 ch e
      simp only [Chunk.Ok, List.length_cons] at this ⊢
      omega
    · intro p hp h0
      have := (np p hp).2
      omega
    · have hz : l.pend.toList.flatMap Chunk.rev = [] := by
        cases hp : l.pend with
        | none => rfl
        | some p => simp [(np p hp).1]
      simp only [content, e, List.flatMap_append, hz, List.nil_append, Option.toList_some, List.cons_append,
        List.flatMap_cons, down] at h4 ⊢
      rw [h4]

/-- What the second half of regrow_log does, if the last chunk is full. -/
theorem extend_ok {c l d l' b} (h : Ok l d) (e : extend c l = .ok (l', b)) :
    Ok l' d ∧ l'.flag = l.flag ∧ l'.disabled = l.disabled := by
  rw [extend] at e
  rcases getNew_cases c l with ⟨hf, e1⟩ | ⟨hf, n, hn, hm, e1⟩
  · rw [e1] at e
    cases e
    exact ⟨h.allocs _, rfl, rfl⟩
  · rw [e1] at e
    simp only at e
    cases hp : l.pend with
    | none =>
      rw [hp] at e
      cases e
      have := h.grown n (by simp [hp])
      exact ⟨by simpa [grown, hp] using this, rfl, rfl⟩
    | some p =>
      rw [hp] at e
      simp only at e
      split at e
      · rename_i h0
        cases e
        have := h.grown n (by rw [hp]; intro p' e'; cases e'; exact h0)
        exact ⟨by simpa [grown, hp] using this, rfl, rfl⟩
      · split at e
        · cases e
        · cases e
          refine ⟨?_, rfl, rfl⟩
          obtain ⟨h1, h2, h3, k, hk, h4, h5⟩ := h
          refine ⟨?_, ?_, ?_, k, hk, ?_, h5⟩
          · intro ch hc
            cases hc
            exact ⟨(h2 p hp).1, by simp only; omega⟩
          · intro p' hp'
            cases hp'
            simp [Chunk.Ok]
          · intro p' hp' h0
            cases hp'
            simp at h0
          · simpa [content, hp] using h4

/-- What regrow_log does. -/
theorem regrow_ok {c l d l' b} (h : Ok l d) (e : regrow c l = .ok (l', b)) :
    Ok l' d ∧ l'.flag = l.flag ∧ l'.disabled = l.disabled := by
  rw [regrow] at e
  split at e
  · cases e
    exact ⟨h, rfl, rfl⟩
  · rename_i hd
    rcases cur_cases c l with ⟨ch, hc, e1⟩ | ⟨hc, hf, e1⟩ | ⟨hc, hf, n, hn, e1⟩
    · rw [e1] at e
      simp only at e
      split at e
      · cases e
        exact ⟨h, rfl, rfl⟩
      · exact extend_ok h e
    · rw [e1] at e
      cases e
      exact ⟨h.allocs _, rfl, rfl⟩
    · rw [e1] at e
      have hg : Ok (grown l n) d := h.grown n (by
        intro p hp
        by_cases h0 : 0 < p.nr
        · obtain ⟨ch, e', _⟩ := h.full p hp h0
          rw [hc] at e'
          cases e'
        · omega)
      simp only at e
      split at e
      · cases e
        exact ⟨hg, rfl, rfl⟩
      · have := extend_ok hg e
        exact this

theorem pushCur_ok {l d l'} (h : Ok l d) (hd : l.disabled = false) (e : pushCur l d = .ok l') :
    Ok l' (d + 1) := by
  rw [pushCur] at e
  split at e
  · cases e
    obtain ⟨h1, h2, h3, k, hk, h4, h5⟩ := h
    exact ⟨h1, h2, h3, k, by omega, h4, by simp⟩
  · rename_i ch hc
    by_cases hr : ch.nr < ch.max
    · simp only [Chunk.push, if_pos hr] at e
      cases e
      rcases h.push hc hr with h' | h'
      · exact h'
      · simp [hd] at h'
    · simp [Chunk.push, if_neg hr] at e

theorem pushPend_ok {l d l' ch} (h : Ok l d) (hd : l.disabled = false) (hc : l.cur = some ch)
    (hf : ¬ ch.nr < ch.max) (e : pushPend l d = .ok l') : Ok l' (d + 1) := by
  obtain ⟨h1, h2, h3, k, hk, h4, h5⟩ := h
  rw [pushPend] at e
  split at e
  · cases e
    exact ⟨h1, h2, h3, k, by omega, h4, by simp⟩
  · rename_i p hp
    split at e
    · rename_i hr
      cases e
      have hkd := h5 hd
      subst hkd
      refine ⟨h1, ?_, ?_, k + 1, Nat.le_refl _, ?_, fun _ => rfl⟩
      · intro p' e'
        cases e'
        have := h2 p hp
        simp only [Chunk.Ok, List.length_cons] at this ⊢
        omega
      · intro _ _ _
        have := (h1 ch hc).2
        exact ⟨ch, hc, by omega⟩
      · simp only [content, hp, Option.toList_some, List.cons_append, List.nil_append, List.flatMap_cons,
          down] at h4 ⊢
        rw [h4]
    · cases e

/-- An entry is added. -/
theorem add_ok {c l d l'} (h : Ok l d) (e : add c l d = .ok l') : Ok l' (d + 1) := by
  rw [add] at e
  split at e
  · rename_i hd
    cases e
    exact h.off_later hd
  · rename_i hd
    have hd : l.disabled = false := by simpa using hd
    rcases cur_cases c l with ⟨ch, hc, e1⟩ | ⟨hc, hf, e1⟩ | ⟨hc, hf, n, hn, e1⟩
    · rw [e1] at e
      simp only at e
      split at e
      · exact pushCur_ok h hd e
      · rename_i hr
        split at e
        · split at e
          · cases e
          · rename_i l2 hg
            obtain ⟨h2, _, h3⟩ := regrow_ok h hg
            exact pushCur_ok h2 (by rw [h3, hd]) e
          · rename_i l2 hg
            obtain ⟨h2, _, h3⟩ := regrow_ok h hg
            cases e
            exact h2.off.off_later rfl
        · exact pushPend_ok h hd hc hr e
    · rw [e1] at e
      cases e
      exact (h.allocs _).off.off_later rfl
    · rw [e1] at e
      have hg : Ok (grown l n) d := h.grown n (by
        intro p hp
        by_cases h0 : 0 < p.nr
        · obtain ⟨ch, e', _⟩ := h.full p hp h0
          rw [hc] at e'
          cases e'
        · omega)
      have hd' : (grown l n).disabled = false := hd
      simp only at e
      split at e
      · exact pushCur_ok hg hd' e
      · rename_i hr
        split at e
        · split at e
          · cases e
          · rename_i l2 hg2
            obtain ⟨h2, _, h3⟩ := regrow_ok hg hg2
            exact pushCur_ok h2 (by rw [h3, hd']) e
          · rename_i l2 hg2
            obtain ⟨h2, _, h3⟩ := regrow_ok hg hg2
            cases e
            exact h2.off.off_later rfl
        · exact pushPend_ok hg hd' rfl hr e

theorem complete_ok {c} : ∀ {n j j'}, Ok j.log j.done → complete c n j = .ok j' →
    Ok j'.log j'.done ∧ j'.done = j.done + n ∧ j'.inflight = j.inflight
  | 0, j, j', h, e => by cases e; exact ⟨h, rfl, rfl⟩
  | n + 1, j, j', h, e => by
    rw [complete] at e
    cases ha : add c j.log j.done with
    | error x => rw [ha] at e; cases e
    | ok l =>
      rw [ha] at e
      obtain ⟨h1, h2, h3⟩ := complete_ok (n := n) (add_ok h ha) e
      exact ⟨h1, by rw [h2]; simp only; omega, h3⟩

theorem reap_ok {c n j j'} (h : Ok j.log j.done) (e : reap c n j = .ok j') :
    Ok j'.log j'.done ∧ j'.done = j.done + min n j.inflight ∧
      j'.inflight = j.inflight - min n j.inflight := by
  have := complete_ok (j := { j with inflight := j.inflight - min n j.inflight }) h e
  exact this

theorem check_ok {c j j'} (h : Ok j.log j.done) (e : check c j = .ok j') :
    Ok j'.log j'.done ∧ j'.done = j.done ∧ j'.inflight = j.inflight := by
  rw [check] at e
  split at e
  · cases hg : regrow c j.log with
    | error x => simp only [regrows, hg, bind, Except.bind] at e; cases e
    | ok r =>
      obtain ⟨l, b⟩ := r
      simp only [regrows, hg, bind, Except.bind] at e
      cases e
      exact ⟨(regrow_ok h hg).1.flag _, rfl, rfl⟩
  · cases e
    exact ⟨h, rfl, rfl⟩

theorem quiesce_ok {c j j'} (h : Ok j.log j.done) (e : quiesce c j = .ok j') :
    Ok j'.log j'.done ∧ j'.done = j.done + j.inflight ∧ j'.inflight = 0 := by
  rw [quiesce] at e
  cases hr : reap c j.inflight j with
  | error x => rw [hr] at e; cases e
  | ok j1 =>
    rw [hr] at e
    obtain ⟨h1, h2, h3⟩ := reap_ok h hr
    obtain ⟨h4, h5, h6⟩ := check_ok h1 e
    exact ⟨h4, by omega, by omega⟩

theorem step_ok {c j op j'} (h : Ok j.log j.done) (e : step c j op = .ok j') : Ok j'.log j'.done := by
  cases op with
  | queue => cases e; split <;> exact h
  | sync =>
    simp only [step] at e
    cases hr : complete c 1 j with
    | error x => rw [hr] at e; cases e
    | ok j1 =>
      rw [hr] at e
      exact (check_ok (complete_ok h hr).1 e).1
  | wait n =>
    simp only [step] at e
    split at e
    · exact (quiesce_ok h e).1
    · exact (reap_ok h e).1
  | quiesce => exact (quiesce_ok h e).1
  | other => cases e; exact h.flag _
  | look => exact (check_ok h e).1

theorem run_ok {c} : ∀ {ops j j'}, Ok j.log j.done → run c j ops = .ok j' → Ok j'.log j'.done
  | [], j, j', h, e => by cases e; exact h
  | op :: ops, j, j', h, e => by
    rw [run] at e
    cases hs : step c j op with
    | error x => rw [hs] at e; cases e
    | ok j1 =>
      rw [hs] at e
      exact run_ok (step_ok h hs) e

theorem setup_ok (c : Cfg) : Ok (setup c) 0 := by
  refine ⟨by simp [setup], ?_, ?_, 0, Nat.le_refl _, ?_, fun _ => rfl⟩
  · intro p hp
    simp only [setup] at hp
    split at hp <;> cases hp
    simp [Chunk.Ok]
  · intro p hp h0
    simp only [setup] at hp
    split at hp <;> cases hp
    simp at h0
  · simp only [content, setup]
    split <;> simp [down]

/-- The number of pending entries. -/
def np (l : Log) : Nat := match l.pend with
  | none => 0
  | some p => p.nr

/-- What keeps a log from failing. -/
structure Safe (c : Cfg) (l : Log) (d : Nat) : Prop where
  ok : Ok l d
  on : l.disabled = false
  first : l.cur = none → l.curMax = 0
  last : ∀ ch, l.cur = some ch → ch.max = l.curMax ∧ c.entries ≤ ch.max ∧ ch.max ≤ 1048576
  inl : c.offload = false → ∃ p, l.pend = some p ∧ p.max = pendMax c
  off : c.offload = true → l.pend = none

/-- The assumptions: no allocation fails, log_entries is within its limits (options.c). -/
structure Fine (c : Cfg) : Prop where
  mem : ∀ k, c.fails k = false
  lo : 1 ≤ c.entries
  hi : c.entries ≤ 1048576

theorem np_full {c l d} (h : Safe c l d) (hn : 0 < np l) : ∃ ch, l.cur = some ch ∧ ch.nr = ch.max := by
  cases hp : l.pend with
  | none => simp [np, hp] at hn
  | some p => exact h.ok.full p hp (by simpa [np, hp] using hn)

/-- A log grows: no entry is pending then. -/
theorem extend_safe {c l d} (f : Fine c) (h : Safe c l d) (hc : ∃ ch, l.cur = some ch)
    (hb : np l ≤ min (2 * c.entries) 1048576) :
    ∃ l', extend c l = .ok (l', true) ∧ Safe c l' d ∧ np l' = 0 ∧
      (np l = 0 ∨ np l ≤ min (2 * c.entries) 1048576) ∧
      ∃ ch, l'.cur = some ch ∧ ch.nr = np l := by
  obtain ⟨ch, hc⟩ := hc
  obtain ⟨hm, he, hu⟩ := h.last ch hc
  have hl := f.lo
  have hh := f.hi
  rcases getNew_cases c l with ⟨hf, e1⟩ | ⟨hf, n, hn, hm', e1⟩
  · rw [f.mem] at hf; cases hf
  · have hn' := hm' (by omega)
    cases hp : l.pend with
    | none =>
      have e : extend c l = .ok (grown l n, true) := by
        simp only [extend, e1, hp]; simp [grown, hp]
      refine ⟨_, e, ⟨(extend_ok h.ok e).1, h.on, ?_, ?_, ?_, h.off⟩, by simp [np, grown, hp], Or.inl (by simp [np, hp]), _, rfl,
        by simp [np, hp]⟩
      · intro hx; cases hx
      · intro ch' e'
        cases e'
        exact ⟨rfl, by simp only; omega, by simp only; omega⟩
      · exact h.inl
    | some p =>
      by_cases h0 : p.nr = 0
      · have e : extend c l = .ok (grown l n, true) := by
          simp only [extend, e1, hp, if_pos h0]; simp [grown, hp]
        refine ⟨_, e, ⟨(extend_ok h.ok e).1, h.on, ?_, ?_, ?_, h.off⟩, by simp [np, grown, hp, h0], Or.inl (by simp [np, hp, h0]),
          _, rfl, by simp [np, hp, h0]⟩
        · intro hx; cases hx
        · intro ch' e'
          cases e'
          exact ⟨rfl, by simp only; omega, by simp only; omega⟩
        · exact h.inl
      · have hnp : np l = p.nr := by simp [np, hp]
        have hle : ¬ p.nr > n := by omega
        have e : extend c l = .ok ({ grown l n with cur := .some ⟨p.rev, p.nr, n⟩, pend := .some ⟨[], 0, p.max⟩ }, true) := by
          simp only [extend, e1, hp, if_neg h0, if_neg hle]; rfl
        refine ⟨_, e, ⟨(extend_ok h.ok e).1, h.on, ?_, ?_, ?_, ?_⟩, by simp [np], Or.inr hb, _, rfl, by simp [hnp]⟩
        · intro hx; cases hx
        · intro ch' e'
          cases e'
          exact ⟨rfl, by simp only; omega, by simp only; omega⟩
        · intro ho
          obtain ⟨p', e', hm⟩ := h.inl ho
          rw [hp] at e'
          cases e'
          exact ⟨_, rfl, hm⟩
        · intro ho
          have := h.off ho
          rw [hp] at this
          cases this

theorem Safe.grown {c l d} (f : Fine c) (h : Safe c l d) (hc : l.cur = none) :
    Safe c (grown l c.entries) d ∧ np (Fio.Log.grown l c.entries) = 0 ∧ np l = 0 := by
  have hp : ∀ p, l.pend = some p → p.nr = 0 := by
    intro p hp
    by_cases h0 : 0 < p.nr
    · obtain ⟨ch, e', _⟩ := h.ok.full p hp h0
      rw [hc] at e'
      cases e'
    · omega
  have hz : np l = 0 := by
    cases hq : l.pend with
    | none => simp [np, hq]
    | some p => simpa [np, hq] using hp p hq
  refine ⟨⟨h.ok.grown _ hp, h.on, ?_, ?_, h.inl, h.off⟩, hz, hz⟩
  · intro hx; cases hx
  · intro ch e
    cases e
    exact ⟨rfl, Nat.le_refl _, f.hi⟩

theorem cur_safe {c l d} (f : Fine c) (h : Safe c l d) : ∃ l1 ch, curChunk c l = (l1, some ch) ∧
    Safe c l1 d ∧ l1.cur = some ch ∧ np l1 = np l ∧ l1.flag = l.flag := by
  rcases cur_cases c l with ⟨ch, hc, e⟩ | ⟨hc, hf, _⟩ | ⟨hc, hf, n, hn, e⟩
  · exact ⟨l, ch, e, h, hc, rfl, rfl⟩
  · rw [f.mem] at hf; cases hf
  · have := hn (h.first hc)
    subst this
    obtain ⟨h1, h2, h3⟩ := h.grown f hc
    exact ⟨_, _, e, h1, rfl, by rw [h2, h3], rfl⟩

/-- No entry is pending after the logs have grown. -/
theorem regrow_safe {c l d} (f : Fine c) (h : Safe c l d) (hb : np l ≤ min (2 * c.entries) 1048576) :
    ∃ l', regrow c l = .ok (l', true) ∧ Safe c l' d ∧ np l' = 0 ∧
      (np l = 0 → ∃ ch, l'.cur = some ch ∧ ch.nr < ch.max) := by
  obtain ⟨l1, ch, e, h1, hc, hn, _⟩ := cur_safe f h
  by_cases hr : ch.nr < ch.max
  · refine ⟨l1, by simp [regrow, h.on, e, hr], h1, ?_, fun _ => ⟨ch, hc, hr⟩⟩
    by_cases h0 : 0 < np l1
    · obtain ⟨ch', e', hf⟩ := np_full h1 h0
      rw [hc] at e'
      cases e'
      omega
    · omega
  · obtain ⟨l2, e2, h2, h3, _, ch2, h4, h5⟩ := extend_safe f h1 ⟨ch, hc⟩ (by omega)
    refine ⟨l2, by simp [regrow, h.on, e, hr, e2], h2, h3, fun h0 => ⟨ch2, h4, ?_⟩⟩
    have := (h2.last ch2 h4).2.1
    have := f.lo
    omega

theorem pushCur_safe {c l d ch} (h : Safe c l d) (hc : l.cur = some ch) (hr : ch.nr < ch.max) :
    ∃ l', pushCur l d = .ok l' ∧ Safe c l' (d + 1) ∧ np l' = np l ∧ l'.flag = l.flag := by
  have e : pushCur l d = .ok { l with cur := some ⟨d :: ch.rev, ch.nr + 1, ch.max⟩ } := by
    simp [pushCur, hc, Chunk.push, hr]
  refine ⟨_, e, ⟨pushCur_ok h.ok h.on e, h.on, ?_, ?_, h.inl, h.off⟩, rfl, rfl⟩
  · intro hx; cases hx
  · intro ch' e'
    cases e'
    exact h.last ch hc

/-- An entry is added. -/
theorem add_safe {c l d} (f : Fine c) (h : Safe c l d) (hb : np l < pendMax c) :
    ∃ l', add c l d = .ok l' ∧ Safe c l' (d + 1) ∧ np l' ≤ np l + 1 ∧
      (l.flag = true → l'.flag = true) ∧ (0 < np l' → np l = np l' ∨ l'.flag = true) := by
  obtain ⟨l1, ch, e, h1, hc, hn, hfl⟩ := cur_safe f h
  by_cases hr : ch.nr < ch.max
  · obtain ⟨l2, e2, h2, h3, h4⟩ := pushCur_safe h1 hc hr
    exact ⟨l2, by simp [add, h.on, e, hr, e2], h2, by omega, by rw [h4, hfl]; exact id, fun _ => Or.inl (by omega)⟩
  · cases ho : c.offload with
    | true =>
      have hz : np l1 = 0 := by simp [np, h1.off ho]
      obtain ⟨l2, e2, h2, h3, h4⟩ := regrow_safe f h1 (by omega)
      obtain ⟨ch2, hc2, hr2⟩ := h4 hz
      obtain ⟨l3, e3, h5, h6, h7⟩ := pushCur_safe h2 hc2 hr2
      have hf2 := (regrow_ok h1.ok e2).2.1
      exact ⟨l3, by simp [add, h.on, e, hr, ho, e2, e3], h5, by omega, by rw [h7, hf2, hfl]; exact id,
        fun _ => by omega⟩
    | false =>
      obtain ⟨p, hp, hm⟩ := h1.inl ho
      have hnp : np l1 = p.nr := by simp [np, hp]
      have hlt : p.nr < p.max := by omega
      have e2 : pushPend l1 d = .ok { l1 with flag := true, pend := some ⟨d :: p.rev, p.nr + 1, p.max⟩ } := by
        simp [pushPend, hp, hlt]
      refine ⟨_, by simp only [add, h.on, e, hr, ho, e2, Bool.false_eq_true, if_false],
        ⟨pushPend_ok h1.ok h1.on hc hr e2, h1.on, h1.first, h1.last, ?_, ?_⟩, ?_, fun _ => rfl, fun _ => Or.inr rfl⟩
      · intro _
        exact ⟨_, rfl, hm⟩
      · simp [ho]
      · show p.nr + 1 ≤ np l + 1
        omega

theorem complete_safe {c} (f : Fine c) : ∀ {n j}, Safe c j.log j.done → np j.log + n ≤ pendMax c →
    ∃ j', complete c n j = .ok j' ∧ Safe c j'.log j'.done ∧ np j'.log ≤ np j.log + n ∧
      (0 < np j'.log → 0 < np j.log ∨ j'.log.flag = true) ∧ (j.log.flag = true → j'.log.flag = true)
  | 0, j, h, _ => ⟨j, rfl, h, by omega, fun h => Or.inl h, id⟩
  | n + 1, j, h, hb => by
    obtain ⟨l, e, h1, h2, h3, h4⟩ := add_safe f h (by omega)
    obtain ⟨j', e', h5, h6, h7, h8⟩ := complete_safe f (n := n) (j := { j with log := l, done := j.done + 1 })
      h1 (by simp only; omega)
    refine ⟨j', by simp only [complete, e]; exact e', h5, by simp only at h6; omega, ?_, fun hx => h8 (h3 hx)⟩
    intro hp
    rcases h7 hp with hq | hq
    · rcases h4 hq with hr | hr
      · left; simp only at hq; omega
      · right; exact h8 hr
    · exact Or.inr hq

/-- What holds between the steps of a job, if the steps that wait reap no more than `m` I/Os. -/
structure JSafe (c : Cfg) (m : Nat) (j : Job) : Prop where
  safe : Safe c j.log j.done
  depth : j.inflight ≤ c.depth
  pend : np j.log ≤ m
  flag : 0 < np j.log → j.log.flag = true

/-- The assumptions on the queue: what can become pending fits. -/
structure Fits (c : Cfg) (m : Nat) : Prop where
  depth : 1 ≤ c.depth
  room : m + c.depth ≤ pendMax c
  copy : m + c.depth ≤ min (2 * c.entries) 1048576

theorem check_safe {c m j} (f : Fine c) (h : Safe c j.log j.done) (hd : j.inflight ≤ c.depth)
    (hb : np j.log ≤ min (2 * c.entries) 1048576) (hf : 0 < np j.log → j.log.flag = true) :
    ∃ j', check c j = .ok j' ∧ JSafe c m j' ∧ np j'.log = 0 := by
  cases hfl : j.log.flag with
  | false =>
    have hz : np j.log = 0 := by
      by_cases h0 : 0 < np j.log
      · rw [hf h0] at hfl; cases hfl
      · omega
    exact ⟨j, by simp [check, hfl], ⟨h, hd, by omega, by omega⟩, hz⟩
  | true =>
    obtain ⟨l, e, h1, h2, _⟩ := regrow_safe f h hb
    refine ⟨{ j with log := { l with flag := false } }, by simp [check, hfl, regrows, e, bind, Except.bind],
      ⟨⟨h1.ok.flag _, h1.on, h1.first, h1.last, h1.inl, h1.off⟩, hd, ?_, ?_⟩, h2⟩
    · have : np { l with flag := false } = 0 := h2
      simp only [this]; omega
    · intro hp
      have : np { l with flag := false } = 0 := h2
      simp only [this] at hp
      omega

theorem quiesce_safe {c m j} (f : Fine c) (q : Fits c m) (h : JSafe c m j) :
    ∃ j', quiesce c j = .ok j' ∧ JSafe c m j' := by
  have := h.depth
  have := h.pend
  have := q.room
  have := q.copy
  obtain ⟨j1, e1, h1, h2, h3, h4⟩ := complete_safe f (n := j.inflight) (j := { j with inflight := 0 }) h.safe
    (by simp only; omega)
  have e0 : reap c j.inflight j = .ok j1 := by simpa [reap] using e1
  have hi := (reap_ok h.safe.ok e0).2.2
  obtain ⟨j2, e2, h5, _⟩ := check_safe (m := m) f h1 (by omega) (by simp only at h2; omega) (fun hp => by
    rcases h3 hp with hq | hq
    · exact h4 (h.flag hq)
    · exact hq)
  exact ⟨j2, by simp only [quiesce, e0, bind, Except.bind]; exact e2, h5⟩

/-- No step fails. -/
theorem step_safe {c m j op} (f : Fine c) (q : Fits c m) (h : JSafe c m j)
    (hw : ∀ n, op = .wait n → n ≤ m) : ∃ j', step c j op = .ok j' ∧ JSafe c m j' := by
  have hd := h.depth
  have hp := h.pend
  have hq1 := q.room
  have hq2 := q.copy
  have hq3 := q.depth
  cases op with
  | queue =>
    refine ⟨_, rfl, ?_⟩
    split
    · exact ⟨h.safe, by simp only; omega, h.pend, h.flag⟩
    · exact h
  | sync =>
    obtain ⟨j1, e1, h1, h2, h3, h4⟩ := complete_safe f (n := 1) h.safe (by omega)
    have hi := (complete_ok h.safe.ok e1).2.2
    obtain ⟨j2, e2, h5, _⟩ := check_safe (m := m) f h1 (by omega) (by omega) (fun hp => by
      rcases h3 hp with hq | hq
      · exact h4 (h.flag hq)
      · exact hq)
    exact ⟨j2, by simp only [step, e1, bind, Except.bind]; exact e2, h5⟩
  | wait n =>
    cases hfl : j.log.flag with
    | true =>
      obtain ⟨j', e, h'⟩ := quiesce_safe f q h
      exact ⟨j', by simp only [step, hfl, if_true]; exact e, h'⟩
    | false =>
      have hz : np j.log = 0 := by
        by_cases h0 : 0 < np j.log
        · rw [h.flag h0] at hfl; cases hfl
        · omega
      have hn := hw n rfl
      obtain ⟨j1, e1, h1, h2, h3, h4⟩ := complete_safe f (n := min n j.inflight)
        (j := { j with inflight := j.inflight - min n j.inflight }) h.safe (by simp only; omega)
      have e0 : reap c n j = .ok j1 := e1
      have hi := (reap_ok h.safe.ok e0).2.2
      refine ⟨j1, by simp [step, hfl, e0], ⟨h1, by omega, by simp only at h2; omega, fun hp => ?_⟩⟩
      rcases h3 hp with hq | hq
      · simp only at hq; omega
      · exact hq
  | quiesce => exact quiesce_safe f q h
  | other => exact ⟨_, rfl, ⟨h.safe.ok.flag _, h.safe.on, h.safe.first, h.safe.last, h.safe.inl, h.safe.off⟩, hd, hp, fun _ => rfl⟩
  | look =>
    obtain ⟨j', e, h', _⟩ := check_safe (m := m) f h.safe hd (by omega) h.flag
    exact ⟨j', e, h'⟩

theorem run_safe {c m} (f : Fine c) (q : Fits c m) : ∀ {ops j}, JSafe c m j →
    (∀ n, Op.wait n ∈ ops → n ≤ m) → ∃ j', run c j ops = .ok j' ∧ JSafe c m j'
  | [], j, h, _ => ⟨j, rfl, h⟩
  | op :: ops, j, h, hw => by
    obtain ⟨j1, e1, h1⟩ := step_safe (op := op) f q h (fun n hn => hw n (by simp [hn]))
    obtain ⟨j2, e2, h2⟩ := run_safe f q (ops := ops) h1 (fun n hn => hw n (by simp [hn]))
    exact ⟨j2, by simp only [run, e1, bind, Except.bind]; exact e2, h2⟩

theorem setup_safe (c : Cfg) (m : Nat) : JSafe c m ⟨setup c, 0, 0⟩ := by
  have hz : np (setup c) = 0 := by
    simp only [np, setup]
    split <;> rename_i e <;> split at e <;> cases e <;> rfl
  refine ⟨⟨setup_ok c, rfl, fun _ => rfl, ?_, ?_, ?_⟩, Nat.zero_le _, by simp only; omega, by simp only; omega⟩
  · intro ch e; cases e
  · intro ho; exact ⟨_, by simp only [setup, ho]; rfl, rfl⟩
  · intro ho; simp [setup, ho]

theorem down_reverse : ∀ k, (down k).reverse = List.range k
  | 0 => rfl
  | k + 1 => by rw [down, List.reverse_cons, down_reverse k, List.range_succ]

theorem down_length : ∀ k, (down k).length = k
  | 0 => rfl
  | k + 1 => by rw [down, List.length_cons, down_length k]

theorem down_drop : ∀ (k : Nat) (a b : List Nat), a ++ b = down k → b = down (k - a.length)
  | k, [], b, h => by simpa using h
  | 0, x :: a, b, h => by simp [down] at h
  | k + 1, x :: a, b, h => by
    simp only [down, List.cons_append, List.cons.injEq] at h
    have := down_drop k a b h.2
    rw [this, List.length_cons]
    congr 1
    omega

theorem first_range (k : Nat) : Spec.first k (List.range k) :=
  ⟨List.length_range, fun i h => by simp [h]⟩

/-- The file: all entries but the pending ones. -/
theorem written_ok {l d} (h : Ok l d) : ∃ k, k ≤ d ∧ Spec.first k (written l) ∧
    (l.disabled = false → k + np l = d) := by
  obtain ⟨h1, h2, h3, k, hk, h4, h5⟩ := h
  have hl : (l.pend.toList.flatMap Chunk.rev).length = np l := by
    cases hp : l.pend with
    | none => simp [np, hp]
    | some p => simpa [np, hp] using (h2 p hp).1
  rw [content, List.flatMap_append] at h4
  have h6 := down_drop k _ _ h4
  rw [hl] at h6
  have h7 := congrArg List.length h4
  rw [List.length_append, hl, down_length] at h7
  refine ⟨k - np l, by omega, ?_, fun hd => ?_⟩
  · rw [written, h6, down_reverse]
    exact first_range _
  · have := h5 hd
    omega

theorem pendMax_pos (c : Cfg) : 1 ≤ pendMax c := by
  rw [pendMax, roundupPow2]
  split
  · split
    · omega
    · exact Nat.pow_pos (by omega)
  · omega

theorem off_np {c l d} (h : Safe c l d) (ho : c.offload = true) : np l = 0 := by
  simp [np, h.off ho]

theorem complete_off {c} (f : Fine c) (ho : c.offload = true) : ∀ {n j}, Safe c j.log j.done →
    ∃ j', complete c n j = .ok j' ∧ Safe c j'.log j'.done
  | 0, j, h => ⟨j, rfl, h⟩
  | n + 1, j, h => by
    have := pendMax_pos c
    obtain ⟨l, e, h1, _⟩ := add_safe f h (by rw [off_np h ho]; omega)
    obtain ⟨j', e', h5⟩ := complete_off f ho (n := n) (j := { j with log := l, done := j.done + 1 }) h1
    exact ⟨j', by simp only [complete, e]; exact e', h5⟩

/-- Nothing is pending between the steps. -/
structure Clean (c : Cfg) (j : Job) : Prop where
  safe : Safe c j.log j.done
  np : np j.log = 0
  idle : c.offload = true ∨ j.inflight = 0

theorem reap_clean {c n j} (f : Fine c) (h : Clean c j) : ∃ j', reap c n j = .ok j' ∧ Clean c j' := by
  rcases h.idle with ho | hi
  · obtain ⟨j', e, h'⟩ := complete_off f ho (n := min n j.inflight)
      (j := { j with inflight := j.inflight - min n j.inflight }) h.safe
    exact ⟨j', e, h', off_np h' ho, Or.inl ho⟩
  · refine ⟨j, ?_, h⟩
    have hm : min n j.inflight = 0 := by omega
    rw [reap, hm]
    rfl

theorem check_clean {c j} (f : Fine c) (h : Safe c j.log j.done) (hn : Log.np j.log ≤ 1)
    (hf : 0 < Log.np j.log → j.log.flag = true) (hi : c.offload = true ∨ j.inflight = 0) :
    ∃ j', check c j = .ok j' ∧ Clean c j' := by
  have := f.lo
  cases hfl : j.log.flag with
  | false =>
    have hz : np j.log = 0 := by
      by_cases h0 : 0 < np j.log
      · rw [hf h0] at hfl; cases hfl
      · omega
    exact ⟨j, by simp [check, hfl], h, hz, hi⟩
  | true =>
    obtain ⟨l, e, h1, h2, _⟩ := regrow_safe f h (by omega)
    exact ⟨{ j with log := { l with flag := false } }, by simp [check, hfl, regrows, e, bind, Except.bind],
      ⟨h1.ok.flag _, h1.on, h1.first, h1.last, h1.inl, h1.off⟩, h2, hi⟩

theorem step_clean {c j op} (f : Fine c) (h : Clean c j) (hq : c.offload = true ∨ op ≠ .queue) :
    ∃ j', step c j op = .ok j' ∧ Clean c j' := by
  have quiet : ∃ j', quiesce c j = .ok j' ∧ Clean c j' := by
    obtain ⟨j1, e1, h1⟩ := reap_clean f (n := j.inflight) h
    obtain ⟨j2, e2, h2⟩ := check_clean f h1.safe (by rw [h1.np]; omega) (by rw [h1.np]; omega) h1.idle
    exact ⟨j2, by simp only [quiesce, e1, bind, Except.bind]; exact e2, h2⟩
  cases op with
  | queue =>
    refine ⟨_, rfl, ?_⟩
    rcases hq with ho | hq
    · split
      · exact ⟨h.safe, h.np, Or.inl ho⟩
      · exact h
    · exact absurd rfl hq
  | sync =>
    have := pendMax_pos c
    have hn := h.np
    obtain ⟨j1, e1, h1, h2, h3, h4⟩ := complete_safe f (n := 1) h.safe (by omega)
    have hi := (complete_ok h.safe.ok e1).2.2
    obtain ⟨j2, e2, h5⟩ := check_clean f h1 (by omega) (fun hp => by
      rcases h3 hp with hq | hq
      · omega
      · exact hq) (by rw [hi]; exact h.idle)
    exact ⟨j2, by simp only [step, e1, bind, Except.bind]; exact e2, h5⟩
  | wait n =>
    cases hfl : j.log.flag with
    | true => simpa only [step, hfl, if_true] using quiet
    | false =>
      obtain ⟨j1, e1, h1⟩ := reap_clean f (n := n) h
      exact ⟨j1, by simp [step, hfl, e1], h1⟩
  | quiesce => exact quiet
  | other => exact ⟨_, rfl, ⟨h.safe.ok.flag _, h.safe.on, h.safe.first, h.safe.last, h.safe.inl, h.safe.off⟩, h.np, h.idle⟩
  | look =>
    obtain ⟨j', e, h'⟩ := check_clean f h.safe (by rw [h.np]; omega) (by rw [h.np]; omega) h.idle
    exact ⟨j', e, h'⟩

theorem run_clean {c} (f : Fine c) : ∀ {ops j}, Clean c j → (c.offload = true ∨ Op.queue ∉ ops) →
    ∃ j', run c j ops = .ok j' ∧ Clean c j'
  | [], j, h, _ => ⟨j, rfl, h⟩
  | op :: ops, j, h, hq => by
    obtain ⟨j1, e1, h1⟩ := step_clean (op := op) f h (by
      rcases hq with hq | hq
      · exact Or.inl hq
      · right; rintro rfl; simp at hq)
    obtain ⟨j2, e2, h2⟩ := run_clean f (ops := ops) h1 (by
      rcases hq with hq | hq
      · exact Or.inl hq
      · right; intro hx; exact hq (List.mem_cons_of_mem _ hx))
    exact ⟨j2, by simp only [run, e1, bind, Except.bind]; exact e2, h2⟩

/-- The I/Os that an operation starts, at most. -/
def starts : Op → Nat
  | .queue => 1
  | .sync => 1
  | _ => 0

/-- The I/Os that have been started are in flight or complete. -/
theorem step_count {c j op j'} (h : Ok j.log j.done) (e : step c j op = .ok j') :
    j'.done + j'.inflight ≤ j.done + j.inflight + starts op ∧
    (op ≠ .queue ∨ j.inflight < c.depth → j'.done + j'.inflight = j.done + j.inflight + starts op) := by
  cases op with
  | queue =>
    cases e
    split
    · simp only [starts]; omega
    · rename_i hx
      simp only [starts]
      refine ⟨by omega, ?_⟩
      rintro (h | h)
      · exact absurd rfl h
      · exact absurd h hx
  | sync =>
    simp only [step] at e
    cases hr : complete c 1 j with
    | error x => rw [hr] at e; cases e
    | ok j1 =>
      rw [hr] at e
      obtain ⟨h1, h2, h3⟩ := complete_ok h hr
      obtain ⟨h4, h5, h6⟩ := check_ok h1 e
      simp only [starts]; omega
  | wait n =>
    simp only [step] at e
    simp only [starts]
    split at e
    · obtain ⟨_, h2, h3⟩ := quiesce_ok h e
      omega
    · obtain ⟨_, h2, h3⟩ := reap_ok h e
      omega
  | quiesce =>
    obtain ⟨_, h2, h3⟩ := quiesce_ok h e
    simp only [starts]; omega
  | other => cases e; simp [starts]
  | look =>
    obtain ⟨_, h2, h3⟩ := check_ok h e
    simp only [starts]; omega

theorem run_count {c} : ∀ {ops j j'}, Ok j.log j.done → run c j ops = .ok j' →
    j'.done + j'.inflight ≤ j.done + j.inflight + (ops.map starts).sum ∧
    (Op.queue ∉ ops → j'.done + j'.inflight = j.done + j.inflight + (ops.map starts).sum) ∧
    (j.inflight + (ops.map starts).sum ≤ c.depth →
      j'.done + j'.inflight = j.done + j.inflight + (ops.map starts).sum)
  | [], j, j', h, e => by cases e; simp
  | op :: ops, j, j', h, e => by
    rw [run] at e
    cases hs : step c j op with
    | error x => rw [hs] at e; cases e
    | ok j1 =>
      rw [hs] at e
      obtain ⟨h1, h2⟩ := step_count h hs
      obtain ⟨h3, h4, h5⟩ := run_count (step_ok h hs) e
      simp only [List.map_cons, List.sum_cons]
      refine ⟨by omega, fun hq => ?_, fun hq => ?_⟩
      · have := h4 (fun hx => hq (List.mem_cons_of_mem _ hx))
        have := h2 (Or.inl (by rintro rfl; simp at hq))
        omega
      · have hle : j1.inflight ≤ j.inflight + starts op := by
          cases op with
          | queue => cases hs; split <;> simp [starts]
          | sync =>
            simp only [step] at hs
            cases hr : complete c 1 j with
            | error x => rw [hr] at hs; cases hs
            | ok j2 =>
              rw [hr] at hs
              obtain ⟨h1, h2, h3⟩ := complete_ok h hr
              obtain ⟨h4, h5, h6⟩ := check_ok h1 hs
              omega
          | wait n =>
            simp only [step] at hs
            split at hs
            · have := quiesce_ok h hs; omega
            · have := reap_ok h hs; omega
          | quiesce => have := quiesce_ok h hs; omega
          | other => cases hs; simp [starts]
          | look => have := check_ok h hs; omega
        have := h5 (by omega)
        have := h2 (by
          by_cases hx : op = .queue
          · right; subst hx; simp only [starts] at hq; omega
          · exact Or.inl hx)
        omega

end Fio.Log
