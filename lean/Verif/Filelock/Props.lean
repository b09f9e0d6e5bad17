import Verif.Filelock.Model
import Mathlib.Data.List.Nodup
/-
C31: file locks are exclusive per name and lock records are never lost.
-/
namespace Fio.Filelock

/-- The record a thread has a reference to. -/
def Pc.rec? : Pc → Option Nat
  | .wait r | .tryWait r | .tryFailed r | .hold r => some r
  | _ => none

def refTo (r : Nat) (t : Thread) : Nat := if t.pc.rec? = some r then 1 else 0

def holds (r : Nat) (t : Thread) : Nat := if t.pc = .hold r then 1 else 0

structure Inv (s : St) : Prop where
  nodup : (s.active ++ s.free).Nodup
  all : ∀ r, r < s.recs.length ↔ r ∈ s.active ∨ r ∈ s.free
  hashes : ∀ r q x y, r ∈ s.active → q ∈ s.active → s.recs[r]? = some x → s.recs[q]? = some y →
    x.hash = y.hash → r = q
  ref : ∀ t ∈ s.threads, ∀ r, t.pc.rec? = some r →
    r ∈ s.active ∧ ∃ x, s.recs[r]? = some x ∧ x.hash = t.hash
  cnt : ∀ r x, s.recs[r]? = some x → (r ∈ s.active → 0 < x.refs ∧ x.refs = total (refTo r) s.threads) ∧
    x.sem + total (holds r) s.threads = 1

theorem holds_ref {r : Nat} {t : Thread} (h : t.pc.rec? ≠ some r) : holds r t = 0 := by
  unfold holds
  rw [if_neg]
  intro h'
  rw [h'] at h
  exact h rfl

theorem refTo_ne {r : Nat} {t : Thread} (h : t.pc.rec? ≠ some r) : refTo r t = 0 := by
  unfold refTo; rw [if_neg h]

theorem get_set {s : List Rec} {r q : Nat} {x' y : Rec} (h : (s.set r x')[q]? = some y) :
    (q = r ∧ y = x') ∨ (q ≠ r ∧ s[q]? = some y) := by
  rw [List.getElem?_set] at h
  split at h
  · rename_i e
    split at h
    · simp only [Option.some.injEq] at h; exact Or.inl ⟨e.symm, h.symm⟩
    · cases h
  · rename_i e; exact Or.inr ⟨fun h' => e h'.symm, h⟩

theorem lt_of_get {s : List Rec} {r : Nat} {x : Rec} (h : s[r]? = some x) : r < s.length :=
  (List.getElem?_eq_some_iff.1 h).1

theorem get_set_self {s : List Rec} {r : Nat} {x x' : Rec} (h : s[r]? = some x) :
    (s.set r x')[r]? = some x' := by
  rw [List.getElem?_set, if_pos rfl, if_pos (lt_of_get h)]

theorem get_set_ne {s : List Rec} {r q : Nat} {x' : Rec} (h : q ≠ r) :
    (s.set r x')[q]? = s[q]? := by
  rw [List.getElem?_set, if_neg (fun e => h e.symm)]

theorem mem_active_lt {s : St} (hi : Inv s) {r : Nat} (h : r ∈ s.active) : ∃ x, s.recs[r]? = some x :=
  ⟨s.recs[r]'((hi.all r).2 (Or.inl h)), List.getElem?_eq_getElem _⟩

theorem find_some {s : St} (hi : Inv s) {h r : Nat} (hf : hashFind s h = some r) :
    r ∈ s.active ∧ ∃ x, s.recs[r]? = some x ∧ x.hash = h := by
  unfold hashFind at hf
  have h1 := List.mem_of_find?_eq_some hf
  have h2 := List.find?_some hf
  obtain ⟨x, hx⟩ := mem_active_lt hi h1
  rw [hx] at h2
  simp only [Option.any_some, decide_eq_true_eq] at h2
  exact ⟨h1, x, hx, h2⟩

theorem find_none {s : St} {h : Nat} (hf : hashFind s h = none) {r : Nat} {x : Rec}
    (hr : r ∈ s.active) (hx : s.recs[r]? = some x) : x.hash ≠ h := by
  unfold hashFind at hf
  have := List.find?_eq_none.1 hf r hr
  rw [hx] at this
  simpa using this

/-- A step changing only thread `i` and the active record `r`, which stays active. -/
theorem inv_upd {s : St} (hi : Inv s) {i : Nat} {t t' : Thread} (ht : s.threads[i]? = some t)
    {r : Nat} {x x' : Rec} (hr : r ∈ s.active) (hx : s.recs[r]? = some x) (hh : x'.hash = x.hash)
    (hold : t.pc.rec? = none ∨ t.pc.rec? = some r)
    (hnew : t'.pc.rec? = none ∨ (t'.pc.rec? = some r ∧ x.hash = t'.hash))
    (hpos : 0 < x'.refs) (hrefs : x'.refs + refTo r t = x.refs + refTo r t')
    (hsem : x'.sem + holds r t' = x.sem + holds r t) :
    Inv { s with recs := s.recs.set r x', threads := s.threads.set i t' } where
  nodup := hi.nodup
  all := by intro q; simp only [List.length_set]; exact hi.all q
  hashes := by
    intro a b y z ha hb hy hz hyz
    rcases get_set hy with ⟨e1, e2⟩ | ⟨e1, e2⟩ <;> rcases get_set hz with ⟨f1, f2⟩ | ⟨f1, f2⟩
    · omega
    · subst e2; subst e1; exact hi.hashes a b x z ha hb hx f2 (by rw [← hh, hyz])
    · subst f2; subst f1; exact hi.hashes a b y x ha hb e2 hx (by rw [hyz, hh])
    · exact hi.hashes a b y z ha hb e2 f2 hyz
  ref := by
    intro u hu q hq
    rcases mem_set_cases hu with hu' | hu'
    · obtain ⟨h1, y, hy, hyh⟩ := hi.ref u hu' q hq
      refine ⟨h1, ?_⟩
      dsimp only
      by_cases hqr : q = r
      · subst hqr
        refine ⟨x', get_set_self hx, ?_⟩
        rw [hx] at hy
        rw [hh, Option.some.inj hy, hyh]
      · exact ⟨y, by rw [get_set_ne hqr]; exact hy, hyh⟩
    · subst hu'
      rcases hnew with h | ⟨h, h'⟩
      · rw [h] at hq; cases hq
      · rw [h] at hq
        have : q = r := (Option.some.inj hq).symm
        subst this
        exact ⟨hr, x', get_set_self hx, by rw [hh, h']⟩
  cnt := by
    intro q y hy
    dsimp only at hy ⊢
    have e1 := total_set (refTo q) s.threads i t t' ht
    have e2 := total_set (holds q) s.threads i t t' ht
    rcases get_set hy with ⟨hqr, f2⟩ | ⟨hqr, f2⟩
    · subst hqr; subst f2
      obtain ⟨c1, c2⟩ := hi.cnt q x hx
      obtain ⟨c3, c4⟩ := c1 hr
      exact ⟨fun _ => ⟨hpos, by omega⟩, by omega⟩
    · obtain ⟨c1, c2⟩ := hi.cnt q y f2
      have n1 : t.pc.rec? ≠ some q := by
        rcases hold with h | h <;> rw [h] <;> simp; omega
      have n2 : t'.pc.rec? ≠ some q := by
        rcases hnew with h | ⟨h, _⟩ <;> rw [h] <;> simp; omega
      have := refTo_ne n1; have := refTo_ne n2; have := holds_ref n1; have := holds_ref n2
      exact ⟨fun ha => ⟨(c1 ha).1, by have := (c1 ha).2; omega⟩, by omega⟩

/-- A step changing only the position of a thread without reference. -/
theorem inv_idle {s : St} (hi : Inv s) {i : Nat} {t t' : Thread} (ht : s.threads[i]? = some t)
    (h : t.pc.rec? = none) (h' : t'.pc.rec? = none) : Inv { s with threads := s.threads.set i t' } where
  nodup := hi.nodup
  all := hi.all
  hashes := hi.hashes
  ref := by
    intro u hu q hq
    rcases mem_set_cases hu with hu' | hu'
    · exact hi.ref u hu' q hq
    · subst hu'; rw [h'] at hq; cases hq
  cnt := by
    intro q y hy
    have e1 := total_set (refTo q) s.threads i t t' ht
    have e2 := total_set (holds q) s.threads i t t' ht
    obtain ⟨c1, c2⟩ := hi.cnt q y hy
    have n1 : t.pc.rec? ≠ some q := by rw [h]; simp
    have n2 : t'.pc.rec? ≠ some q := by rw [h']; simp
    have := refTo_ne n1; have := refTo_ne n2; have := holds_ref n1; have := holds_ref n2
    dsimp only
    exact ⟨fun ha => ⟨(c1 ha).1, by have := (c1 ha).2; omega⟩, by omega⟩

theorem inv_addRef {s : St} (hi : Inv s) {i : Nat} {t : Thread} (ht : s.threads[i]? = some t)
    (h : t.pc.rec? = none) {hash r : Nat} (hf : hashFind s hash = some r) {pc : Pc}
    (hpc : pc.rec? = some r) (hnh : pc ≠ .hold r) {s' : St} (hs : addRef s i hash r pc = some s') : Inv s' := by
  obtain ⟨hr, x, hx, hxh⟩ := find_some hi hf
  unfold addRef at hs
  rw [hx] at hs
  simp only [Option.some.injEq] at hs
  subst hs
  have hn : t.pc.rec? ≠ some r := by rw [h]; simp
  refine inv_upd (x := x) (t := t) hi ht hr hx rfl (Or.inl h) (Or.inr ⟨hpc, hxh⟩) (by simp) ?_ ?_
  · rw [refTo_ne hn]; simp [refTo, hpc]
  · rw [holds_ref hn]; simp [holds, hnh]

theorem inv_addNew {s : St} (hi : Inv s) {i : Nat} {t : Thread} (ht : s.threads[i]? = some t)
    (h : t.pc.rec? = none) {hash r : Nat} {rest : List Nat} (hfree : s.free = r :: rest)
    (hf : hashFind s hash = none) {pc : Pc}
    (hpc : pc.rec? = some r) (hnh : pc ≠ .hold r) {s' : St} (hs : addNew s i hash r rest pc = some s') :
    Inv s' := by
  have hrl : r < s.recs.length := (hi.all r).2 (Or.inr (by rw [hfree]; simp))
  have hx : s.recs[r]? = some s.recs[r] := List.getElem?_eq_getElem hrl
  unfold addNew at hs
  rw [hx] at hs
  simp only [Option.some.injEq] at hs
  subst hs
  have hnd := hi.nodup
  rw [hfree] at hnd
  have hrna : r ∉ s.active := by
    intro hra
    rw [List.nodup_append] at hnd
    exact hnd.2.2 r hra r (by simp) rfl
  have hnoref : ∀ u ∈ s.threads, u.pc.rec? ≠ some r := fun u hu hu' => hrna (hi.ref u hu r hu').1
  constructor
  · dsimp only
    have : (r :: s.active ++ rest).Perm (s.active ++ r :: rest) := List.perm_middle.symm
    exact this.nodup_iff.2 hnd
  · intro q
    simp only [List.length_set, List.mem_cons]
    rw [hi.all q, hfree, List.mem_cons]
    tauto
  · intro a b y z ha hb hy hz hyz
    simp only [List.mem_cons] at ha hb
    rcases get_set hy with ⟨e1, e2⟩ | ⟨e1, e2⟩ <;> rcases get_set hz with ⟨f1, f2⟩ | ⟨f1, f2⟩
    · omega
    · subst e2
      exact absurd hyz.symm (find_none hf (hb.resolve_left f1) f2)
    · subst f2
      exact absurd hyz (find_none hf (ha.resolve_left e1) e2)
    · exact hi.hashes a b y z (ha.resolve_left e1) (hb.resolve_left f1) e2 f2 hyz
  · intro u hu q hq
    dsimp only
    rcases mem_set_cases hu with hu' | hu'
    · obtain ⟨h1, y, hy, hyh⟩ := hi.ref u hu' q hq
      have hqr : q ≠ r := fun e => hrna (e ▸ h1)
      exact ⟨List.mem_cons_of_mem _ h1, y, by rw [get_set_ne hqr]; exact hy, hyh⟩
    · subst hu'
      rw [hpc] at hq
      have : q = r := (Option.some.inj hq).symm
      subst this
      exact ⟨by simp, _, get_set_self hx, rfl⟩
  · intro q y hy
    dsimp only at hy ⊢
    have e1 := total_set (refTo q) s.threads i t { hash := hash, pc := pc } ht
    have e2 := total_set (holds q) s.threads i t { hash := hash, pc := pc } ht
    have n1 : t.pc.rec? ≠ some q := by rw [h]; simp
    have m1 := refTo_ne n1
    have m2 := holds_ref n1
    rcases get_set hy with ⟨hqr, f2⟩ | ⟨hqr, f2⟩
    · subst hqr; subst f2
      have z1 : total (refTo q) s.threads = 0 := total_zero (fun u hu => refTo_ne (hnoref u hu))
      have z2 : total (holds q) s.threads = 0 := total_zero (fun u hu => holds_ref (hnoref u hu))
      have c2 := (hi.cnt q _ hx).2
      have w1 : refTo q { hash := hash, pc := pc } = 1 := by simp [refTo, hpc]
      have w2 : holds q { hash := hash, pc := pc } = 0 := by simp [holds, hnh]
      dsimp only
      exact ⟨fun _ => ⟨by omega, by omega⟩, by omega⟩
    · obtain ⟨c1, c2⟩ := hi.cnt q y f2
      have n2 : (Thread.mk hash pc).pc.rec? ≠ some q := by
        show pc.rec? ≠ some q
        rw [hpc]; simp; omega
      have := refTo_ne n2; have := holds_ref n2
      refine ⟨fun ha => ?_, by omega⟩
      have ha' := (List.mem_cons.1 ha).resolve_left hqr
      exact ⟨(c1 ha').1, by have := (c1 ha').2; omega⟩

theorem inv_step {s s' : St} (hi : Inv s) (a : Act) (hs : step s a = some s') : Inv s' := by
  cases a with
  | lock i hash trylock =>
    simp only [step] at hs
    split at hs
    · rename_i h0 ht
      cases hf : hashFind s hash with
      | some r =>
        rw [hf] at hs
        cases trylock
        · exact inv_addRef hi ht rfl hf rfl (by simp) hs
        · exact inv_addRef hi ht rfl hf rfl (by simp) hs
      | none =>
        rw [hf] at hs
        cases hfree : s.free with
        | cons r rest =>
          rw [hfree] at hs
          cases trylock
          · exact inv_addNew hi ht rfl hfree hf rfl (by simp) hs
          · exact inv_addNew hi ht rfl hfree hf rfl (by simp) hs
        | nil =>
          rw [hfree] at hs
          cases trylock
          · simp only [Bool.false_eq_true, if_false, Option.some.injEq] at hs
            subst hs
            have := inv_idle (t' := ⟨hash, .sleeping⟩) hi ht rfl rfl
            rw [hfree] at this
            exact this
          · simp only [if_true, Option.some.injEq] at hs
            subst hs; exact hi
    · cases hs
  | retry i =>
    simp only [step] at hs
    split at hs
    · rename_i hash ht
      cases hfree : s.free with
      | nil =>
        rw [hfree] at hs
        simp only [Option.some.injEq] at hs
        subst hs; exact hi
      | cons r rest =>
        rw [hfree] at hs
        simp only at hs
        have hsame : hashFind { recs := s.recs, active := s.active, free := rest, threads := s.threads } hash =
            hashFind s hash := rfl
        rw [hsame] at hs
        cases hf : hashFind s hash with
        | some r' => rw [hf] at hs; exact inv_addRef hi ht rfl hf rfl (by simp) hs
        | none => rw [hf] at hs; exact inv_addNew hi ht rfl hfree hf rfl (by simp) hs
    · cases hs
  | down i =>
    simp only [step] at hs
    split at hs
    · rename_i hash r ht
      obtain ⟨hr, x, hx, hxh⟩ := hi.ref _ (List.mem_of_getElem? ht) r rfl
      rw [hx] at hs
      simp only at hs
      split at hs
      · cases hs
      · rename_i hsem
        simp only [Option.some.injEq] at hs
        subst hs
        refine inv_upd (x := x) (t := ⟨hash, .wait r⟩) hi ht hr hx rfl (Or.inr rfl) (Or.inr ⟨rfl, hxh⟩)
          ((hi.cnt r x hx).1 hr).1 ?_ ?_
        · simp [refTo, Pc.rec?]
        · simp [holds]; omega
    · cases hs
  | tryDown i =>
    simp only [step] at hs
    split at hs
    · rename_i hash r ht
      obtain ⟨hr, x, hx, hxh⟩ := hi.ref _ (List.mem_of_getElem? ht) r rfl
      rw [hx] at hs
      simp only at hs
      have hsetx : s.recs.set r x = s.recs := by
        apply List.ext_getElem?
        intro q
        by_cases hq : q = r
        · subst hq; rw [get_set_self hx, hx]
        · rw [get_set_ne hq]
      split at hs
      · simp only [Option.some.injEq] at hs
        subst hs
        have := inv_upd (x' := x) (t' := ⟨hash, .tryFailed r⟩) hi ht hr hx rfl (Or.inr rfl)
          (Or.inr ⟨rfl, hxh⟩) ((hi.cnt r x hx).1 hr).1 (by simp [refTo, Pc.rec?]) (by simp [holds])
        rw [hsetx] at this
        exact this
      · rename_i hsem
        simp only [Option.some.injEq] at hs
        subst hs
        refine inv_upd (x := x) (t := ⟨hash, .tryWait r⟩) hi ht hr hx rfl (Or.inr rfl) (Or.inr ⟨rfl, hxh⟩)
          ((hi.cnt r x hx).1 hr).1 ?_ ?_
        · simp [refTo, Pc.rec?]
        · simp [holds]; omega
    · cases hs
  | afterFail i =>
    simp only [step] at hs
    split at hs
    · rename_i hash r ht
      obtain ⟨hr, x, hx, hxh⟩ := hi.ref _ (List.mem_of_getElem? ht) r rfl
      rw [hx] at hs
      simp only at hs
      have hsetx : s.recs.set r x = s.recs := by
        apply List.ext_getElem?
        intro q
        by_cases hq : q = r
        · subst hq; rw [get_set_self hx, hx]
        · rw [get_set_ne hq]
      have hpos := ((hi.cnt r x hx).1 hr).1
      split at hs
      · rename_i hne
        simp only [Option.some.injEq] at hs
        subst hs
        refine inv_upd (x := x) (t := ⟨hash, .tryFailed r⟩) hi ht hr hx rfl (Or.inr rfl) (Or.inl rfl)
          ?_ ?_ ?_
        · dsimp only; omega
        · simp [refTo, Pc.rec?]; omega
        · simp [holds]
      · simp only [Option.some.injEq] at hs
        subst hs
        have := inv_upd (x' := x) (t' := ⟨hash, .wait r⟩) hi ht hr hx rfl (Or.inr rfl)
          (Or.inr ⟨rfl, hxh⟩) hpos (by simp [refTo, Pc.rec?]) (by simp [holds])
        rw [hsetx] at this
        exact this
    · cases hs
  | unlock i =>
    simp only [step] at hs
    split at hs
    · rename_i hash r0 ht
      obtain ⟨hr0, x0, hx0, hxh0⟩ := hi.ref _ (List.mem_of_getElem? ht) r0 rfl
      cases hf : hashFind s hash with
      | none => exact absurd hxh0 (find_none hf hr0 hx0)
      | some r =>
        obtain ⟨hr, x, hx, hxh⟩ := find_some hi hf
        have : r = r0 := hi.hashes r r0 x x0 hr hr0 hx hx0 (by rw [hxh, hxh0])
        subst this
        rw [hf] at hs
        simp only [hx] at hs
        obtain ⟨c1, c2⟩ := hi.cnt r x hx
        obtain ⟨c3, c4⟩ := c1 hr
        have v1 : refTo r ⟨hash, .hold r⟩ = 1 := by simp [refTo, Pc.rec?]
        have v2 : holds r ⟨hash, .hold r⟩ = 1 := by simp [holds]
        have w1 : refTo r ⟨hash, .idle⟩ = 0 := by simp [refTo, Pc.rec?]
        have w2 : holds r ⟨hash, .idle⟩ = 0 := by simp [holds]
        have e1 := total_set (refTo r) s.threads i ⟨hash, .hold r⟩ ⟨hash, .idle⟩ ht
        have e2 := total_set (holds r) s.threads i ⟨hash, .hold r⟩ ⟨hash, .idle⟩ ht
        split at hs
        · rename_i hz
          simp only [Option.some.injEq] at hs
          subst hs
          have hnd := hi.nodup
          rw [List.nodup_append] at hnd
          obtain ⟨nd1, nd2, nd3⟩ := hnd
          have hnoref : ∀ u ∈ s.threads.set i ⟨hash, .idle⟩, u.pc.rec? ≠ some r := by
            intro u hu hu'
            obtain ⟨k, hk⟩ := List.getElem?_of_mem hu
            have := le_total (refTo r) _ k u hk
            have w : refTo r u = 1 := by simp [refTo, hu']
            omega
          constructor
          · dsimp only
            have hp : (s.active.erase r ++ r :: s.free).Perm (s.active ++ s.free) := by
              refine List.perm_middle.trans ?_
              rw [← List.cons_append]
              exact List.Perm.append_right _ (List.perm_cons_erase hr).symm
            exact hp.nodup_iff.2 hi.nodup
          · intro q
            simp only [List.length_set, List.mem_cons, nd1.mem_erase_iff]
            rw [hi.all q]
            by_cases hq : q = r
            · subst hq; simp [hr]
            · simp [hq]
          · intro a b y z ha hb hy hz' hyz
            simp only [nd1.mem_erase_iff] at ha hb
            rcases get_set hy with ⟨e1, e2⟩ | ⟨e1, e2⟩
            · exact absurd e1 ha.1
            · rcases get_set hz' with ⟨f1, f2⟩ | ⟨f1, f2⟩
              · exact absurd f1 hb.1
              · exact hi.hashes a b y z ha.2 hb.2 e2 f2 hyz
          · intro u hu q hq
            dsimp only
            have hqr : q ≠ r := fun e => hnoref u hu (e ▸ hq)
            rcases mem_set_cases hu with hu' | hu'
            · obtain ⟨h1, y, hy, hyh⟩ := hi.ref u hu' q hq
              exact ⟨nd1.mem_erase_iff.2 ⟨hqr, h1⟩, y, by rw [get_set_ne hqr]; exact hy, hyh⟩
            · subst hu'; cases hq
          · intro q y hy
            dsimp only at hy ⊢
            rcases get_set hy with ⟨hqr, f2⟩ | ⟨hqr, f2⟩
            · subst hqr; subst f2
              refine ⟨fun ha => absurd rfl (nd1.mem_erase_iff.1 ha).1, ?_⟩
              dsimp only; omega
            · obtain ⟨d1, d2⟩ := hi.cnt q y f2
              have f3 := total_set (refTo q) s.threads i ⟨hash, .hold r⟩ ⟨hash, .idle⟩ ht
              have f4 := total_set (holds q) s.threads i ⟨hash, .hold r⟩ ⟨hash, .idle⟩ ht
              have n1 : (Thread.mk hash (.hold r)).pc.rec? ≠ some q := by
                show some r ≠ some q
                simp; omega
              have n2 : (Thread.mk hash .idle).pc.rec? ≠ some q := by
                show none ≠ some q
                simp
              have := refTo_ne n1; have := refTo_ne n2; have := holds_ref n1; have := holds_ref n2
              refine ⟨fun ha => ?_, by omega⟩
              have ha' := (nd1.mem_erase_iff.1 ha).2
              exact ⟨(d1 ha').1, by have := (d1 ha').2; omega⟩
        · rename_i hz
          simp only [Option.some.injEq] at hs
          subst hs
          refine inv_upd (x := x) (t := ⟨hash, .hold r⟩) hi ht hr hx rfl (Or.inr rfl) (Or.inl rfl) ?_ ?_ ?_
          · dsimp only; omega
          · dsimp only; omega
          · dsimp only; omega
    · cases hs

theorem inv_run : ∀ (as : List Act) (s : St), Inv s → Inv (run s as)
  | [], _, hi => hi
  | a :: as, s, hi => by
    unfold run
    apply inv_run as
    cases h : step s a with
    | none => exact hi
    | some s' => exact inv_step hi a h

theorem inv_init (n k : Nat) : Inv (init n k) where
  nodup := by simp [init, List.nodup_range]
  all := by simp [init]
  hashes := by simp [init]
  ref := by
    intro t ht r hr
    simp only [init, List.mem_replicate] at ht
    rw [ht.2] at hr; cases hr
  cnt := by
    intro r x hx
    simp only [init] at hx ⊢
    have hx' : x = { hash := 0, sem := 1, refs := 0 } := List.eq_of_mem_replicate (List.mem_of_getElem? hx)
    subst hx'
    refine ⟨by simp, ?_⟩
    have : total (holds r) (List.replicate k { hash := 0, pc := Pc.idle }) = 0 :=
      total_zero (fun t ht => by rw [List.eq_of_mem_replicate ht]; rfl)
    rw [this]

theorem run_length : ∀ (as : List Act) (s : St), (run s as).recs.length = s.recs.length
  | [], _ => rfl
  | a :: as, s => by
    unfold run
    rw [run_length as]
    cases h : step s a with
    | none => rfl
    | some s' =>
      show s'.recs.length = s.recs.length
      cases a <;> simp only [step] at h <;> repeat' split at h
      all_goals first
        | (cases h; done)
        | (simp only [Option.some.injEq] at h; subst h; simp)
        | (unfold addRef at h; split at h
           · cases h
           · simp only [Option.some.injEq] at h; subst h; simp)
        | (unfold addNew at h; split at h
           · cases h
           · simp only [Option.some.injEq] at h; subst h; simp)

theorem total_two {f : Thread → Nat} : ∀ {l : List Thread} {i j : Nat} {t u : Thread}, i < j →
    l[i]? = some t → l[j]? = some u → f t + f u ≤ total f l
  | [], _, _, _, _, _, h, _ => by simp at h
  | x :: xs, 0, j + 1, t, u, _, h1, h2 => by
    simp only [List.getElem?_cons_zero, Option.some.injEq] at h1
    simp only [List.getElem?_cons_succ] at h2
    subst h1
    have := le_total f xs j u h2
    simp only [total, List.map_cons, List.sum_cons] at *
    omega
  | x :: xs, i + 1, j + 1, t, u, h, h1, h2 => by
    simp only [List.getElem?_cons_succ] at h1 h2
    have := total_two (f := f) (by omega) h1 h2
    simp only [total, List.map_cons, List.sum_cons] at *
    omega

/-- **C31.**  With any number of records and threads, in every interleaving of lock, trylock and
unlock:
 * two threads holding a lock at the same time have different names (hashes);
 * every record is on exactly one of the two lists, once;
 * a record is in use exactly while some thread holds, waits for or tries that lock;
 * if no thread is inside lock or holding a lock, all records are free, unlocked and unreferenced by
   the list;
 * a thread waiting for a record nobody holds can proceed. -/
theorem C31_filelock (n k : Nat) (as : List Act) (s : St) (hs : s = run (init n k) as) :
    (∀ (i j : Nat) (t u : Thread) (r q : Nat), s.threads[i]? = some t → s.threads[j]? = some u → t.pc = .hold r → u.pc = .hold q →
      t.hash = u.hash → i = j) ∧
    ((s.active ++ s.free).Nodup ∧ ∀ r, r < n ↔ r ∈ s.active ++ s.free) ∧
    (∀ r, r ∈ s.active ↔ ∃ t ∈ s.threads, t.pc.rec? = some r) ∧
    ((∀ t ∈ s.threads, t.pc = .idle) → s.active = [] ∧ s.free.Perm (List.range n) ∧
      ∀ x ∈ s.recs, x.sem = 1) ∧
    (∀ (i h r : Nat), s.threads[i]? = some ⟨h, .wait r⟩ → (∀ t ∈ s.threads, t.pc ≠ .hold r) →
      (step s (.down i)).isSome) := by
  have hi : Inv s := hs ▸ inv_run as _ (inv_init n k)
  have hlen : s.recs.length = n := by rw [hs, run_length]; simp [init]
  have hact : ∀ r, r ∈ s.active ↔ ∃ t ∈ s.threads, t.pc.rec? = some r := by
    intro r
    constructor
    · intro h
      obtain ⟨x, hx⟩ := mem_active_lt hi h
      obtain ⟨h1, h2⟩ := (hi.cnt r x hx).1 h
      obtain ⟨t, ht, hp⟩ := exists_of_total_pos (f := refTo r) (jobs := s.threads) (by omega)
      refine ⟨t, ht, ?_⟩
      apply Classical.byContradiction
      intro hne
      rw [refTo_ne hne] at hp; omega
    · intro ⟨t, ht, h⟩; exact (hi.ref t ht r h).1
  have hallmem : ∀ r, r < n ↔ r ∈ s.active ++ s.free := by
    intro r; rw [← hlen, hi.all r, List.mem_append]
  refine ⟨?_, ⟨hi.nodup, hallmem⟩, hact, ?_, ?_⟩
  · intro i j t u r q ht hu htp hup hh
    obtain ⟨a1, x, hx, hxh⟩ := hi.ref t (List.mem_of_getElem? ht) r (by rw [htp]; rfl)
    obtain ⟨b1, y, hy, hyh⟩ := hi.ref u (List.mem_of_getElem? hu) q (by rw [hup]; rfl)
    have hrq : r = q := hi.hashes r q x y a1 b1 hx hy (by rw [hxh, hyh, hh])
    subst hrq
    have hc := (hi.cnt r x hx).2
    have v1 : holds r t = 1 := by simp [holds, htp]
    have v2 : holds r u = 1 := by simp [holds, hup]
    rcases Nat.lt_trichotomy i j with h | h | h
    · have := total_two (f := holds r) h ht hu; omega
    · exact h
    · have := total_two (f := holds r) h hu ht; omega
  · intro hidle
    have ha : s.active = [] := by
      rw [List.eq_nil_iff_forall_not_mem]
      intro r hr
      obtain ⟨t, ht, h⟩ := (hact r).1 hr
      rw [hidle t ht] at h; cases h
    have hnd := hi.nodup
    rw [ha, List.nil_append] at hnd
    refine ⟨ha, ?_, ?_⟩
    · rw [List.perm_ext_iff_of_nodup hnd List.nodup_range]
      intro r
      rw [List.mem_range, hallmem r, ha, List.nil_append]
    · intro x hx
      obtain ⟨r, hr⟩ := List.getElem?_of_mem hx
      have hc := (hi.cnt r x hr).2
      have : total (holds r) s.threads = 0 :=
        total_zero (fun t ht => by unfold holds; rw [hidle t ht]; simp)
      omega
  · intro i h r hw hno
    obtain ⟨a1, x, hx, hxh⟩ := hi.ref _ (List.mem_of_getElem? hw) r rfl
    have hc := (hi.cnt r x hx).2
    have : total (holds r) s.threads = 0 :=
      total_zero (fun t ht => by unfold holds; rw [if_neg (hno t ht)])
    simp only [step, hw, hx]
    rw [if_neg (by omega)]
    rfl

/-- Two threads contend for one name while a third locks another with only two records; a trylock
fails, a lock waits; finally everything is free again. -/
example : (run (init 2 4) [.lock 0 7 false, .down 0, .lock 1 7 true, .tryDown 1, .lock 2 7 false, .down 2,
      .afterFail 1, .lock 3 9 false, .down 3]).threads =
    [⟨7, .hold 0⟩, ⟨7, .idle⟩, ⟨7, .wait 0⟩, ⟨9, .hold 1⟩] := by decide +kernel

example : (run (init 1 2) [.lock 0 7 false, .down 0, .lock 1 9 false, .retry 1, .unlock 0, .retry 1, .down 1]) =
    { recs := [⟨9, 0, 1⟩], active := [0], free := [], threads := [⟨7, .idle⟩, ⟨9, .hold 0⟩] } := by
  decide +kernel

end Fio.Filelock
