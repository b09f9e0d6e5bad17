import Verif.Dp.Spec
/-!
# Properties of data placement (C87)
-/

namespace Fio.Dp

open Spec

/-! ## The option -/

theorem addRange_ok (k s e : Nat) (ids : List Nat) (h1 : ids.length + (e + 1 - s) ≤ 128) (h2 : s ≤ e → e ≤ 0xFFFF)
    (hk : k > e + 1 - s) : addRange k s e ids = (true, ids ++ List.range' s (e + 1 - s)) := by
  induction k generalizing s ids with
  | zero => omega
  | succ k ih =>
    unfold addRange
    by_cases h : s ≤ e
    · rw [if_pos h, if_neg (by omega), if_neg (by have := h2 h; omega)]
      rw [ih (s + 1) (ids ++ [s]) (by simp; omega) (fun _ => h2 h) (by omega)]
      have : e + 1 - s = (e + 1 - (s + 1)) + 1 := by omega
      rw [this, List.range'_succ]
      simp
    · rw [if_neg h]
      have : e + 1 - s = 0 := by omega
      simp [this]

theorem addRange_bad (k s e : Nat) (ids : List Nat) (hse : s ≤ e) (h : ids.length + (e + 1 - s) > 128 ∨ e > 0xFFFF)
    (hl : ids.length ≤ 128) (hk : k + ids.length ≥ 130) : (addRange k s e ids).1 = false := by
  induction k generalizing s ids with
  | zero => omega
  | succ k ih =>
    unfold addRange
    rw [if_pos hse]
    split
    · rfl
    · split
      · rfl
      · by_cases h' : s + 1 ≤ e
        · apply ih (s + 1) (ids ++ [s]) h'
          · simp; omega
          · simp; omega
          · simp; omega
        · omega

theorem named_cons (p : Nat × Option Nat) (items : List (Nat × Option Nat)) :
    named (p :: items) = List.range' p.1 (p.2.getD p.1 + 1 - p.1) ++ named items := rfl

theorem parseIds_spec (items : List (Nat × Option Nat)) (ids : List Nat) (hl : ids.length ≤ 128) :
    (((∀ p ∈ items, p.1 ≤ p.2.getD p.1) ∧ (∀ i ∈ named items, i ≤ 0xFFFF) ∧ ids.length + (named items).length ≤ 128) →
      parseIds items ids = (true, ids ++ named items)) ∧
    (¬ ((∀ p ∈ items, p.1 ≤ p.2.getD p.1) ∧ (∀ i ∈ named items, i ≤ 0xFFFF) ∧ ids.length + (named items).length ≤ 128) →
      (parseIds items ids).1 = false) := by
  induction items generalizing ids with
  | nil =>
    refine ⟨fun _ => by simp [parseIds, named], fun h => ?_⟩
    exact absurd ⟨by simp, by simp [named], by simpa [named] using hl⟩ h
  | cons p items ih =>
    obtain ⟨s, e⟩ := p
    simp only [named_cons, List.mem_cons, forall_eq_or_imp, List.mem_append, List.length_append, List.length_range']
    generalize he : e.getD s = en
    constructor
    · rintro ⟨⟨h1, h2⟩, h3, h4⟩
      unfold parseIds
      simp only [he]
      rw [if_neg (by omega), addRange_ok 130 s en ids (by omega) (fun _ => ?_) (by omega)]
      · have := (ih (ids ++ List.range' s (en + 1 - s)) (by simp; omega)).1
          ⟨h2, fun i hi => h3 i (Or.inr hi), by simp; omega⟩
        simp only [this, List.append_assoc]
      · exact h3 en (Or.inl (by rw [List.mem_range'_1]; omega))
    · intro h
      unfold parseIds
      simp only [he]
      by_cases hse : s > en
      · rw [if_pos hse]
      · rw [if_neg hse]
        by_cases hr : ids.length + (en + 1 - s) > 128 ∨ en > 0xFFFF
        · have := addRange_bad 130 s en ids (by omega) hr hl (by omega)
          generalize addRange 130 s en ids = z at this
          obtain ⟨a, b⟩ := z
          simp only at this
          subst this
          rfl
        · rw [addRange_ok 130 s en ids (by omega) (fun _ => by omega) (by omega)]
          simp only
          apply (ih (ids ++ List.range' s (en + 1 - s)) (by simp; omega)).2
          rintro ⟨h1, h2, h3⟩
          apply h
          refine ⟨⟨by omega, h1⟩, ?_, by simp at h3; omega⟩
          rintro i (hi | hi)
          · rw [List.mem_range'_1] at hi
            omega
          · exact h2 i hi

/-- **C87.**  The option is taken exactly if it can be used, and gives the ids it names, in order of size. -/
theorem C87_option (items : List (Nat × Option Nat)) :
    (usable items → ∃ l, optIds items = some l ∧ l.Perm (named items) ∧ l.Pairwise (· ≤ ·)) ∧
    (¬ usable items → optIds items = none) := by
  have := parseIds_spec items [] (by simp)
  simp only [List.length_nil, Nat.zero_add, List.nil_append] at this
  constructor
  · intro h
    unfold optIds
    rw [this.1 h]
    refine ⟨_, rfl, List.mergeSort_perm _ _, ?_⟩
    have hp := List.pairwise_mergeSort (le := fun a b => decide (a ≤ b)) (by simp; omega) (by simp; omega) (named items)
    simpa using hp
  · intro h
    have h2 := this.2 h
    unfold optIds
    generalize parseIds items [] = z at h2
    obtain ⟨a, b⟩ := z
    simp only at h2
    subst h2
    rfl

/-! ## Starting -/

theorem readAll_ok (l is : List Nat) (h : ∀ i ∈ is, i < l.length) :
    ∃ vs, readAll l is = some vs ∧ vs.length = is.length ∧ ∀ k (hk : k < is.length), vs[k]? = l[is[k]]? := by
  induction is with
  | nil => exact ⟨[], rfl, rfl, fun k hk => absurd hk (by simp)⟩
  | cons i is ih =>
    obtain ⟨vs, h1, h2, h3⟩ := ih (fun j hj => h j (List.mem_cons_of_mem _ hj))
    have hi : i < l.length := h i (by simp)
    refine ⟨l[i] :: vs, ?_, by simp [h2], ?_⟩
    · simp [readAll, h1, List.getElem?_eq_getElem hi]
    · intro k hk
      cases k with
      | zero => simp [List.getElem?_eq_getElem hi]
      | succ k => simpa using h3 k (by simpa using hk)

/-- **C87.**  Streams: the ids are those of the option, and there must be some. -/
theorem C87_streams (ids : List Nat) (a1 a2 : Option Ans) :
    initInfo .streams ids a1 a2 = if ids = [] then .err else .ok ⟨ids.length, 0, ids⟩ := rfl

/-- The device answers twice the same and completely. -/
def steady (a1 a2 : Ans) : Prop := a2.num = a1.num ∧ a2.pids.length = a2.num

theorem fetched_get (a : Ans) (k i : Nat) (hi : i < k) : (fetched a k)[i]? = some (a.pids.getD i 0) := by
  unfold fetched
  rw [List.getElem?_map, List.getElem?_range hi]
  rfl

/-- **C87.**  Without ids in the option, those of the device are used, at most 128. -/
theorem C87_device (a1 a2 : Ans) (h : steady a1 a2) :
    initInfo .fdp [] (some a1) (some a2) = .ok ⟨min 128 a2.num, 0, a2.pids.take 128⟩ := by
  obtain ⟨h1, h2⟩ := h
  have hnr : (if a2.num > 128 then 128 else a2.num) = min 128 a2.num := by
    split <;> omega
  have hlen : (fetched a2 a1.num).length = a1.num := by simp [fetched]
  obtain ⟨vs, h3, h4, h5⟩ := readAll_ok (fetched a2 a1.num) (List.range (min 128 a2.num)) (by
    intro i hi
    rw [List.mem_range] at hi
    omega)
  have hv : vs = a2.pids.take 128 := by
    apply List.ext_getElem?
    intro k
    by_cases hk : k < min 128 a2.num
    · rw [h5 k (by simpa using hk), List.getElem_range, fetched_get _ _ _ (by omega), List.getElem?_take_of_lt (by omega)]
      rw [List.getD_eq_getElem?_getD, List.getElem?_eq_getElem (by omega)]
      rfl
    · rw [List.getElem?_eq_none (by rw [h4]; simpa using hk), List.getElem?_eq_none (by simp; omega)]
  simp only [initInfo, if_true]
  rw [hnr, h3, hv]

/-- **C87.**  With ids in the option, they number the ids of the device: an id that it does not have is an error, otherwise the id with
number `ids[k]` is the `k`-th. -/
theorem C87_indexed (ids : List Nat) (a1 a2 : Ans) (h : steady a1 a2) (hne : ids ≠ []) :
    ((∃ i ∈ ids, a2.num ≤ i) → initInfo .fdp ids (some a1) (some a2) = .err) ∧
    ((∀ i ∈ ids, i < a2.num) → ∃ l, initInfo .fdp ids (some a1) (some a2) = .ok ⟨ids.length, 0, l⟩ ∧ l.length = ids.length ∧
      ∀ k (hk : k < ids.length), l[k]? = a2.pids[ids[k]]?) := by
  obtain ⟨h1, h2⟩ := h
  have hlen : (fetched a2 a1.num).length = a1.num := by simp [fetched]
  constructor
  · rintro ⟨i, hi, hge⟩
    have : ids.any (fun i => decide (i ≥ a2.num)) = true := by
      rw [List.any_eq_true]
      exact ⟨i, hi, by simpa using hge⟩
    simp [initInfo, hne, this]
  · intro hlt
    obtain ⟨vs, h3, h4, h5⟩ := readAll_ok (fetched a2 a1.num) ids (fun i hi => by have := hlt i hi; omega)
    refine ⟨vs, ?_, h4, ?_⟩
    · have : ids.any (fun i => decide (i ≥ a2.num)) = false := by
        rw [List.any_eq_false]
        intro i hi
        have := hlt i hi
        simpa using this
      simp [initInfo, hne, this, h3]
    · intro k hk
      have hik := hlt ids[k] (List.getElem_mem hk)
      rw [h5 k hk, fetched_get _ _ _ (by omega), List.getD_eq_getElem?_getD, List.getElem?_eq_getElem (by omega)]
      rfl

/-- **C87.**  Every way of starting that does not fail leaves as many ids as it says, and the position at the first one. -/
theorem C87_started (ty : Ty) (ids : List Nat) (a1 a2 : Option Ans) (i : Info) (h : initInfo ty ids a1 a2 = .ok i) :
    i.nr = i.plis.length ∧ i.loc = 0 := by
  have key : ∀ (l is vs : List Nat), readAll l is = some vs → vs.length = is.length := by
    intro l is
    induction is with
    | nil => intro vs h; simp [readAll] at h; subst h; rfl
    | cons j is ih =>
      intro vs h
      unfold readAll at h
      split at h
      · rename_i v vs' h1 h2
        simp at h
        subst h
        simp [ih _ h2]
      · simp at h
  unfold initInfo at h
  split at h
  · split at h
    · simp at h
    · simp only [Res.ok.injEq] at h
      subst h
      exact ⟨rfl, rfl⟩
  · split at h
    · dsimp only at h
      split at h
      · split at h
        · rename_i hr
          simp only [Res.ok.injEq] at h
          subst h
          exact ⟨by rw [key _ _ _ hr]; simp, rfl⟩
        · simp at h
      · split at h
        · simp at h
        · split at h
          · rename_i hr
            simp only [Res.ok.injEq] at h
            subst h
            exact ⟨(key _ _ _ hr).symm, rfl⟩
          · simp at h
    · simp at h

/-! ## Units -/

/-- **C87.**  A unit that is not a write, or on a file without ids, carries no directive. -/
theorem C87_others (ty : Ty) (sel : Sel) (f : File) (dir : Dir) (off draw : Nat) (h : f.info = none ∨ dir ≠ .write) :
    fill ty sel f dir off draw = some (f, ⟨0, 0⟩) := by
  unfold fill
  split
  · rfl
  · rcases h with h | h
    · simp_all
    · rw [if_pos h]

/-- **C87.**  By a scheme: the first entry that contains the offset decides, or 0. -/
theorem C87_scheme (ty : Ty) (f : File) (i : Info) (off draw : Nat) (hi : f.info = some i) :
    ∃ p, fill ty .scheme f .write off draw = some (f, ⟨dtypeOf ty, p⟩) ∧ Decides f.scheme off p := by
  refine ⟨scan f.scheme off, by simp [fill, hi], ?_⟩
  generalize f.scheme = es
  induction es with
  | nil => exact Or.inr ⟨by simp, rfl⟩
  | cons e es ih =>
    unfold scan
    split
    · rename_i h
      exact Or.inl ⟨0, by simp, h.1, h.2, rfl, fun j hj => absurd hj (by omega)⟩
    · rename_i h
      rcases ih with ⟨k, hk, h1, h2, h3, h4⟩ | ⟨h1, h2⟩
      · refine Or.inl ⟨k + 1, by simpa using hk, h1, h2, h3, ?_⟩
        intro j hj
        cases j with
        | zero => exact fun hh => h ⟨hh.1, hh.2⟩
        | succ j => exact h4 j (by omega)
      · refine Or.inr ⟨?_, h2⟩
        intro x hx
        rcases List.mem_cons.1 hx with hx | hx
        · subst hx
          exact fun hh => h ⟨hh.1, hh.2⟩
        · exact h1 x hx

/-- **C87.**  Random: with a draw in range the id is the one drawn. -/
theorem C87_random (ty : Ty) (f : File) (i : Info) (off draw : Nat) (hi : f.info = some i) (hn : i.nr = i.plis.length)
    (hd : draw < i.nr) :
    ∃ f' p, fill ty .random f .write off draw = some (f', ⟨dtypeOf ty, p⟩) ∧ i.plis[draw]? = some p ∧
      ∃ i', f'.info = some i' ∧ i'.nr = i.nr ∧ i'.plis = i.plis := by
  rw [hn] at hd
  refine ⟨_, i.plis[draw], by simp [fill, hi, List.getElem?_eq_getElem hd]; rfl, List.getElem?_eq_getElem hd, ?_⟩
  exact ⟨{ i with loc := draw }, rfl, rfl, rfl⟩

/-- Where turn about is after `w` writes. -/
def Turn (f : File) (plis : List Nat) (w : Nat) : Prop :=
  ∃ i, f.info = some i ∧ i.nr = plis.length ∧ i.plis = plis ∧ i.loc ≤ i.nr ∧ i.loc % plis.length = w % plis.length

theorem turn_write (ty : Ty) (f : File) (plis : List Nat) (w off draw : Nat) (hpos : 0 < plis.length) (h : Turn f plis w) :
    ∃ f' p, fill ty .rr f .write off draw = some (f', ⟨dtypeOf ty, p⟩) ∧ plis[w % plis.length]? = some p ∧ Turn f' plis (w + 1) := by
  obtain ⟨i, h1, h2, h3, h4, h5⟩ := h
  have hloc : (if i.loc ≥ i.nr then 0 else i.loc) = w % plis.length := by
    split
    · have : i.loc = plis.length := by omega
      rw [this, Nat.mod_self] at h5
      exact h5
    · rw [← h5, Nat.mod_eq_of_lt (by omega)]
  have hlt : w % plis.length < plis.length := Nat.mod_lt _ hpos
  refine ⟨{ f with info := some { i with loc := w % plis.length + 1 } }, plis[w % plis.length], ?_, List.getElem?_eq_getElem hlt, ?_⟩
  · simp only [fill, h1, hloc, h3, List.getElem?_eq_getElem hlt]
    simp
  · refine ⟨_, rfl, h2, h3, ?_, ?_⟩
    · simp only; omega
    · simp only
      rw [Nat.mod_add_mod]

/-- **C87.**  Turn about: from the start, nothing fails, and each write gets the id whose turn it is, counting the writes of that file
before it; other units take no turn. -/
theorem C87_rr (ty : Ty) (f : File) (i : Info) (us : List Unit_) (hi : f.info = some i) (hn : i.nr = i.plis.length) (hl : i.loc = 0)
    (hpos : 0 < i.nr) :
    ∃ f' os, fills ty .rr f us = some (f', os) ∧ os.length = us.length ∧
      ∀ k (hk : k < us.length), us[k].dir = .write → ∃ p, rrAt i.plis us k = some p ∧ os[k]? = some ⟨dtypeOf ty, p⟩ := by
  have key : ∀ (us : List Unit_) (f : File) (w : Nat), Turn f i.plis w →
      ∃ f' os, fills ty .rr f us = some (f', os) ∧ os.length = us.length ∧
        ∀ k (hk : k < us.length), us[k].dir = .write →
          ∃ p, i.plis[(w + ((us.take k).filter (fun u => u.dir = .write)).length) % i.plis.length]? = some p ∧
            os[k]? = some ⟨dtypeOf ty, p⟩ := by
    intro us
    induction us with
    | nil => intro f w _; exact ⟨f, [], rfl, rfl, fun k hk => absurd hk (by simp)⟩
    | cons u us ih =>
      intro f w ht
      by_cases hd : u.dir = .write
      · obtain ⟨f1, p, h1, h2, h3⟩ := turn_write ty f i.plis w u.off u.draw (by omega) ht
        obtain ⟨f2, os, h4, h5, h6⟩ := ih f1 (w + 1) h3
        refine ⟨f2, ⟨dtypeOf ty, p⟩ :: os, by simp [fills, hd, h1, h4], by simp [h5], ?_⟩
        intro k hk hw
        cases k with
        | zero => exact ⟨p, by simpa using h2, rfl⟩
        | succ k =>
          obtain ⟨q, h7, h8⟩ := h6 k (by simpa using hk) (by simpa using hw)
          refine ⟨q, ?_, by simpa using h8⟩
          rw [← h7]
          simp only [List.take_succ_cons, List.filter_cons, hd, decide_true, if_true, List.length_cons]
          congr 2
          omega
      · have h1 := C87_others ty .rr f u.dir u.off u.draw (Or.inr hd)
        obtain ⟨f2, os, h4, h5, h6⟩ := ih f w ht
        refine ⟨f2, ⟨0, 0⟩ :: os, by simp [fills, h1, h4], by simp [h5], ?_⟩
        intro k hk hw
        cases k with
        | zero => exact absurd (by simpa using hw) hd
        | succ k =>
          obtain ⟨q, h7, h8⟩ := h6 k (by simpa using hk) (by simpa using hw)
          refine ⟨q, ?_, by simpa using h8⟩
          rw [← h7]
          simp [List.take_succ_cons, hd]
  obtain ⟨f', os, h1, h2, h3⟩ := key us f 0 ⟨i, hi, hn, rfl, by omega, by rw [hl]⟩
  refine ⟨f', os, h1, h2, ?_⟩
  intro k hk hw
  obtain ⟨p, h4, h5⟩ := h3 k hk hw
  refine ⟨p, ?_, h5⟩
  unfold rrAt
  rw [Nat.zero_add] at h4
  exact h4

end Fio.Dp
