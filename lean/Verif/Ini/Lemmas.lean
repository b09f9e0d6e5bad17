import Verif.Ini.Spec
/-!
# Lines of job files
-/

namespace Fio.Ini

open Spec

theorem char_eq (c d : Char) : c = d ↔ c.toNat = d.toNat := by
  constructor
  · rintro rfl; rfl
  · intro h; exact Char.ext (UInt32.toNat_inj.1 h)

theorem isSpace_white (c : Char) : isSpace c = white c := by
  rw [Bool.eq_iff_iff]
  simp only [isSpace, white, Bool.or_eq_true, decide_eq_true_eq, char_eq, List.mem_cons, List.not_mem_nil, or_false]
  have h1 : ' '.toNat = 32 := rfl
  have h2 : '\t'.toNat = 9 := rfl
  have h3 : '\n'.toNat = 10 := rfl
  have h4 : '\x0b'.toNat = 11 := rfl
  have h5 : '\x0c'.toNat = 12 := rfl
  have h6 : '\r'.toNat = 13 := rfl
  omega

theorem blank_iff (c : Char) : (isSpace c || isCntrl c) = blankChar c := by
  rw [isSpace_white, Bool.eq_iff_iff]
  simp only [isCntrl, white, blankChar, Bool.or_eq_true, decide_eq_true_eq, List.mem_cons, List.not_mem_nil, or_false]
  omega

theorem white_blank (c : Char) (h : white c = true) : blankChar c = true := by
  rw [← blank_iff, isSpace_white, h]; rfl

theorem isEmpty_iff (l : Str) : isEmptyOrComment l = true ↔ empty l := by
  unfold empty
  induction l with
  | nil => simp [isEmptyOrComment, cut]
  | cons c l ih =>
    have hb := blank_iff c
    unfold isEmptyOrComment
    by_cases h1 : c = ';'
    · subst h1; simp [cut, plain]
    · by_cases h2 : c = '#'
      · subst h2; simp [cut, plain]
      · rw [if_neg h1, if_neg h2]
        have e : cut (c :: l) = c :: cut l := by simp [cut, plain, h1, h2]
        rw [e]
        by_cases h3 : blankChar c = true
        · rw [if_neg, ih]
          · simp [h3]
          · rw [h3] at hb
            simp at hb ⊢
            intro h; rcases hb with hb | hb
            · simp [hb] at h
            · exact hb
        · rw [if_pos]
          · simp [h3]
          · have : blankChar c = false := by simpa using h3
            rw [this] at hb
            simp at hb ⊢
            exact hb

theorem cut_cut (l : Str) : (l.takeWhile (· ≠ ';')).takeWhile (· ≠ '#') = cut l := by
  unfold cut
  induction l with
  | nil => rfl
  | cons c l ih =>
    by_cases h1 : c = ';'
    · subst h1; simp [plain]
    · by_cases h2 : c = '#'
      · subst h2; simp [plain]
      · rw [List.takeWhile_cons_of_pos (by simpa using h1), List.takeWhile_cons_of_pos (by simpa using h2),
          List.takeWhile_cons_of_pos (by simp [plain, h1, h2]), ih]

theorem white_not (c : Char) (h : white c = true) : c ≠ ';' ∧ c ≠ '#' := by
  refine ⟨?_, ?_⟩ <;> · rintro rfl; revert h; decide

theorem cut_front (l : Str) : cut (l.dropWhile white) = (cut l).dropWhile white := by
  induction l with
  | nil => rfl
  | cons c l ih =>
    by_cases h : white c = true
    · have h2 := white_not c h
      have e : cut (c :: l) = c :: cut l := by simp [cut, plain, h2.1, h2.2]
      rw [List.dropWhile_cons_of_pos h, e, List.dropWhile_cons_of_pos h, ih]
    · rw [List.dropWhile_cons_of_neg h]
      by_cases h2 : c ≠ ';' ∧ c ≠ '#'
      · have e : cut (c :: l) = c :: cut l := by simp [cut, plain, h2.1, h2.2]
        rw [e, List.dropWhile_cons_of_neg h]
      · have e : cut (c :: l) = [] := by
          unfold cut
          rw [List.takeWhile_cons_of_neg]
          simp only [plain, ne_eq, Bool.and_eq_true, decide_eq_true_eq]; exact h2
        rw [e]; rfl

theorem back_eq (a b : Str) (x : Char) (hx : blankChar x = false) (hb : ∀ c ∈ b, blankChar c = true) :
    ∀ k, k ≤ b.length + 1 → back (a ++ x :: b) (a.length + k) = a.length := by
  intro k
  induction k with
  | zero =>
    intro _
    cases ha : a.length with
    | zero => rfl
    | succ n =>
      simp only [back]
      have e : (a ++ x :: b)[n + 1]? = some x := by
        rw [← ha, List.getElem?_append_right (Nat.le_refl _)]; simp
      rw [e]
      simp only [blank_iff, hx]
      simp
  | succ k ih =>
    intro hk
    have ih := ih (by omega)
    have e1 : a.length + (k + 1) = (a.length + k) + 1 := by omega
    rw [e1]
    simp only [back]
    have e : (a ++ x :: b)[a.length + k + 1]? = b[k]? := by
      rw [List.getElem?_append_right (by omega)]
      have : a.length + k + 1 - a.length = k + 1 := by omega
      rw [this]; simp
    rw [e]
    cases hc : b[k]? with
    | none => exact ih
    | some c =>
      simp only [blank_iff]
      rw [if_pos (hb c (List.mem_of_getElem? hc))]
      exact ih

theorem split_first (r : Str) (h : ∃ c ∈ r, blankChar c = false) :
    ∃ b x a, r = b ++ x :: a ∧ blankChar x = false ∧ (∀ c ∈ b, blankChar c = true) ∧ r.dropWhile blankChar = x :: a := by
  induction r with
  | nil => obtain ⟨c, hc, _⟩ := h; cases hc
  | cons y r ih =>
    by_cases hy : blankChar y = true
    · obtain ⟨c, hc, hcb⟩ := h
      rcases List.mem_cons.1 hc with rfl | hc
      · rw [hy] at hcb; cases hcb
      · obtain ⟨b, x, a, h1, h2, h3, h4⟩ := ih ⟨c, hc, hcb⟩
        refine ⟨y :: b, x, a, by simp [h1], h2, ?_, by rw [List.dropWhile_cons_of_pos hy, h4]⟩
        intro c hc
        rcases List.mem_cons.1 hc with rfl | hc
        · exact hy
        · exact h3 c hc
    · exact ⟨[], y, r, rfl, by simpa using hy, by simp, by rw [List.dropWhile_cons_of_neg hy]⟩

theorem stripEnd_cut (p : Str) (h : ∃ c ∈ cut p, blankChar c = false) : stripEnd p = ((cut p).reverse.dropWhile blankChar).reverse := by
  unfold stripEnd
  simp only [cut_cut]
  generalize cut p = l at h
  obtain ⟨c, hc, hcb⟩ := h
  obtain ⟨b, x, a, h1, h2, h3, h4⟩ := split_first l.reverse ⟨c, List.mem_reverse.2 hc, hcb⟩
  rw [h4]
  have hl : l = a.reverse ++ x :: b.reverse := by
    have := congrArg List.reverse h1
    simpa using this
  have hlen : l.length = a.reverse.length + (b.reverse.length + 1) := by rw [hl]; simp
  have := back_eq a.reverse b.reverse x h2 (fun c hc => h3 c (List.mem_reverse.1 hc)) (b.reverse.length + 1) (Nat.le_refl _)
  rw [← hl, ← hlen] at this
  rw [this, hl]
  rw [List.take_append, List.take_of_length_le (by omega)]
  simp

theorem not_empty_iff (l : Str) : ¬ empty l ↔ ∃ c ∈ cut l, blankChar c = false := by
  unfold empty
  constructor
  · intro h
    apply Classical.byContradiction
    intro h2
    apply h
    intro c hc
    cases hb : blankChar c with
    | true => rfl
    | false => exact absurd ⟨c, hc, hb⟩ h2
  · rintro ⟨c, hc, hb⟩ h
    rw [h c hc] at hb
    cases hb

theorem mem_dropWhile_white (l : Str) (c : Char) (h : c ∈ l) (hb : blankChar c = false) : c ∈ l.dropWhile white := by
  induction l with
  | nil => cases h
  | cons y l ih =>
    by_cases hy : white y = true
    · rw [List.dropWhile_cons_of_pos hy]
      rcases List.mem_cons.1 h with rfl | h
      · rw [white_blank _ hy] at hb; cases hb
      · exact ih h
    · rw [List.dropWhile_cons_of_neg hy]; exact h

theorem stripFront_eq (l : Str) : stripFront l = l.dropWhile white := by
  unfold stripFront
  congr 1
  funext c
  exact isSpace_white c

/-- **C89.**  What is left of a line. -/
theorem strip_clean (l : Str) (h : ¬ empty l) : stripEnd (stripFront l) = clean l := by
  obtain ⟨c, hc, hb⟩ := (not_empty_iff l).1 h
  rw [stripEnd_cut, stripFront_eq, cut_front]
  · rfl
  · rw [stripFront_eq, cut_front]
    exact ⟨c, mem_dropWhile_white _ _ hc hb, hb⟩

theorem cut_of_no (l : Str) (h : ∀ c ∈ l, c ≠ ';' ∧ c ≠ '#') : cut l = l := by
  unfold cut
  induction l with
  | nil => rfl
  | cons c l ih =>
    rw [List.takeWhile_cons_of_pos, ih (fun x hx => h x (List.mem_cons_of_mem _ hx))]
    have := h c List.mem_cons_self
    simp [plain, this.1, this.2]

theorem cut_no (l : Str) : ∀ c ∈ cut l, c ≠ ';' ∧ c ≠ '#' := by
  intro c hc
  unfold cut at hc
  induction l with
  | nil => simp at hc
  | cons y l ih =>
    by_cases hy : plain y = true
    · rw [List.takeWhile_cons_of_pos hy] at hc
      rcases List.mem_cons.1 hc with rfl | hc
      · simpa [plain] using hy
      · exact ih hc
    · rw [List.takeWhile_cons_of_neg hy] at hc; cases hc

theorem dropWhile_head {α : Type} (p : α → Bool) (l : List α) (x : α) (a : List α) (h : l.dropWhile p = x :: a) : p x = false := by
  induction l with
  | nil => simp at h
  | cons y l ih =>
    by_cases hy : p y = true
    · rw [List.dropWhile_cons_of_pos hy] at h; exact ih h
    · rw [List.dropWhile_cons_of_neg hy] at h
      injection h with h1 h2
      subst h1
      simpa using hy

/-- A line that counts: how it looks when cleaned. -/
theorem clean_form (l : Str) (h : ¬ empty l) : ∃ c r, clean l = c :: r ∧ white c = false ∧ (∃ x ∈ clean l, blankChar x = false) ∧
    (∀ x ∈ clean l, x ≠ ';' ∧ x ≠ '#') ∧ (∃ a x, clean l = a ++ [x] ∧ blankChar x = false) ∧ ∃ t, stripFront l = c :: t := by
  obtain ⟨y, hy, hyb⟩ := (not_empty_iff l).1 h
  have hm := mem_dropWhile_white _ _ hy hyb
  obtain ⟨b, x, a, h1, h2, h3, h4⟩ := split_first ((cut l).dropWhile white).reverse ⟨y, List.mem_reverse.2 hm, hyb⟩
  have hc : clean l = a.reverse ++ [x] := by unfold clean; rw [h4]; simp
  have hd : (cut l).dropWhile white = a.reverse ++ x :: b.reverse := by
    have := congrArg List.reverse h1
    simpa using this
  have hsub : ∀ z ∈ clean l, z ∈ cut l := by
    intro z hz
    rw [hc] at hz
    apply (List.dropWhile_sublist white).subset
    rw [hd]
    rcases List.mem_append.1 hz with hz | hz
    · exact List.mem_append.2 (Or.inl hz)
    · simp at hz; subst hz; simp
  have hx : x ∈ clean l := by rw [hc]; simp
  have key : ∃ c r t, clean l = c :: r ∧ (cut l).dropWhile white = c :: t := by
    rw [hc, hd]
    cases a.reverse with
    | nil => exact ⟨x, [], b.reverse, rfl, rfl⟩
    | cons z zs => exact ⟨z, zs ++ [x], zs ++ x :: b.reverse, rfl, rfl⟩
  obtain ⟨c, r, t, k1, k2⟩ := key
  refine ⟨c, r, k1, dropWhile_head _ _ _ _ k2, ⟨x, hx, h2⟩, fun z hz => cut_no l z (hsub z hz), ⟨a.reverse, x, hc, h2⟩, ?_⟩
  rw [stripFront_eq]
  rw [← cut_front] at k2
  cases hw : l.dropWhile white with
  | nil => rw [hw] at k2; simp [cut] at k2
  | cons z zs =>
    rw [hw] at k2
    unfold cut at k2
    by_cases hz : plain z = true
    · rw [List.takeWhile_cons_of_pos hz] at k2
      injection k2 with k3 k4
      exact ⟨zs, by rw [k3]⟩
    · rw [List.takeWhile_cons_of_neg hz] at k2; cases k2

/-- Cleaning again changes nothing. -/
theorem clean_clean (l : Str) (h : ¬ empty l) : ¬ empty (clean l) ∧ clean (clean l) = clean l := by
  obtain ⟨c, r, h1, h2, ⟨x, hx, hxb⟩, h4, ⟨a, y, h5, h6⟩, _⟩ := clean_form l h
  have hcut := cut_of_no _ h4
  refine ⟨(not_empty_iff _).2 ⟨x, by rw [hcut]; exact hx, hxb⟩, ?_⟩
  have e : ∀ m : Str, cut m = m → m = clean l → clean m = clean l := by
    intro m hm he
    unfold clean
    rw [hm]
    have d1 : m.dropWhile white = m := by rw [he, h1, List.dropWhile_cons_of_neg (by simp [h2])]
    rw [d1]
    have d2 : m.reverse.dropWhile blankChar = m.reverse := by
      rw [he, h5, List.reverse_append, List.reverse_singleton, List.singleton_append, List.dropWhile_cons_of_neg (by simp [h6])]
    rw [d2, List.reverse_reverse, he]
    rfl
  exact e _ hcut rfl

theorem strip_empty (l : Str) (h : empty l) : isEmptyOrComment (stripEnd (stripFront l)) = true := by
  rw [isEmpty_iff]
  intro c hc
  have hsub : ∀ c ∈ cut (stripEnd (stripFront l)), c ∈ cut l := by
    intro c hc
    have h1 := (List.takeWhile_sublist _).subset hc
    unfold stripEnd at h1
    simp only [cut_cut] at h1
    have h2 := (List.take_sublist _ _).subset h1
    rw [stripFront_eq, cut_front] at h2
    exact (List.dropWhile_sublist white).subset h2
  exact h c (hsub c hc)

/-! ## Reading lines -/

theorem lines_ne (t : Str) : ∃ l ls, lines t = l :: ls := by
  cases t with
  | nil => exact ⟨_, _, rfl⟩
  | cons c t =>
    unfold lines
    split
    · exact ⟨_, _, rfl⟩
    · split <;> exact ⟨_, _, rfl⟩

theorem strsep_lines (t : Str) : ∀ acc l ls, lines t = l :: ls → strsep acc t = (acc.reverse ++ l) :: ls := by
  induction t with
  | nil =>
    intro acc l ls h
    simp [lines] at h
    simp [strsep, h]
  | cons c t ih =>
    intro acc l ls h
    obtain ⟨l', ls', h'⟩ := lines_ne t
    simp only [lines, h'] at h
    by_cases hc : c = '\n'
    · rw [if_pos hc] at h
      injection h with h1 h2
      unfold strsep
      rw [if_pos hc, ih [] l' ls' h', ← h1, ← h2]
      simp
    · rw [if_neg hc] at h
      injection h with h1 h2
      unfold strsep
      rw [if_neg hc, ih (c :: acc) l' ls' h', ← h1, ← h2]
      simp

theorem kept_cons (l : Str) (ls : List Str) : kept (l :: ls) = (if empty l then [] else [clean l]) ++ kept ls := by
  unfold kept
  by_cases h : empty l <;> simp [h]

theorem cut_nl (l : Str) : cut (l ++ ['\n']) = cut l ∨ cut (l ++ ['\n']) = cut l ++ ['\n'] := by
  unfold cut
  induction l with
  | nil => right; decide
  | cons c l ih =>
    by_cases hc : plain c = true
    · rw [List.cons_append, List.takeWhile_cons_of_pos hc, List.takeWhile_cons_of_pos hc]
      rcases ih with ih | ih
      · left; rw [ih]
      · right; rw [ih]; rfl
    · left
      rw [List.cons_append, List.takeWhile_cons_of_neg hc, List.takeWhile_cons_of_neg hc]

theorem nl_blank : blankChar '\n' = true := by decide
theorem nl_white : white '\n' = true := by decide

theorem empty_nl (l : Str) : empty (l ++ ['\n']) ↔ empty l := by
  unfold empty
  rcases cut_nl l with h | h
  · rw [h]
  · rw [h]
    constructor
    · intro hh c hc; exact hh c (List.mem_append.2 (Or.inl hc))
    · intro hh c hc
      rcases List.mem_append.1 hc with hc | hc
      · exact hh c hc
      · simp at hc; subst hc; exact nl_blank

theorem dropWhile_append_of {α : Type} (p : α → Bool) (l m : List α) (h : ∃ x ∈ l, p x = false) : (l ++ m).dropWhile p = l.dropWhile p ++ m := by
  induction l with
  | nil => obtain ⟨x, hx, _⟩ := h; cases hx
  | cons y l ih =>
    by_cases hy : p y = true
    · rw [List.cons_append, List.dropWhile_cons_of_pos hy, List.dropWhile_cons_of_pos hy]
      obtain ⟨x, hx, hp⟩ := h
      rcases List.mem_cons.1 hx with rfl | hx
      · rw [hy] at hp; cases hp
      · exact ih ⟨x, hx, hp⟩
    · rw [List.cons_append, List.dropWhile_cons_of_neg hy, List.dropWhile_cons_of_neg hy]; rfl

theorem clean_nl (l : Str) (h : ¬ empty l) : clean (l ++ ['\n']) = clean l := by
  obtain ⟨c, hc, hb⟩ := (not_empty_iff l).1 h
  unfold clean
  rcases cut_nl l with h | h
  · rw [h]
  · rw [h, dropWhile_append_of]
    · rw [List.reverse_append, List.reverse_singleton, List.singleton_append, List.dropWhile_cons_of_pos nl_blank]
    · refine ⟨c, hc, ?_⟩
      cases hw : white c with
      | false => rfl
      | true => rw [white_blank c hw] at hb; cases hb

theorem kept_nl (l : Str) (ls : List Str) : kept ((l ++ ['\n']) :: ls) = kept (l :: ls) := by
  rw [kept_cons, kept_cons]
  by_cases h : empty l
  · rw [if_pos h, if_pos ((empty_nl l).2 h)]
  · rw [if_neg h, if_neg (fun h2 => h ((empty_nl l).1 h2)), clean_nl l h]

theorem fgets_lines (lim : Nat) (t : Str) : ∀ acc k l ls, acc.length + k = lim → lines t = l :: ls → acc.length + l.length < lim →
    (∀ x ∈ ls, x.length < lim) → kept (fgets lim acc k t) = kept ((acc.reverse ++ l) :: ls) := by
  induction t with
  | nil =>
    intro acc k l ls hk h hl hs
    simp [lines] at h
    obtain ⟨rfl, rfl⟩ := h
    cases acc with
    | nil => simp [fgets, kept, empty, cut]
    | cons a acc => simp [fgets]
  | cons c t ih =>
    intro acc k l ls hk h hl hs
    obtain ⟨l', ls', h'⟩ := lines_ne t
    simp only [lines, h'] at h
    by_cases hc : c = '\n'
    · rw [if_pos hc] at h
      injection h with h1 h2
      subst h1
      subst h2
      have e : fgets lim acc k (c :: t) = (c :: acc).reverse :: fgets lim [] lim t := by
        cases acc <;> simp [fgets, hc]
      have h3 := hs l' List.mem_cons_self
      rw [e, hc, List.reverse_cons, kept_nl, kept_cons,
        ih [] lim l' ls' (by simp) h' (by simp at hl ⊢; omega) (fun x hx => hs x (List.mem_cons_of_mem _ hx))]
      rw [List.append_nil, kept_cons (acc.reverse)]
      rfl
    · rw [if_neg hc] at h
      injection h with h1 h2
      subst h1
      subst h2
      simp only [List.length_cons] at hl
      have e : fgets lim acc k (c :: t) = fgets lim (c :: acc) (k - 1) t := by
        have : ¬ k ≤ 1 := by omega
        cases acc <;> simp [fgets, hc, this]
      rw [e, ih (c :: acc) (k - 1) l' ls' (by simp; omega) h' (by simp; omega) hs]
      simp

theorem linesOf_kept (isBuf : Bool) (t : Str) (h : isBuf = false → short t) : kept (linesOf isBuf t) = kept (lines t) := by
  obtain ⟨l, ls, hl⟩ := lines_ne t
  unfold linesOf
  cases isBuf with
  | true => rw [if_pos rfl, strsep_lines t [] l ls hl, hl]; rfl
  | false =>
    have h := h rfl
    unfold short at h
    rw [hl] at h
    have h1 := h l List.mem_cons_self
    rw [if_neg (by simp), fgets_lines 8191 t [] 8191 l ls (by simp) hl (by simpa using h1) (fun x hx => h x (List.mem_cons_of_mem _ hx)), hl]
    rfl

/-- The first line that counts. -/
theorem kept_head (rs : List Str) (l : Str) (K : List Str) (h : kept rs = l :: K) :
    ∃ pre r rs', rs = pre ++ r :: rs' ∧ (∀ x ∈ pre, empty x) ∧ ¬ empty r ∧ clean r = l ∧ kept rs' = K := by
  induction rs with
  | nil => simp [kept] at h
  | cons r rs ih =>
    rw [kept_cons] at h
    by_cases he : empty r
    · rw [if_pos he] at h
      obtain ⟨pre, r', rs', h1, h2, h3, h4, h5⟩ := ih h
      refine ⟨r :: pre, r', rs', by rw [h1]; rfl, ?_, h3, h4, h5⟩
      intro x hx
      rcases List.mem_cons.1 hx with rfl | hx
      · exact he
      · exact h2 x hx
    · rw [if_neg he] at h
      injection h with h1 h2
      exact ⟨[], r, rs, rfl, by simp, he, h1, h2⟩

theorem kept_nil (rs : List Str) (h : kept rs = []) : ∀ x ∈ rs, empty x := by
  intro x hx
  by_cases he : empty x
  · exact he
  · exfalso
    have : clean x ∈ kept rs := by
      unfold kept
      exact List.mem_map.2 ⟨x, List.mem_filter.2 ⟨hx, by simp [he]⟩, rfl⟩
    rw [h] at this
    cases this

end Fio.Ini
