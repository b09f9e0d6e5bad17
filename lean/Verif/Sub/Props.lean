import Verif.Sub.Lemmas
/-!
# Properties of the text of an option (C90)
-/

namespace Fio.Sub

open Fio.Ini (Str stripEnd isSpace isCntrl back)
open Spec

/-! ## Variables and keywords -/

/-- **C90.**  The meaning of variables is defined for every text. -/
theorem C90_subst_total (env : Str → Option Str) (t : Str) : ∃ out, Subst env t out := subst_exists env _ t (Nat.le_refl _)

/-- **C90.**  Every variable is replaced by its value, every other character stays, if the text before and after has at most 8191 and 8192
characters. -/
theorem C90_variables_partial (env : Str → Option Str) (opt out : Str) (h : Subst env opt out) (h1 : opt.length ≤ 8191) (h2 : out.length ≤ 8192) :
    dupSubs env opt = some out := by
  unfold dupSubs
  rw [if_neg (by omega), subst_spec env opt out h _ _ (Nat.lt_succ_self _) h2 (fun h => by omega)]

/-- **C90.**  A longer text is refused; the result never has more than 8192 characters. -/
theorem C90_length (env : Str → Option Str) (opt : Str) : (8191 < opt.length → dupSubs env opt = none) ∧
    ∀ out, dupSubs env opt = some out → out.length ≤ 8192 := by
  unfold dupSubs
  refine ⟨fun h => by rw [if_pos (by omega)], fun out h => ?_⟩
  split at h
  · exact absurd h (by simp)
  · injection h with h
    rw [← h]
    exact subsLoop_len _ _ _ _

/-- **C90.**  Every keyword is replaced by its value wherever it stands, at once; the calculator is asked only if one was. -/
theorem C90_keywords_partial (kws : List (Str × Str)) (h : Kws kws) (bc : Bc) (opt : Str) :
    keywords kws bc opt =
      if expand kws 0 opt = opt then .text opt
      else match bcCalc bc (expand kws 0 opt) with
        | none => .dropped
        | some s => .text s := by
  have he : ∀ (k : Nat) (t : Str), t.length ≤ k → expand [] 0 t = t := by
    intro k
    induction k with
    | zero => intro t ht; have e : t = [] := List.length_eq_zero_iff.1 (by omega); subst e; simp [expand_nil]
    | succ k ih =>
      intro t ht
      cases t with
      | nil => simp [expand_nil]
      | cons c t => rw [expand_miss [] c t rfl, ih t (by simp at ht; omega)]
  obtain ⟨_, _, h3⟩ := replAll_spec kws [] (by simpa using h) opt false
  rw [he _ opt (Nat.le_refl _), List.nil_append, Bool.false_or] at h3
  unfold keywords
  rw [h3]
  by_cases hx : expand kws 0 opt = opt
  · rw [if_pos hx, hx]
    simp
  · rw [if_neg hx, decide_eq_true hx]
    rfl

/-- **C90.**  A text without signs of arithmetic, or quoted, is not given to the calculator. -/
theorem C90_no_math (bc : Bc) (s : Str) (h : ('+' ∉ s ∧ '-' ∉ s ∧ '*' ∉ s ∧ '/' ∉ s) ∨ '\'' ∈ s) : bcCalc bc s = some s := by
  unfold bcCalc
  rw [if_pos h]

/-- **C90.**  Of `name=expression` the expression is replaced by the line the calculator writes. -/
theorem C90_math (bc : Bc) (name ex out : Str) (hn : '=' ∉ name) (hq : '\'' ∉ name ++ '=' :: ex)
    (hm : '+' ∈ ex ∨ '-' ∈ ex ∨ '*' ∈ ex ∨ '/' ∈ ex) (h1 : name.length + ex.length < 127) (h2 : ex.length ≤ 100)
    (hb : bc ex = some (out ++ ['\n'])) (h3 : name.length + out.length < 127) :
    bcCalc bc (name ++ '=' :: ex) = some (name ++ '=' :: out) := by
  have ht := takeWhile_until name ex '=' hn
  unfold bcCalc
  rw [if_neg]
  · rw [if_neg (by simp)]
    simp only
    rw [if_neg]
    · rw [ht.1, ht.2]
      simp only [List.drop_succ_cons, List.drop_zero]
      rw [hb]
      cases ho : out ++ ['\n'] with
      | nil => simp at ho
      | cons a l =>
        simp only
        rw [← ho, List.take_of_length_le (by simp; omega), List.dropLast_concat]
        simp
    · rw [ht.2]
      simp
      omega
  · simp only [List.mem_append, List.mem_cons] at hq ⊢
    intro hh
    rcases hh with ⟨a, b, c, d⟩ | hh
    · rcases hm with hm | hm | hm | hm
      · exact a (Or.inr (Or.inr hm))
      · exact b (Or.inr (Or.inr hm))
      · exact c (Or.inr (Or.inr hm))
      · exact d (Or.inr (Or.inr hm))
    · exact hq hh

/-- **C90.**  Without an answer the option is dropped. -/
theorem C90_no_answer (bc : Bc) (name ex : Str) (hn : '=' ∉ name) (hq : '\'' ∉ name ++ '=' :: ex)
    (hm : '+' ∈ ex ∨ '-' ∈ ex ∨ '*' ∈ ex ∨ '/' ∈ ex) (h1 : name.length + ex.length < 127) (h2 : ex.length ≤ 100)
    (hb : bc ex = none ∨ bc ex = some []) : bcCalc bc (name ++ '=' :: ex) = none := by
  have ht := takeWhile_until name ex '=' hn
  unfold bcCalc
  rw [if_neg]
  · rw [if_neg (by simp)]
    simp only
    rw [if_neg]
    · rw [ht.2]
      simp only [List.drop_succ_cons, List.drop_zero]
      rcases hb with hb | hb <;> rw [hb]
    · rw [ht.2]
      simp
      omega
  · simp only [List.mem_append, List.mem_cons] at hq ⊢
    intro hh
    rcases hh with ⟨a, b, c, d⟩ | hh
    · rcases hm with hm | hm | hm | hm
      · exact a (Or.inr (Or.inr hm))
      · exact b (Or.inr (Or.inr hm))
      · exact c (Or.inr (Or.inr hm))
      · exact d (Or.inr (Or.inr hm))
    · exact hq hh

/-- **C90.**  Variables first, then keywords; a text too long is dropped. -/
theorem C90_text_partial (env : Str → Option Str) (kws : List (Str × Str)) (bc : Bc) (opt : Str) :
    (8191 < opt.length → subText env kws bc opt = .dropped) ∧
    ∀ out, Subst env opt out → opt.length ≤ 8191 → out.length ≤ 8192 → subText env kws bc opt = keywords kws bc out := by
  unfold subText
  exact ⟨fun h => by rw [(C90_length env opt).1 h], fun out h h1 h2 => by rw [C90_variables_partial env opt out h h1 h2]⟩

/-! ## Name and value -/

theorem cstr_until (s r : Str) (h : '\x00' ∉ s) : cstr (s ++ '\x00' :: r) = s := (takeWhile_until s r nul h).1

theorem takeWhile_all (s : Str) (x : Char) (h : x ∉ s) : s.takeWhile (· ≠ x) = s := by
  induction s with
  | nil => rfl
  | cons c s ih =>
    rw [List.takeWhile_cons_of_pos (by simpa using fun e : c = x => h (e ▸ List.mem_cons_self)), ih (fun e => h (List.mem_cons_of_mem _ e))]

theorem stripEnd_ok (s : Str) (h1 : ';' ∉ s) (h2 : '#' ∉ s) (hne : s ≠ []) (hb : ∀ c, s.getLast? = some c → 32 < c.toNat ∧ c.toNat ≠ 127) : stripEnd s = s := by
  unfold stripEnd
  simp only
  rw [takeWhile_all s ';' h1, takeWhile_all s '#' h2]
  have hl : 0 < s.length := List.length_pos_iff.2 hne
  obtain ⟨n, hn⟩ : ∃ n, s.length = n + 1 := ⟨s.length - 1, by omega⟩
  have hlast : s[n]? = s.getLast? := by rw [List.getLast?_eq_getElem?, hn]; rfl
  have : back s s.length = n := by
    rw [hn]
    unfold back
    rw [List.getElem?_eq_none (by omega)]
    simp only
    cases n with
    | zero => rfl
    | succ m =>
      unfold back
      cases hg : s[m + 1]? with
      | none => rw [List.getElem?_eq_none_iff] at hg; omega
      | some c =>
        have := hb c (by rw [← hlast, hg])
        simp only
        rw [if_neg]
        have n1 : ∀ x : Char, x.toNat ≤ 32 → c ≠ x := fun x hx e => by subst e; omega
        simp [isSpace, isCntrl, n1 ' ' (by decide), n1 '\t' (by decide), n1 '\n' (by decide), n1 '\x0b' (by decide), n1 '\x0c' (by decide), n1 '\r' (by decide)]
        omega
  rw [this, List.take_of_length_le (by omega)]

theorem cutAt_none (c : Char) (n : Nat) (m : List Char) (h : c ∉ cstr (m.take n)) : cutAt c n m = m := by
  unfold cutAt
  rw [if_neg h]

theorem set_at (a : Str) (x y : Char) (r : Str) : (a ++ x :: r).set a.length y = a ++ y :: r := by
  rw [List.set_append_right _ _ (Nat.le_refl _), Nat.sub_self]
  rfl

/-- The name and value of an option, and its memory. -/
theorem getOption_ok (o : Opt) (h : o.Ok) : (getOption (o.text ++ [nul])).2.1 = o.name ∧
    ((getOption (o.text ++ [nul])).2.2.map fun p => cstr ((getOption (o.text ++ [nul])).1.drop p)) = o.val ∧
    rejoin (getOption (o.text ++ [nul])).1 (getOption (o.text ++ [nul])).2.2 = o.text ++ [nul] := by
  obtain ⟨name, val⟩ := o
  obtain ⟨hnul, heq, hcm, hne, hb⟩ := h
  simp only at heq hcm hne hb
  cases val with
  | none =>
    simp only [Opt.text] at hnul ⊢
    unfold getOption
    simp only
    rw [show name ++ [nul] = name ++ '\x00' :: [] from rfl, cstr_until name [] hnul, if_neg heq]
    exact ⟨rfl, rfl, rfl⟩
  | some v =>
    simp only [Opt.text] at hnul ⊢
    have hn0 : '\x00' ∉ name := fun hh => hnul (by simp [hh])
    have hv0 : '\x00' ∉ v := fun hh => hnul (by simp [hh])
    have ht := takeWhile_until name v '=' heq
    have hg : getOption (name ++ '=' :: v ++ [nul]) = (name ++ nul :: (v ++ [nul]), name, some (name.length + 1)) := by
      unfold getOption
      simp only
      rw [show name ++ '=' :: v ++ [nul] = (name ++ '=' :: v) ++ '\x00' :: [] from rfl, cstr_until _ [] hnul, if_pos (by simp), ht.1, List.take_left,
        stripEnd_ok name hcm.1 hcm.2 hne hb]
      have e1 : (name ++ '=' :: v ++ ['\x00']).set name.length nul = name ++ nul :: (v ++ ['\x00']) := by
        rw [List.append_assoc, List.cons_append]; exact set_at _ _ _ _
      rw [e1, if_neg (by simpa using hne)]
      have hc1 : cstr ((name ++ nul :: (v ++ ['\x00'])).take name.length) = name := by rw [List.take_left]; exact takeWhile_all _ _ hn0
      rw [cutAt_none ';' _ _ (by rw [hc1]; exact hcm.1), cutAt_none '#' _ _ (by rw [hc1]; exact hcm.2), set_at]
      rfl
    rw [hg]
    refine ⟨rfl, ?_, ?_⟩
    · simp only [Option.map_some, Option.some.injEq]
      rw [← List.drop_drop, List.drop_left, List.drop_succ_cons, List.drop_zero]
      exact cstr_until v [] hv0
    · unfold rejoin
      simp only
      rw [show name ++ nul :: (v ++ [nul]) = name ++ '\x00' :: (v ++ [nul]) from rfl, cstr_until name _ hn0, if_neg (by simp), set_at]
      simp

/-! ## All options -/

/-- What an option asks for. -/
def callOf (e : Bool) (o : Opt) : Call := ⟨e, o.name, o.val⟩

theorem phase1_spec (t : Tables) (os : List Opt) (h : ∀ o ∈ os, o.Ok) :
    phase1 t (os.map fun o => .text o.text) =
      ((os.filter fun o => t.core o.name).map (callOf false), (os.filter fun o => t.core o.name).all (fun o => t.accept (callOf false o)),
        (os.filter fun o => !t.core o.name).map fun o => o.text ++ [nul]) := by
  induction os with
  | nil => rfl
  | cons o os ih =>
    obtain ⟨h1, h2, h3⟩ := getOption_ok o (h o List.mem_cons_self)
    rw [List.map_cons]
    unfold phase1
    rw [ih (fun x hx => h x (List.mem_cons_of_mem _ hx))]
    simp only
    rw [h1, h2, h3]
    cases hc : t.core o.name <;> simp [hc, callOf]

theorem phase2_spec (t : Tables) (eng : Str → Bool) (os : List Opt) (h : ∀ o ∈ os, o.Ok) :
    phase2 t eng (os.map fun o => o.text ++ [nul]) =
      ((os.filter fun o => eng o.name).map (callOf true), os.all (fun o => eng o.name && t.accept (callOf true o))) := by
  induction os with
  | nil => rfl
  | cons o os ih =>
    obtain ⟨h1, h2, h3⟩ := getOption_ok o (h o List.mem_cons_self)
    rw [List.map_cons]
    unfold phase2
    rw [ih (fun x hx => h x (List.mem_cons_of_mem _ hx))]
    simp only
    rw [h1, h2]
    cases hc : eng o.name <;> simp [hc, callOf]

/-- A permutation of images is the image of a permutation. -/
theorem perm_map {α β : Type} (f : α → β) (l : List α) (l' : List β) (h : l'.Perm (l.map f)) : ∃ m : List α, m.Perm l ∧ l' = m.map f := by
  generalize hg : l.map f = k at h
  induction h generalizing l with
  | nil => exact ⟨l, .refl _, hg.symm⟩
  | cons x _ ih =>
    cases l with
    | nil => cases hg
    | cons a l =>
      injection hg with g1 g2
      obtain ⟨m, hm, e⟩ := ih l g2
      exact ⟨a :: m, hm.cons a, by rw [List.map_cons, ← e, g1]⟩
  | swap x y l0 =>
    cases l with
    | nil => cases hg
    | cons a l =>
      cases l with
      | nil => injection hg with _ hg; cases hg
      | cons b l =>
        injection hg with g1 g2
        injection g2 with g2 g3
        exact ⟨b :: a :: l, .swap a b l, by rw [List.map_cons, List.map_cons, g1, g2, g3]⟩
  | trans _ _ ih1 ih2 =>
    obtain ⟨m, hm, e⟩ := ih2 l hg
    obtain ⟨m', hm', e'⟩ := ih1 m e.symm
    exact ⟨m', hm'.trans hm, e'⟩

/-- **C90.**  Each option whose name fio knows is given to fio once, in order, with its value; of the others each whose name the engine
knows is given to the engine once, with its value.  Nothing else is called. -/
theorem C90_options_partial (t : Tables) (srt : List (List Char) → List (List Char)) (hs : ∀ l, (srt l).Perm l) (os : List Opt) (h : ∀ o ∈ os, o.Ok) :
    ∃ l, (parseOpts t srt (os.map fun o => .text o.text)).1 = (os.filter fun o => t.core o.name).map (fun o => ⟨false, o.name, o.val⟩) ++ l ∧
      l.Perm ((os.filter fun o => !t.core o.name && t.eng.any fun e => e o.name).map fun o => ⟨true, o.name, o.val⟩) := by
  unfold parseOpts
  rw [phase1_spec t os h]
  simp only
  split
  · rename_i hu
    refine ⟨[], by simp [callOf], ?_⟩
    have : (os.filter fun o => !t.core o.name && t.eng.any fun e => e o.name) = [] := by
      rw [List.filter_eq_nil_iff]
      intro o ho
      rw [List.map_eq_nil_iff, List.filter_eq_nil_iff] at hu
      have := hu o ho
      simp at this
      simp [this]
    rw [this]
    exact .refl _
  · cases he : t.eng with
    | none => exact ⟨[], by simp [callOf], by simp⟩
    | some eng =>
      simp only
      obtain ⟨m, hm, e⟩ := perm_map _ _ _ (hs ((os.filter fun o => !t.core o.name).map fun o => o.text ++ [nul]))
      rw [e, phase2_spec t eng m (fun o ho => h o (List.mem_filter.1 (hm.mem_iff.1 ho)).1)]
      refine ⟨_, rfl, ?_⟩
      have := (hm.filter (fun o => eng o.name)).map (callOf true)
      rw [List.filter_filter] at this
      refine this.trans ?_
      have hf : (fun o : Opt => eng o.name && !t.core o.name) = fun o => !t.core o.name && Option.any (fun e => e o.name) (some eng) := by
        funext o; simp [Bool.and_comm]
      rw [hf]
      exact .refl _

/-- **C90.**  All is well exactly if every option is known to fio or (if it can be loaded) to the engine, and its value is accepted. -/
theorem C90_ok_partial (t : Tables) (srt : List (List Char) → List (List Char)) (hs : ∀ l, (srt l).Perm l) (os : List Opt) (h : ∀ o ∈ os, o.Ok) :
    (parseOpts t srt (os.map fun o => .text o.text)).2 = true ↔
      ∀ o ∈ os, (t.core o.name = true ∧ t.accept ⟨false, o.name, o.val⟩ = true) ∨
        (t.core o.name = false ∧ t.load = true ∧ (∃ e, t.eng = some e ∧ e o.name = true) ∧ t.accept ⟨true, o.name, o.val⟩ = true) := by
  unfold parseOpts
  rw [phase1_spec t os h]
  simp only
  split
  · rename_i hu
    rw [List.map_eq_nil_iff, List.filter_eq_nil_iff] at hu
    simp only [List.all_eq_true, List.mem_filter]
    constructor
    · intro hh o ho
      have := hu o ho
      simp at this
      exact Or.inl ⟨this, hh o ⟨ho, this⟩⟩
    · intro hh o ho
      rcases hh o ho.1 with k | k
      · exact k.2
      · rw [k.1] at ho; exact absurd ho.2 (by simp)
  · rename_i hu
    have hex : ∃ o ∈ os, t.core o.name = false := by
      apply Classical.byContradiction
      intro hno
      apply hu
      rw [List.map_eq_nil_iff, List.filter_eq_nil_iff]
      intro o ho hcc
      exact hno ⟨o, ho, by simpa using hcc⟩
    obtain ⟨o1, ho1, hc1⟩ := hex
    cases he : t.eng with
    | none =>
      simp only
      constructor
      · intro hh; exact absurd hh (by simp)
      · intro hh
        rcases hh o1 ho1 with k | k
        · rw [hc1] at k; exact absurd k.1 (by simp)
        · obtain ⟨e, k1, _⟩ := k.2.2.1; cases k1
    | some eng =>
      simp only
      obtain ⟨m, hm, e⟩ := perm_map _ _ _ (hs ((os.filter fun o => !t.core o.name).map fun o => o.text ++ [nul]))
      rw [e, phase2_spec t eng m (fun o ho => h o (List.mem_filter.1 (hm.mem_iff.1 ho)).1)]
      simp only [Bool.and_eq_true, List.all_eq_true, List.mem_filter]
      constructor
      · rintro ⟨⟨a1, a2⟩, a3⟩ o ho
        cases hc : t.core o.name with
        | true => exact Or.inl ⟨rfl, a1 o ⟨ho, hc⟩⟩
        | false =>
          have := a3 o (hm.mem_iff.2 (List.mem_filter.2 ⟨ho, by simp [hc]⟩))
          exact Or.inr ⟨rfl, a2, ⟨eng, rfl, this.1⟩, this.2⟩
      · intro hh
        refine ⟨⟨fun o ho => ?_, ?_⟩, fun o ho => ?_⟩
        · rcases hh o ho.1 with k | k
          · exact k.2
          · rw [k.1] at ho; exact absurd ho.2 (by simp)
        · rcases hh o1 ho1 with k | k
          · rw [hc1] at k; exact absurd k.1 (by simp)
          · exact k.2.1
        · have hm' := List.mem_filter.1 (hm.mem_iff.1 ho)
          rcases hh o hm'.1 with k | k
          · rw [k.1] at hm'; exact absurd hm'.2 (by simp)
          · obtain ⟨e', k1, k2⟩ := k.2.2.1
            injection k1 with k1
            rw [k1]
            exact ⟨k2, k.2.2.2⟩

/-- **C90.**  An option whose text could not be made is an error. -/
theorem C90_dropped (t : Tables) (srt : List (List Char) → List (List Char)) (a b : List Text) : (parseOpts t srt (a ++ .dropped :: b)).2 = false := by
  have h1 : (phase1 t (a ++ .dropped :: b)).2.1 = false := by
    induction a with
    | nil => rfl
    | cons x a ih =>
      rw [List.cons_append]
      unfold phase1
      split
      · rename_i hx; cases hx
      · rename_i s xs hx
        injection hx with hx1 hx2
        subst hx2
        generalize hp : phase1 t (a ++ Text.dropped :: b) = r at ih
        obtain ⟨cs, ok, un⟩ := r
        simp only at ih
        subst ih
        simp only
        split <;> simp
      · rfl
  unfold parseOpts
  generalize phase1 t (a ++ Text.dropped :: b) = r at h1
  obtain ⟨cs, ok, un⟩ := r
  simp only at h1
  subst h1
  simp only
  split
  · rfl
  · split <;> simp

end Fio.Sub
