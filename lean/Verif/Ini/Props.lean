import Verif.Ini.Lemmas
/-!
# Properties of job files (C89)
-/

namespace Fio.Ini

open Spec

/-- **C89.**  What counts of a line: nothing if it has only blanks before a comment, else what is before the comment without the white
space around it. -/
theorem C89_line (l : Str) : (isEmptyOrComment l = true ↔ empty l) ∧ (¬ empty l → stripEnd (stripFront l) = clean l) :=
  ⟨isEmpty_iff l, strip_clean l⟩

/-! ## Sections -/

theorem inner_skip (e : Env) (isBuf nested : Bool) (file : Str) (inc : Str → List Str → Nat → NRes) (pre rs : List Str) (h : ∀ x ∈ pre, empty x)
    (opts : List Str) (alloc : Nat) : inner e isBuf nested file inc (pre ++ rs) opts alloc = inner e isBuf nested file inc rs opts alloc := by
  induction pre with
  | nil => rfl
  | cons p pre ih =>
    rw [List.cons_append]
    conv => lhs; unfold inner
    rw [if_pos ((isEmpty_iff p).2 (h p List.mem_cons_self))]
    exact ih (fun x hx => h x (List.mem_cons_of_mem _ hx))

theorem firstLine_skip (pre rs : List Str) (h : ∀ x ∈ pre, empty x) : firstLine (pre ++ rs) = firstLine rs := by
  induction pre with
  | nil => rfl
  | cons p pre ih =>
    rw [List.cons_append]
    conv => lhs; unfold firstLine
    rw [if_pos (strip_empty p (h p List.mem_cons_self))]
    exact ih (fun x hx => h x (List.mem_cons_of_mem _ hx))

/-- The line is not empty after cleaning either. -/
theorem not_isEmpty_clean (r : Str) (h : ¬ empty r) : ¬ isEmptyOrComment (clean r) = true := by
  rw [isEmpty_iff]
  exact (clean_clean r h).1

theorem firstLine_kept (rs : List Str) (l : Str) (K : List Str) (h : kept rs = l :: K) :
    ∃ rest, firstLine rs = some (l, rest) ∧ kept (l :: rest) = l :: K := by
  obtain ⟨pre, r, rs', h1, h2, h3, h4, h5⟩ := kept_head rs l K h
  subst h1
  subst h4
  refine ⟨rs', ?_, ?_⟩
  · rw [firstLine_skip pre _ h2]
    unfold firstLine
    simp only [strip_clean r h3]
    rw [if_neg (not_isEmpty_clean r h3)]
  · have := clean_clean r h3
    rw [kept_cons, if_neg this.1, this.2, h5]
    rfl

theorem isPrefixOf_iff (a b : Str) : a.isPrefixOf b = true ↔ a <+: b := List.isPrefixOf_iff_prefix

theorem dirOf_eq (d b : Str) (h : '/' ∉ b) : dirOf (d ++ '/' :: b) = some (d ++ ['/']) := by
  unfold dirOf
  rw [if_pos (by simp)]
  congr 1
  rw [List.reverse_append, List.reverse_cons, List.append_assoc]
  have : (b.reverse ++ (['/'] ++ d.reverse)).dropWhile (· ≠ '/') = '/' :: d.reverse := by
    have hb : ∀ c ∈ b.reverse, c ≠ '/' := fun c hc he => h (he ▸ List.mem_reverse.1 hc)
    generalize b.reverse = m at hb
    induction m with
    | nil => simp
    | cons y m ih =>
      rw [List.cons_append, List.dropWhile_cons_of_pos (by simpa using hb y List.mem_cons_self)]
      exact ih (fun c hc => hb c (List.mem_cons_of_mem _ hc))
  rw [this]
  simp

theorem resolve_names (e : Env) (f name q : Str) (h : Names e.fs f name q) : resolve e (some f) name = some q := by
  unfold resolve
  cases h with
  | here h => rw [if_pos h]
  | beside d b h hf hb =>
    rw [if_neg (by simp [h])]
    simp only [hf, dirOf_eq d b hb]
    simp

/-- A line that is an option is added. -/
theorem inner_opt (e : Env) (isBuf nested : Bool) (file : Str) (inc : Str → List Str → Nat → NRes) (r : Str) (rs opts : List Str) (alloc : Nat)
    (h : ¬ empty r) (h1 : (clean r).head? ≠ some '[') (h2 : ¬ "include".toList <+: clean r) :
    ∃ a, inner e isBuf nested file inc (r :: rs) opts alloc = inner e isBuf nested file inc rs (opts ++ [clean r]) a := by
  refine ⟨if opts.length = alloc then alloc * 2 else alloc, ?_⟩
  obtain ⟨c, t, k1, _, _, _, _, t', k2⟩ := clean_form r h
  conv => lhs; unfold inner
  rw [if_neg (fun hh => h ((isEmpty_iff r).1 hh))]
  simp only
  rw [if_neg (by rw [k2]; rw [k1] at h1; exact h1), strip_clean r h, if_neg (fun hh => h2 ((isPrefixOf_iff _ _).1 hh))]

/-- A section begins. -/
theorem inner_sect (e : Env) (isBuf nested : Bool) (file : Str) (inc : Str → List Str → Nat → NRes) (r : Str) (rs opts : List Str) (alloc : Nat)
    (h : ¬ empty r) (h1 : (clean r).head? = some '[') :
    inner e isBuf nested file inc (r :: rs) opts alloc = if nested then .sect alloc else .next (stripFront r) rs opts alloc := by
  obtain ⟨c, t, k1, _, _, _, _, t', k2⟩ := clean_form r h
  conv => lhs; unfold inner
  rw [if_neg (fun hh => h ((isEmpty_iff r).1 hh))]
  simp only
  rw [if_pos (by rw [k2]; rw [k1] at h1; exact h1)]

/-- How the lines of a section that was read well end: at the end, or at the next section. -/
def Ends (opts : List Str) (tail rs : List Str) (i : Inner) : Prop :=
  (tail = [] ∧ ∃ a, i = .eof opts a) ∨
  (∃ l K p rest a, tail = l :: K ∧ i = .next p rest opts a ∧ kept (p :: rest) = tail ∧ rest.length < rs.length)

theorem dropWhile_twice {α : Type} (p : α → Bool) (r : List α) : (r.dropWhile p).dropWhile p = r.dropWhile p := by
  cases h : r.dropWhile p with
  | nil => rfl
  | cons c t => rw [List.dropWhile_cons_of_neg (by simp [dropWhile_head _ _ _ _ h])]

theorem clean_front (r : Str) (h : ¬ empty r) : ¬ empty (stripFront r) ∧ clean (stripFront r) = clean r := by
  obtain ⟨c, hc, hb⟩ := (not_empty_iff r).1 h
  rw [stripFront_eq]
  refine ⟨(not_empty_iff _).2 ⟨c, by rw [cut_front]; exact mem_dropWhile_white _ _ hc hb, hb⟩, ?_⟩
  unfold clean
  rw [cut_front, dropWhile_twice]

theorem inner_end (e : Env) (isBuf nested : Bool) (file : Str) (inc : Str → List Str → Nat → NRes) (rs tail opts : List Str) (alloc : Nat)
    (h : kept rs = tail) (ht : ∀ l K, tail = l :: K → l.head? = some '[' ∧ nested = false) :
    Ends opts tail rs (inner e isBuf nested file inc rs opts alloc) := by
  cases tail with
  | nil =>
    left
    refine ⟨rfl, alloc, ?_⟩
    have := inner_skip e isBuf nested file inc rs [] (kept_nil rs h) opts alloc
    rw [List.append_nil] at this
    rw [this]
    rfl
  | cons l K =>
    right
    obtain ⟨h1, h2⟩ := ht l K rfl
    obtain ⟨pre, r, rs', k1, k2, k3, k4, k5⟩ := kept_head rs l K h
    refine ⟨l, K, stripFront r, rs', alloc, rfl, ?_, ?_, ?_⟩
    · rw [k1, inner_skip _ _ _ _ _ _ _ k2, inner_sect _ _ _ _ _ _ _ _ _ k3 (by rw [k4]; exact h1), h2]
      rfl
    · have := clean_front r k3
      rw [kept_cons, if_neg this.1, this.2, k4, k5]
      rfl
    · rw [k1]; simp; omega

theorem Ends.mono {opts tail rs rs' : List Str} {i : Inner} (h : Ends opts tail rs i) (hl : rs.length ≤ rs'.length) : Ends opts tail rs' i := by
  rcases h with h | ⟨l, K, p, rest, a, h1, h2, h3, h4⟩
  · exact Or.inl h
  · exact Or.inr ⟨l, K, p, rest, a, h1, h2, h3, by omega⟩

/-- The lines of a section, with included files. -/
theorem inner_expand (e : Env) (isBuf : Bool) (fs : Str → Option Str) (hfs : (isBuf = false ∧ fs = e.fs) ∨ (fs = fun _ => none)) (d : Nat) (file : Str)
    (body out : List Str) (h : Expand fs d file body out) :
    ∀ (nf : Nat), d ≤ nf → ∀ (nested : Bool) (rs tail opts : List Str) (alloc : Nat), kept rs = body ++ tail →
      (∀ l K, tail = l :: K → l.head? = some '[' ∧ nested = false) →
      Ends (opts ++ out) tail rs (inner e isBuf nested file (incl e isBuf nf) rs opts alloc) := by
  induction h with
  | nil d f =>
    intro nf _ nested rs tail opts alloc hk ht
    rw [List.append_nil]
    exact inner_end e isBuf nested f _ rs tail opts alloc hk ht
  | opt d f l ls out h h1 hr ih =>
    intro nf hd nested rs tail opts alloc hk ht
    obtain ⟨pre, r, rs', k1, k2, k3, k4, k5⟩ := kept_head rs l (ls ++ tail) hk
    subst k4
    obtain ⟨a, ha⟩ := inner_opt e isBuf nested f (incl e isBuf nf) r rs' opts alloc k3 h1 h
    rw [k1, inner_skip _ _ _ _ _ _ _ k2, ha]
    have := ih nf hd nested rs' tail (opts ++ [clean r]) a k5 ht
    rw [List.append_assoc] at this
    exact this.mono (by simp; omega)
  | inc d f c name q t ls o1 o2 hq ht hs hne h1 h2 ih1 ih2 =>
    intro nf hd nested rs tail opts alloc hk htl
    rcases hfs with ⟨hb, rfl⟩ | rfl
    · subst hb
      obtain ⟨pre, r, rs', k1, k2, k3, k4, k5⟩ := kept_head rs _ (ls ++ tail) hk
      obtain ⟨c', t', j1, _, _, _, _, t'', j2⟩ := clean_form r k3
      obtain ⟨n, rfl⟩ : ∃ n, nf = n + 1 := ⟨nf - 1, by omega⟩
      rw [k1, inner_skip _ _ _ _ _ _ _ k2]
      have hc' : c' = 'i' := by
        rw [k4] at j1
        simp at j1
        exact j1.1.symm
      have hk1 : kept (linesOf false t) = kept (lines t) := linesOf_kept false t (fun _ => hs)
      obtain ⟨l0, K0, hK0⟩ : ∃ l K, kept (lines t) = l :: K := by
        cases hh : kept (lines t) with
        | nil => exact absurd hh hne
        | cons l K => exact ⟨l, K, rfl⟩
      obtain ⟨rest0, f1, f2⟩ := firstLine_kept (linesOf false t) l0 K0 (hk1.trans hK0)
      have hin : ∃ a, incl e false (n + 1) q opts alloc = .ret true (opts ++ o1) a := by
        have := ih1 n (by omega) true (l0 :: rest0) [] opts alloc (by rw [f2, List.append_nil, hK0]) (by simp)
        rcases this with ⟨_, a, hh⟩ | ⟨l, K, p, rest, a, hh, _⟩
        · refine ⟨a, ?_⟩
          unfold incl
          simp only [Bool.false_eq_true, if_false, ht, f1, hh]
        · cases hh
      obtain ⟨a, hin⟩ := hin
      have hstep : inner e false nested f (incl e false (n + 1)) (r :: rs') opts alloc = inner e false nested f (incl e false (n + 1)) rs' (opts ++ o1) a := by
        conv => lhs; unfold inner
        rw [if_neg (fun hh => k3 ((isEmpty_iff r).1 hh))]
        simp only
        rw [if_neg (by rw [j2, hc']; simp), strip_clean r k3, k4]
        rw [if_pos ((isPrefixOf_iff _ _).2 (List.prefix_append _ _)), if_neg (by simp)]
        have e1 : ("include".toList ++ c :: name).drop 8 = name := by simp
        have e2 : restOf false f rs' = some f := rfl
        rw [e1, e2, resolve_names e f name q hq]
        simp only [hin]
      rw [hstep]
      have := ih2 (n + 1) hd nested rs' tail (opts ++ o1) a k5 htl
      rw [List.append_assoc] at this
      exact this.mono (by simp; omega)
    · cases ht

/-! ## Files -/

theorem outer_skip_empty (e : Env) (isBuf : Bool) (file : Str) (nf : Nat) (pre rs : List Str) (h : ∀ x ∈ pre, empty x) (n : Nat)
    (hn : pre.length ≤ n) (skip wall : Bool) (defs : List Str) (alloc : Nat) :
    outer e isBuf file nf (n + 1) (pre ++ rs) skip wall defs alloc = outer e isBuf file nf (n - pre.length + 1) rs skip wall defs alloc := by
  induction pre generalizing n with
  | nil => rfl
  | cons p pre ih =>
    simp only [List.length_cons] at hn
    obtain ⟨m, rfl⟩ : ∃ m, n = m + 1 := ⟨n - 1, by omega⟩
    rw [List.cons_append]
    conv => lhs; unfold outer
    simp only
    rw [if_pos (strip_empty p (h p List.mem_cons_self)), ih (fun x hx => h x (List.mem_cons_of_mem _ hx)) m (by omega)]
    congr 1
    simp only [List.length_cons]
    omega

/-- What a file must have so that its sections are read as written. -/
structure Good (fs : Str → Option Str) (nf : Nat) (file : Str) (sections : List Str) (s : Sect) : Prop where
  len : s.name.length ≤ 254
  nl : '\n' ∉ s.name
  body : ∀ l ∈ s.body, l.head? ≠ some '['
  exp : s.wanted sections = true → Expand fs nf file s.body s.opts

theorem isGlobal_iff (s : Sect) : "global".toList.isPrefixOf s.name = s.isGlobal := by
  rw [Bool.eq_iff_iff, isPrefixOf_iff]
  unfold Sect.isGlobal
  rw [decide_eq_true_eq, List.prefix_iff_eq_take]
  constructor
  · intro h; rw [h]; simp
  · intro h; exact h.symm

theorem skip_iff (e : Env) (s : Sect) : skipSection e s.name = !(s.wanted e.sections) := by
  unfold skipSection Sect.wanted
  rw [isGlobal_iff]
  by_cases h1 : e.sections = []
  · simp [h1]
  · cases h2 : s.isGlobal with
    | true => simp [h1]
    | false => simp [h1]

theorem sectName_eq (name : Str) (h : name.length ≤ 254) (hn : '\n' ∉ name) : sectName ('[' :: name ++ [']']) = some name := by
  unfold sectName
  simp only [List.cons_append]
  have e : (name ++ [']']).takeWhile (· ≠ '\n') = name ++ [']'] := by
    have hb : ∀ c ∈ name ++ [']'], (c ≠ '\n') := by
      intro c hc
      rcases List.mem_append.1 hc with hc | hc
      · exact fun he => hn (he ▸ hc)
      · simp at hc; subst hc; decide
    generalize name ++ [']'] = m at hb
    induction m with
    | nil => rfl
    | cons y m ih => rw [List.takeWhile_cons_of_pos (by simpa using hb y List.mem_cons_self), ih (fun c hc => hb c (List.mem_cons_of_mem _ hc))]
  rw [e, List.take_of_length_le (by simp; omega), if_neg (by simp)]
  simp

theorem sectName_none (l : Str) (h : l.head? ≠ some '[') : sectName l = none := by
  unfold sectName
  split
  · simp at h
  · rfl

/-- Lines of a section that is not wanted. -/
theorem outer_unwanted (e : Env) (isBuf : Bool) (file : Str) (nf : Nat) (wall : Bool) (defs : List Str) (alloc : Nat) (tail : List Str) (body : List Str) :
    ∀ (n : Nat) (rs : List Str), kept rs = body ++ tail → (∀ l ∈ body, l.head? ≠ some '[') → rs.length ≤ n →
      ∃ m rs', outer e isBuf file nf (n + 1) rs true wall defs alloc = outer e isBuf file nf (m + 1) rs' true wall defs alloc ∧ kept rs' = tail ∧
        rs'.length ≤ m := by
  induction body with
  | nil => intro n rs h _ hl; exact ⟨n, rs, rfl, h, hl⟩
  | cons l body ih =>
    intro n rs h hb hl
    obtain ⟨pre, r, rs', k1, k2, k3, k4, k5⟩ := kept_head rs l (body ++ tail) h
    rw [k1] at hl
    simp only [List.length_append, List.length_cons] at hl
    obtain ⟨m, hm⟩ : ∃ m, n - pre.length = m + 1 := ⟨n - pre.length - 1, by omega⟩
    have hstep : outer e isBuf file nf (n + 1) rs true wall defs alloc = outer e isBuf file nf (m + 1) rs' true wall defs alloc := by
      rw [k1, outer_skip_empty e isBuf file nf pre _ k2 n (by omega), hm]
      conv => lhs; unfold outer
      simp only [strip_clean r k3, k4]
      rw [if_neg (by rw [← k4]; exact not_isEmpty_clean r k3), sectName_none l (hb l List.mem_cons_self)]
      simp
    rw [hstep]
    exact ih m rs' k5 (fun x hx => hb x (List.mem_cons_of_mem _ hx)) (by omega)

/-- What is handed on and how it ends. -/
def expected (accept : Job → Bool) (js : List Job) : Res := .ret (js.all accept) (upTo accept js)

theorem expected_cons (accept : Job → Bool) (j : Job) (js : List Job) :
    expected accept (j :: js) = if accept j then (expected accept js).cons j else .ret false [] := by
  unfold expected upTo
  cases h : accept j <;> simp [h, Res.cons]

theorem outer_sects (e : Env) (isBuf : Bool) (fs : Str → Option Str) (hfs : (isBuf = false ∧ fs = e.fs) ∨ (fs = fun _ => none)) (file : Str) (nf : Nat)
    (ss : List Sect) : (∀ s ∈ ss, Good fs nf file e.sections s) →
    ∀ (n : Nat) (rs : List Str) (skip wall : Bool) (defs : List Str) (alloc : Nat), kept rs = ss.flatMap Sect.lines → rs.length ≤ n →
      outer e isBuf file nf (n + 1) rs skip wall defs alloc = expected e.accept (jobs wall defs (ss.filter (Sect.wanted e.sections))) := by
  induction ss with
  | nil =>
    intro _ n rs skip wall defs alloc hk hl
    have := outer_skip_empty e isBuf file nf rs [] (kept_nil rs hk) n hl skip wall defs alloc
    rw [List.append_nil] at this
    rw [this]
    simp [outer, expected, jobs, upTo]
  | cons s ss ih =>
    intro hg n rs skip wall defs alloc hk hl
    have hs := hg s List.mem_cons_self
    have hrest : ∀ x ∈ ss, Good fs nf file e.sections x := fun x hx => hg x (List.mem_cons_of_mem _ hx)
    rw [List.flatMap_cons] at hk
    obtain ⟨pre, r, rs', k1, k2, k3, k4, k5⟩ := kept_head rs ('[' :: s.name ++ [']']) (s.body ++ ss.flatMap Sect.lines) hk
    rw [k1] at hl
    simp only [List.length_append, List.length_cons] at hl
    obtain ⟨m, hm⟩ : ∃ m, n - pre.length = m + 1 := ⟨n - pre.length - 1, by omega⟩
    rw [k1, outer_skip_empty e isBuf file nf pre _ k2 n (by omega), hm]
    conv => lhs; unfold outer
    simp only [strip_clean r k3, k4]
    rw [if_neg (by rw [← k4]; exact not_isEmpty_clean r k3), sectName_eq s.name hs.len hs.nl]
    simp only [skip_iff]
    cases hw : s.wanted e.sections with
    | false =>
      simp only [Bool.not_false, if_true]
      obtain ⟨m', rs'', h1, h2, h3⟩ := outer_unwanted e isBuf file nf wall defs alloc _ s.body m rs' k5 hs.body (by omega)
      rw [h1, ih hrest m' rs'' true wall defs alloc h2 h3, List.filter_cons_of_neg (by simp [hw])]
    | true =>
      simp only [Bool.not_true, Bool.false_eq_true, if_false]
      rw [List.filter_cons_of_pos hw]
      have hin := inner_expand e isBuf fs hfs nf file s.body s.opts (hs.exp hw) nf (Nat.le_refl _) false rs' (ss.flatMap Sect.lines) [] alloc k5 (by
        intro l K hlK
        cases ss with
        | nil => simp at hlK
        | cons s' ss' =>
          rw [List.flatMap_cons] at hlK
          simp only [Sect.lines, List.cons_append, List.cons.injEq] at hlK
          exact ⟨by rw [← hlK.1]; rfl, rfl⟩)
      rw [List.nil_append] at hin
      have hj : ∀ w d, jobs w d (s :: ss.filter (Sect.wanted e.sections)) =
          ⟨s.name, s.isGlobal, s.opts, !s.isGlobal && w, d⟩ :: jobs (w && !(!s.isGlobal && w)) (if s.isGlobal then d ++ s.opts else d) (ss.filter (Sect.wanted e.sections)) := by
        intro w d
        generalize ss.filter (Sect.wanted e.sections) = ss2
        rw [jobs]
        cases s.isGlobal <;> cases w <;> simp
      rw [hj, expected_cons, isGlobal_iff]
      rcases hin with ⟨h1, a, h2⟩ | ⟨l, K, p, rest, a, h1, h2, h3, h4⟩
      · rw [h2]
        simp only
        cases hacc : e.accept ⟨s.name, s.isGlobal, s.opts, !s.isGlobal && wall, defs⟩ with
        | false => simp
        | true =>
          simp only [if_true]
          rw [ih hrest m [] _ _ _ a (by rw [h1]; rfl) (Nat.zero_le _)]
      · rw [h2]
        simp only
        cases hacc : e.accept ⟨s.name, s.isGlobal, s.opts, !s.isGlobal && wall, defs⟩ with
        | false => simp
        | true =>
          simp only [if_true]
          rw [ih hrest m (p :: rest) _ _ _ a h3 (by simp only [List.length_cons]; omega)]

/-- **C89.**  A job file whose sections are well formed: each section wanted is handed on with exactly its options, in order, included
files put in their place; jobs start from the defaults set before them; after the first that is refused nothing more is handed on. -/
theorem C89_file_partial (e : Env) (nf : Nat) (wall : Bool) (file t : Str) (ss : List Sect) (ht : e.fs file = some t) (hs : short t)
    (hg : ∀ s ∈ ss, Good e.fs nf file e.sections s) (hk : kept (lines t) = ss.flatMap Sect.lines) :
    parse e false nf wall file = .ret ((jobs wall [] (ss.filter (Sect.wanted e.sections))).all e.accept)
      (upTo e.accept (jobs wall [] (ss.filter (Sect.wanted e.sections)))) := by
  unfold parse
  simp only [Bool.false_eq_true, if_false, ht]
  exact outer_sects e false e.fs (Or.inl ⟨rfl, rfl⟩) file nf ss hg _ _ _ _ _ _ ((linesOf_kept false t (fun _ => hs)).trans hk) (Nat.le_refl _)

/-- **C89.**  The same for jobs sent as text, without included files. -/
theorem C89_buffer_partial (e : Env) (nf : Nat) (wall : Bool) (t : Str) (ss : List Sect)
    (hg : ∀ s ∈ ss, Good (fun _ => none) nf t e.sections s) (hk : kept (lines t) = ss.flatMap Sect.lines) :
    parse e true nf wall t = .ret ((jobs wall [] (ss.filter (Sect.wanted e.sections))).all e.accept)
      (upTo e.accept (jobs wall [] (ss.filter (Sect.wanted e.sections)))) := by
  unfold parse
  simp only [if_true]
  exact outer_sects e true _ (Or.inr rfl) t nf ss hg _ _ _ _ _ _ ((linesOf_kept true t (fun h => by cases h)).trans hk) (Nat.le_refl _)

/-- **C89.**  An option before the first section is refused. -/
theorem C89_outside (e : Env) (nf : Nat) (wall : Bool) (file t l : Str) (K : List Str) (ht : e.fs file = some t) (hs : short t)
    (hk : kept (lines t) = l :: K) (hl : l.head? ≠ some '[') : parse e false nf wall file = .ret false [] := by
  unfold parse
  simp only [Bool.false_eq_true, if_false, ht]
  obtain ⟨pre, r, rs', k1, k2, k3, k4, k5⟩ := kept_head _ l K ((linesOf_kept false t (fun _ => hs)).trans hk)
  have hlen : pre.length ≤ (linesOf false t).length := by rw [k1]; simp
  obtain ⟨m, hm⟩ : ∃ m, (linesOf false t).length - pre.length = m + 1 := ⟨rs'.length, by rw [k1]; simp⟩
  have := outer_skip_empty e false file nf pre (r :: rs') k2 _ hlen false wall [] 8
  rw [← k1] at this
  rw [this, hm]
  unfold outer
  simp only [strip_clean r k3, k4]
  rw [if_neg (by rw [← k4]; exact not_isEmpty_clean r k3), sectName_none l hl]
  simp

/-- A missing file. -/
theorem C89_missing (e : Env) (nf : Nat) (wall : Bool) (file : Str) (ht : e.fs file = none) : parse e false nf wall file = .ret false [] := by
  simp [parse, ht]

/-- A file of the command line and its sections. -/
structure FileOk (e : Env) (nf : Nat) (f : Str) (ss : List Sect) : Prop where
  text : ∃ t, e.fs f = some t ∧ short t ∧ kept (lines t) = ss.flatMap Sect.lines
  good : ∀ s ∈ ss, Good e.fs nf f [] s

/-- **C89.**  Several files, no sections chosen: the jobs of each in order; the first job of each file but the first waits; defaults end
with their file. -/
theorem C89_files_partial (e : Env) (nf : Nat) (he : e.sections = []) (fs : List (Str × List Sect)) : ∀ (wall : Bool),
    (∀ x ∈ fs, FileOk e nf x.1 x.2) →
    (∀ x ∈ fs, ∀ w, ∀ j ∈ jobs w [] x.2, e.accept j = true) →
    parseAll e nf wall (fs.map (·.1)) = .ret true ((fs.zipIdx).flatMap fun x => jobs (wall || decide (x.2 ≠ 0)) [] x.1.2) := by
  have gen : ∀ (fs : List (Str × List Sect)) (k : Nat) (wall : Bool), (∀ x ∈ fs, FileOk e nf x.1 x.2) →
      (∀ x ∈ fs, ∀ w, ∀ j ∈ jobs w [] x.2, e.accept j = true) →
      parseAll e nf (wall || decide (k ≠ 0)) (fs.map (·.1)) = .ret true ((fs.zipIdx k).flatMap fun x => jobs (wall || decide (x.2 ≠ 0)) [] x.1.2) := by
    intro fs
    induction fs with
    | nil => intro k wall _ _; simp [parseAll]
    | cons x fs ih =>
      intro k wall h1 h2
      obtain ⟨⟨t, ht1, ht2, ht3⟩, hgood⟩ := h1 x List.mem_cons_self
      have hacc := h2 x List.mem_cons_self
      have hp := C89_file_partial e nf (wall || decide (k ≠ 0)) x.1 t x.2 ht1 ht2 (by rw [he]; exact hgood) ht3
      have hf : x.2.filter (Sect.wanted e.sections) = x.2 := by
        rw [List.filter_eq_self]
        intro s _
        simp [Sect.wanted, he]
      rw [hf] at hp
      have ha : (jobs (wall || decide (k ≠ 0)) [] x.2).all e.accept = true := by
        rw [List.all_eq_true]; exact hacc _
      have hu : upTo e.accept (jobs (wall || decide (k ≠ 0)) [] x.2) = jobs (wall || decide (k ≠ 0)) [] x.2 := by
        unfold upTo
        have := hacc (wall || decide (k ≠ 0))
        generalize jobs (wall || decide (k ≠ 0)) [] x.2 = js at this
        induction js with
        | nil => rfl
        | cons j js ihj => rw [List.takeWhile_cons_of_pos (this j List.mem_cons_self), ihj (fun y hy => this y (List.mem_cons_of_mem _ hy))]
      rw [ha, hu] at hp
      have ih' := ih (k + 1) wall (fun y hy => h1 y (List.mem_cons_of_mem _ hy)) (fun y hy => h2 y (List.mem_cons_of_mem _ hy))
      have e1 : ({ e with sections := [] } : Env) = e := by rw [← he]
      have e2 : (wall || decide (k + 1 ≠ 0)) = true := by simp
      rw [e2] at ih'
      simp only [List.map_cons, parseAll, hp, e1, ih', List.zipIdx_cons, List.flatMap_cons]
  intro wall h1 h2
  have := gen fs 0 wall h1 h2
  simpa using this

/-- **C89.**  A file that was not read well ends the reading; the files after it are not looked at. -/
theorem C89_files_stop (e : Env) (nf : Nat) (wall : Bool) (f : Str) (fs : List Str) (js : List Job) (h : parse e false nf wall f = .ret false js) :
    parseAll e nf wall (f :: fs) = .ret false js := by
  unfold parseAll
  rw [h]

/-- **C89.**  All is well only if each file is: the first with the sections chosen, the others with all. -/
theorem C89_files_all (e : Env) (nf : Nat) (fs : List Str) : ∀ (wall : Bool) (js : List Job), parseAll e nf wall fs = .ret true js →
    ∀ f ∈ fs, (∃ js', parse e false nf wall f = .ret true js') ∨ ∃ js', parse { e with sections := [] } false nf true f = .ret true js' := by
  induction fs generalizing e with
  | nil => intro _ _ _ f hf; cases hf
  | cons g fs ih =>
    intro wall js h f hf
    unfold parseAll at h
    cases hp : parse e false nf wall g with
    | crash => rw [hp] at h; exact absurd h (by simp)
    | ret ok js1 =>
      cases ok with
      | false => rw [hp] at h; exact absurd h (by simp)
      | true =>
        rw [hp] at h
        simp only at h
        rcases List.mem_cons.1 hf with hf | hf
        · subst hf; exact Or.inl ⟨js1, hp⟩
        · cases hq : parseAll { e with sections := [] } nf true fs with
          | crash => rw [hq] at h; exact absurd h (by simp)
          | ret ok2 js2 =>
            rw [hq] at h
            simp only [Res.ret.injEq] at h
            rw [h.1] at hq
            rcases ih { e with sections := [] } true js2 hq f hf with h3 | h3
            · exact Or.inr h3
            · exact Or.inr h3

end Fio.Ini
