import Verif.Json.Lemmas

/-!
# C45: the JSON output can be read back

`den` says which JSON value a tree stands for: strings are the strings that were added, an integer is itself, a double
is what `%f` shows of it.  What is printed parses, by the grammar of RFC 8259, to exactly that value, provided no
string holds a control character, no name holds a control character, a quote or a backslash, and every double is
finite.  Each proviso is needed: see the counterexamples.
-/

namespace Fio.Json
open Spec

mutual
/-- The JSON value a tree stands for. -/
def den : Val → J
  | .str s => .str s
  | .int i => .num i 0
  | .flt (.fin neg m) => .num (if neg then -(m : Int) else m) 6
  | .flt _ => .null
  | .obj ps => .obj (denPairs ps)
  | .arr vs => .arr (denVals vs)

/-- The members of an object, in order. -/
def denPairs : Pairs → List (Str × J)
  | .nil => []
  | .cons name v ps => (name, den v) :: denPairs ps

/-- The elements of an array, in order. -/
def denVals : Vals → List J
  | .nil => []
  | .cons v vs => den v :: denVals vs
end

mutual
/-- Strings without control characters, names that need no escapes, finite doubles. -/
def Ok : Val → Prop
  | .str s => NoCtrl s
  | .int _ => True
  | .flt (.fin _ _) => True
  | .flt _ => False
  | .obj ps => OkPairs ps
  | .arr vs => OkVals vs

/-- `Ok` for all members. -/
def OkPairs : Pairs → Prop
  | .nil => True
  | .cons name v ps => Plain name ∧ Ok v ∧ OkPairs ps

/-- `Ok` for all elements. -/
def OkVals : Vals → Prop
  | .nil => True
  | .cons v vs => Ok v ∧ OkVals vs
end

/-! ## Printing never fails -/

mutual
theorem printVal_some : ∀ (v : Val) (lvl : Nat), ∃ t, printVal lvl v = some t
  | .str s, lvl => ⟨_, by rw [printVal, strdupEscape_eq]; rfl⟩
  | .int i, lvl => ⟨_, by rw [printVal]⟩
  | .flt f, lvl => ⟨_, by rw [printVal]⟩
  | .obj ps, lvl => by
    obtain ⟨t, ht⟩ := printPairs_some ps (lvl + 1) true
    exact ⟨_, by rw [printVal, ht]; rfl⟩
  | .arr vs, lvl => by
    obtain ⟨t, ht⟩ := printVals_some vs (lvl + 1) true
    exact ⟨_, by rw [printVal, ht]; rfl⟩

theorem printPairs_some : ∀ (ps : Pairs) (lvl : Nat) (first : Bool), ∃ t, printPairs lvl first ps = some t
  | .nil, lvl, first => ⟨_, by rw [printPairs]⟩
  | .cons name v ps, lvl, first => by
    obtain ⟨t, ht⟩ := printVal_some v lvl
    obtain ⟨u, hu⟩ := printPairs_some ps lvl false
    exact ⟨_, by rw [printPairs, ht, hu]; rfl⟩

theorem printVals_some : ∀ (vs : Vals) (lvl : Nat) (first : Bool), ∃ t, printVals lvl first vs = some t
  | .nil, lvl, first => ⟨_, by rw [printVals]⟩
  | .cons v vs, lvl, first => by
    obtain ⟨t, ht⟩ := printVal_some v lvl
    obtain ⟨u, hu⟩ := printVals_some vs lvl false
    exact ⟨_, by rw [printVals, ht, hu]; rfl⟩
end

/-! ## The parser, step by step -/

theorem pval_num {c : Char} {u : Str} (h : c = '-' ∨ (digit c).isSome) (n : Nat) :
    pval (n + 1) (c :: u) = pnum (c :: u) := by
  have hc : c ∈ ['-', '0', '1', '2', '3', '4', '5', '6', '7', '8', '9'] := by
    rcases h with rfl | h
    · decide
    · exact List.mem_cons_of_mem _ (digit_cases h)
  simp only [List.mem_cons, List.not_mem_nil, or_false] at hc
  rcases hc with h | h | h | h | h | h | h | h | h | h | h <;> subst h <;>
    (simp only [pval]; rw [skip_cons _ (by decide)]; simp)

theorem numEnd_nl (r : Str) : NumEnd ('\n' :: r) := by
  intro c u h
  simp only [List.cons.injEq] at h
  rw [← h.1]
  decide

theorem numEnd_comma (r : Str) : NumEnd (',' :: r) := by
  intro c u h
  simp only [List.cons.injEq] at h
  rw [← h.1]
  decide

theorem numEnd_nil : NumEnd [] := by
  intro c u h
  simp at h

theorem pval_sp (n : Nat) (s : Str) : pval n (' ' :: s) = pval n s := by
  cases n with
  | zero => simp [pval]
  | succ n => simp only [pval, skip_sp]

theorem pval_nl (n : Nat) (s : Str) : pval n ('\n' :: s) = pval n s := by
  cases n with
  | zero => simp [pval]
  | succ n => simp only [pval, skip_nl]

theorem pval_indent (n k : Nat) (s : Str) : pval n (indent k ++ s) = pval n s := by
  cases n with
  | zero => simp [pval]
  | succ n => simp only [pval, skip_indent]

theorem pelem_indent (n k : Nat) (s : Str) : pelem n (indent k ++ s) = pelem n s := by
  cases n with
  | zero => simp [pelem]
  | succ n => simp only [pelem, pval_indent]

theorem intText_eq (i : Int) : intText i = (if decide (i < 0) then ['-'] else []) ++ natText i.natAbs := by
  unfold intText
  by_cases h : i < 0 <;> simp [h]

theorem sign_natText_head (neg : Bool) (n : Nat) (r : Str) : ∃ c u,
    (if neg then ['-'] else []) ++ (natText n ++ r) = c :: u ∧ (c = '-' ∨ (digit c).isSome) := by
  cases neg
  · obtain ⟨c, s, hc, hd⟩ := natText_cons n
    exact ⟨c, s ++ r, by simp [hc], Or.inr hd⟩
  · exact ⟨'-', natText n ++ r, rfl, Or.inl rfl⟩

/-- The text of a value starts with neither white space nor a closing bracket. -/
theorem printVal_head (v : Val) (hv : Ok v) (lvl : Nat) (t : Str) (h : printVal lvl v = some t) :
    ∃ c u, t = c :: u ∧ isWs c = false ∧ c ≠ ']' := by
  have hnum : ∀ c : Char, (c = '-' ∨ (digit c).isSome) → isWs c = false ∧ c ≠ ']' := by
    intro c h
    have hc : c ∈ ['-', '0', '1', '2', '3', '4', '5', '6', '7', '8', '9'] := by
      rcases h with rfl | h
      · decide
      · exact List.mem_cons_of_mem _ (digit_cases h)
    simp only [List.mem_cons, List.not_mem_nil, or_false] at hc
    rcases hc with h | h | h | h | h | h | h | h | h | h | h <;> subst h <;> decide
  cases v with
  | str s =>
    rw [printVal, strdupEscape_eq] at h
    exact ⟨'"', _, (Option.some.inj h).symm, by decide, by decide⟩
  | int i =>
    rw [printVal] at h
    obtain ⟨c, u, hc, hd⟩ := sign_natText_head (decide (i < 0)) i.natAbs []
    have := Option.some.inj h
    rw [intText_eq] at this
    rw [List.append_nil] at hc
    exact ⟨c, u, this ▸ hc, hnum c hd⟩
  | flt f =>
    rw [printVal] at h
    cases f with
    | fin neg m =>
      obtain ⟨c, u, hc, hd⟩ := sign_natText_head neg (m / 1000000) ('.' :: fracText 6 (m % 1000000))
      have := Option.some.inj h
      rw [fltText] at this
      exact ⟨c, u, this ▸ hc, hnum c hd⟩
    | inf => simp [Ok] at hv
    | nan => simp [Ok] at hv
  | obj ps =>
    obtain ⟨u, hu⟩ := printPairs_some ps (lvl + 1) true
    rw [printVal, hu] at h
    exact ⟨'{', _, (Option.some.inj h).symm, by decide, by decide⟩
  | arr vs =>
    obtain ⟨u, hu⟩ := printVals_some vs (lvl + 1) true
    rw [printVal, hu] at h
    exact ⟨'[', _, (Option.some.inj h).symm, by decide, by decide⟩

/-! ## The round trip -/

mutual
theorem pval_print : ∀ (v : Val) (_ : Ok v) (lvl : Nat) (t : Str) (_ : printVal lvl v = some t) (n : Nat) (r : Str)
    (_ : NumEnd r) (_ : t.length < n), pval n (t ++ r) = some (den v, r)
  | .str s, hv, lvl, t, ht, n, r, hr, hn => by
    obtain ⟨n, rfl⟩ : ∃ m, n = m + 1 := ⟨n - 1, by omega⟩
    rw [printVal, strdupEscape_eq] at ht
    have ht := (Option.some.inj ht).symm
    subst ht
    have : pstr (escapeLoop s ++ '"' :: r) = some (s, r) := pstr_escape s r hv
    simp only [List.cons_append, List.append_assoc, List.nil_append, pval,
      skip_cons _ (show isWs '"' = false by decide), this]
    simp [den]
  | .int i, hv, lvl, t, ht, n, r, hr, hn => by
    obtain ⟨n, rfl⟩ : ∃ m, n = m + 1 := ⟨n - 1, by omega⟩
    rw [printVal] at ht
    have ht := (Option.some.inj ht).symm
    subst ht
    rw [intText_eq, List.append_assoc]
    obtain ⟨c, u, hc, hd⟩ := sign_natText_head (decide (i < 0)) i.natAbs r
    have h := pnum_int (decide (i < 0)) i.natAbs r hr
    rw [hc] at h ⊢
    rw [pval_num hd, h]
    simp only [den, decide_eq_true_eq]
    congr 3
    split <;> omega
  | .flt (.fin neg m), hv, lvl, t, ht, n, r, hr, hn => by
    obtain ⟨n, rfl⟩ : ∃ m, n = m + 1 := ⟨n - 1, by omega⟩
    rw [printVal, fltText] at ht
    have ht := (Option.some.inj ht).symm
    subst ht
    rw [List.append_assoc, List.append_assoc, List.cons_append]
    obtain ⟨c, u, hc, hd⟩ := sign_natText_head neg (m / 1000000) ('.' :: (fracText 6 (m % 1000000) ++ r))
    have h := pnum_flt neg (m / 1000000) (m % 1000000) (Nat.mod_lt _ (by decide)) r hr
    rw [hc] at h ⊢
    rw [pval_num hd, h, Nat.div_add_mod m 1000000]
    rfl
  | .flt (.inf _), hv, lvl, t, ht, n, r, hr, hn => by simp [Ok] at hv
  | .flt (.nan _), hv, lvl, t, ht, n, r, hr, hn => by simp [Ok] at hv
  | .obj ps, hv, lvl, t, ht, n, r, hr, hn => by
    obtain ⟨n, rfl⟩ : ∃ m, n = m + 1 := ⟨n - 1, by omega⟩
    obtain ⟨u, hu⟩ := printPairs_some ps (lvl + 1) true
    rw [printVal, hu] at ht
    have ht := (Option.some.inj ht).symm
    subst ht
    simp only [List.length_append, List.length_cons] at hn
    have e : ("{\n".toList ++ (u ++ ('\n' :: (indent lvl ++ ['}'])))) ++ r =
        '{' :: '\n' :: (u ++ ('\n' :: (indent lvl ++ ('}' :: r)))) := by
      simp
    rw [e]
    rw [Ok] at hv
    cases ps with
    | nil =>
      rw [printPairs] at hu
      have hu := (Option.some.inj hu).symm
      subst hu
      simp only [pval, skip_cons _ (show isWs '{' = false by decide), List.nil_append, skip_nl, skip_indent,
        skip_cons _ (show isWs '}' = false by decide), den, denPairs]
    | cons name v ps =>
      have h := pmem_print name v ps hv (lvl + 1) lvl u hu n r (by omega)
      simp only [pval, skip_cons _ (show isWs '{' = false by decide), skip_nl]
      have hskip : ∃ w, skip (u ++ '\n' :: (indent lvl ++ '}' :: r)) = '"' :: w := by
        obtain ⟨a, ha⟩ := printVal_some v (lvl + 1)
        obtain ⟨b, hb⟩ := printPairs_some ps (lvl + 1) false
        rw [printPairs, ha, hb] at hu
        have hu := (Option.some.inj hu).symm
        subst hu
        exact ⟨_, by simp only [if_true, List.nil_append, List.append_assoc, List.cons_append, skip_indent]
                     rw [skip_cons _ (show isWs '"' = false by decide)]⟩
      obtain ⟨w, hw⟩ := hskip
      have h' : pmem n ('"' :: w) = some (denPairs (.cons name v ps), r) := by
        rw [← h, ← hw]
        cases n with
        | zero => simp [pmem]
        | succ n =>
          have : skip (skip (u ++ '\n' :: (indent lvl ++ '}' :: r))) = skip (u ++ '\n' :: (indent lvl ++ '}' :: r)) := by
            rw [hw, skip_cons _ (show isWs '"' = false by decide)]
          simp only [pmem, this]
      rw [hw]
      simp [h', den]
  | .arr vs, hv, lvl, t, ht, n, r, hr, hn => by
    obtain ⟨n, rfl⟩ : ∃ m, n = m + 1 := ⟨n - 1, by omega⟩
    obtain ⟨u, hu⟩ := printVals_some vs (lvl + 1) true
    rw [printVal, hu] at ht
    have ht := (Option.some.inj ht).symm
    subst ht
    simp only [List.length_append, List.length_cons] at hn
    have e : ("[\n".toList ++ (u ++ ('\n' :: (indent lvl ++ [']'])))) ++ r =
        '[' :: '\n' :: (u ++ ('\n' :: (indent lvl ++ (']' :: r)))) := by
      simp
    rw [e]
    rw [Ok] at hv
    cases vs with
    | nil =>
      rw [printVals] at hu
      have hu := (Option.some.inj hu).symm
      subst hu
      simp only [pval, skip_cons _ (show isWs '[' = false by decide), List.nil_append, skip_nl, skip_indent,
        skip_cons _ (show isWs ']' = false by decide), den, denVals]
    | cons v vs =>
      have h := pelem_print v vs hv lvl lvl u hu n r (by omega)
      simp only [pval, skip_cons _ (show isWs '[' = false by decide), skip_nl]
      have hskip : ∃ c w, skip (u ++ '\n' :: (indent lvl ++ ']' :: r)) = c :: w ∧ c ≠ ']' ∧
          pelem n (c :: w) = pelem n (u ++ '\n' :: (indent lvl ++ ']' :: r)) := by
        obtain ⟨a, ha⟩ := printVal_some v (lvl + 1)
        obtain ⟨b, hb⟩ := printVals_some vs (lvl + 1) false
        obtain ⟨c, w, hc, hws, hne⟩ := printVal_head v hv.1 _ a ha
        rw [printVals, ha, hb] at hu
        have hu := (Option.some.inj hu).symm
        subst hu
        refine ⟨c, w ++ (b ++ '\n' :: (indent lvl ++ ']' :: r)), ?_, hne, ?_⟩
        · simp only [if_true, List.nil_append, List.append_assoc, skip_indent, hc, List.cons_append]
          rw [skip_cons _ hws]
        · simp only [if_true, List.nil_append, List.append_assoc, pelem_indent, hc, List.cons_append]
      obtain ⟨c, w, hw, hne, hp⟩ := hskip
      rw [hw]
      split
      next heq => simp only [List.cons.injEq] at heq; exact absurd heq.1 hne
      next =>
        rw [hp, h]
        simp [den]
termination_by _ _ _ _ _ n _ _ _ => n

theorem pmem_print : ∀ (name : Str) (v : Val) (ps : Pairs) (_ : OkPairs (.cons name v ps)) (lvl k : Nat) (t : Str)
    (_ : printPairs lvl true (.cons name v ps) = some t) (n : Nat) (r : Str) (_ : t.length < n + 1),
    pmem n (t ++ '\n' :: (indent k ++ '}' :: r)) = some (denPairs (.cons name v ps), r)
  | name, v, ps, hp, lvl, k, t, ht, n, r, hn => by
    obtain ⟨a, ha⟩ := printVal_some v lvl
    obtain ⟨b, hb⟩ := printPairs_some ps lvl false
    rw [printPairs, ha, hb] at ht
    have ht := (Option.some.inj ht).symm
    subst ht
    simp only [if_true, List.nil_append, List.length_append, List.length_cons] at hn
    have hl : ("\" : ".toList).length = 4 := rfl
    rw [hl] at hn
    obtain ⟨n, rfl⟩ : ∃ m, n = m + 1 := ⟨n - 1, by omega⟩
    rw [OkPairs] at hp
    have e : ((if true then [] else ",\n".toList) ++ (indent lvl ++ ('"' :: (name ++ ("\" : ".toList ++ (a ++ b)))))) ++
        '\n' :: (indent k ++ '}' :: r) =
        indent lvl ++ ('"' :: (name ++ '"' :: (' ' :: ':' :: ' ' :: (a ++ (b ++ '\n' :: (indent k ++ '}' :: r)))))) := by
      simp
    rw [e]
    have h1 := pstr_plain name (' ' :: ':' :: ' ' :: (a ++ (b ++ '\n' :: (indent k ++ '}' :: r)))) hp.1
    simp only [pmem, skip_indent, skip_cons _ (show isWs '"' = false by decide), h1]
    simp only [bind, Option.bind, skip_sp, skip_cons _ (show isWs ':' = false by decide), pval_sp]
    cases ps with
    | nil =>
      rw [printPairs] at hb
      have hb := (Option.some.inj hb).symm
      subst hb
      rw [List.nil_append, pval_print v hp.2.1 lvl a ha n _ (numEnd_nl _) (by omega)]
      simp only [skip_nl, skip_indent, skip_cons _ (show isWs '}' = false by decide), denPairs]
    | cons name' v' ps' =>
      obtain ⟨d, hd⟩ := printPairs_some (.cons name' v' ps') lvl true
      have hbd : b = ',' :: '\n' :: d := by
        obtain ⟨x, hx⟩ := printVal_some v' lvl
        obtain ⟨y, hy⟩ := printPairs_some ps' lvl false
        rw [printPairs, hx, hy] at hb hd
        have hb := (Option.some.inj hb).symm
        have hd := (Option.some.inj hd).symm
        rw [hb, hd]
        rfl
      subst hbd
      simp only [List.length_cons] at hn
      rw [List.cons_append, pval_print v hp.2.1 lvl a ha n _ (numEnd_comma _) (by omega)]
      have h2 := pmem_print name' v' ps' hp.2.2 lvl k d hd n r (by omega)
      have h3 : pmem n ('\n' :: (d ++ '\n' :: (indent k ++ '}' :: r))) = some (denPairs (.cons name' v' ps'), r) := by
        rw [← h2]
        cases n with
        | zero => simp [pmem]
        | succ n => simp only [pmem, skip_nl]
      simp only [List.cons_append, skip_cons _ (show isWs ',' = false by decide), h3]
      simp [denPairs]
termination_by _ _ _ _ _ _ _ _ n _ _ => n

theorem pelem_print : ∀ (v : Val) (vs : Vals) (_ : OkVals (.cons v vs)) (lvl k : Nat) (t : Str)
    (_ : printVals (lvl + 1) true (.cons v vs) = some t) (n : Nat) (r : Str) (_ : t.length < n + 1),
    pelem n (t ++ '\n' :: (indent k ++ ']' :: r)) = some (denVals (.cons v vs), r)
  | v, vs, hp, lvl, k, t, ht, n, r, hn => by
    obtain ⟨a, ha⟩ := printVal_some v (lvl + 1)
    obtain ⟨b, hb⟩ := printVals_some vs (lvl + 1) false
    rw [printVals, ha, hb] at ht
    have ht := (Option.some.inj ht).symm
    subst ht
    rw [OkVals] at hp
    simp only [if_true, List.nil_append, List.length_append, indent, List.length_cons] at hn
    obtain ⟨n, rfl⟩ : ∃ m, n = m + 1 := ⟨n - 1, by omega⟩
    have e : ((if true then [] else ",\n".toList) ++ (indent (lvl + 1) ++ (a ++ b))) ++ '\n' :: (indent k ++ ']' :: r) =
        indent (lvl + 1) ++ (a ++ (b ++ '\n' :: (indent k ++ ']' :: r))) := by
      simp
    rw [e]
    simp only [pelem, pval_indent]
    cases vs with
    | nil =>
      rw [printVals] at hb
      have hb := (Option.some.inj hb).symm
      subst hb
      rw [List.nil_append, pval_print v hp.1 (lvl + 1) a ha n _ (numEnd_nl _) (by omega)]
      simp [skip_nl, skip_indent, skip_cons _ (show isWs ']' = false by decide), denVals]
    | cons v' vs' =>
      obtain ⟨d, hd⟩ := printVals_some (.cons v' vs') (lvl + 1) true
      have hbd : b = ',' :: '\n' :: d := by
        obtain ⟨x, hx⟩ := printVal_some v' (lvl + 1)
        obtain ⟨y, hy⟩ := printVals_some vs' (lvl + 1) false
        rw [printVals, hx, hy] at hb hd
        have hb := (Option.some.inj hb).symm
        have hd := (Option.some.inj hd).symm
        rw [hb, hd]
        rfl
      subst hbd
      simp only [List.length_cons] at hn
      rw [List.cons_append, pval_print v hp.1 (lvl + 1) a ha n _ (numEnd_comma _) (by omega)]
      have h2 := pelem_print v' vs' hp.2 lvl k d hd n r (by omega)
      have h3 : pelem n ('\n' :: (d ++ '\n' :: (indent k ++ ']' :: r))) = some (denVals (.cons v' vs'), r) := by
        rw [← h2]
        cases n with
        | zero => simp [pelem]
        | succ n => simp only [pelem, pval_nl]
      simp [denVals, skip_cons _ (show isWs ',' = false by decide), h3]
termination_by _ _ _ _ _ _ _ n _ _ => n
end

/-! ## C45 -/

/-- C45: printing succeeds whatever the tree holds (json.c:53-74 never writes past its allocation). -/
theorem C45_total (ps : Pairs) : ∃ t, printRoot ps = some t := printVal_some (.obj ps) 0

/-- C45: the text is a JSON text and stands for exactly what was added. -/
theorem C45_roundtrip (ps : Pairs) (h : OkPairs ps) :
    ∃ t, printRoot ps = some t ∧ parse t = some (.obj (denPairs ps)) := by
  obtain ⟨t, ht⟩ := C45_total ps
  refine ⟨t, ht, ?_⟩
  have h1 := pval_print (.obj ps) h 0 t ht (t.length + 1) [] numEnd_nil (by omega)
  rw [List.append_nil] at h1
  unfold parse
  rw [h1]
  simp [skip, den]

/-- C45: the same for a single string, at any depth and whatever follows it: the string comes back unchanged. -/
theorem C45_string (s r : Str) (h : NoCtrl s) :
    ∃ e, strdupEscape s = some e ∧ pstr (e ++ '"' :: r) = some (s, r) :=
  ⟨_, strdupEscape_eq s, pstr_escape s r h⟩

/-- A tree with quotes, a backslash, nesting, an empty array, a negative integer and a fraction. -/
def exPairs : Pairs :=
  .cons "job \t".toList.dropLast (.str "a\"b\\c".toList)
    (.cons "n".toList (.obj (.cons "x".toList (.int (-305)) (.cons "y".toList (.flt (.fin true 50001)) .nil)))
      (.cons "e".toList (.arr .nil) (.cons "l".toList (.arr (.cons (.int 0) (.cons (.str []) .nil))) .nil)))

/-- The hypothesis of `C45_roundtrip` holds of it. -/
example : OkPairs exPairs := by
  simp only [exPairs, OkPairs, Ok, OkVals, Plain, NoCtrl]
  decide

/-- And the text is what fio prints. -/
example : printRoot exPairs = some (("{\n  \"job \" : \"a\\\"b\\\\c\",\n  \"n\" : {\n    \"x\" : -305,\n" ++
    "    \"y\" : -0.050001\n  },\n  \"e\" : [\n\n  ],\n  \"l\" : [\n    0,\n    \"\"\n  ]\n}").toList) := by
  decide +kernel

/-- C45 fails for a string with a control character: json.c:53-74 escapes only quotes and backslashes. -/
theorem C45_control_counterexample : ∃ ps t, printRoot ps = some t ∧ (parse t).isNone = true :=
  ⟨.cons "description".toList (.str "a\tb".toList) .nil, _, rfl, by decide +kernel⟩

/-- C45 fails for a name with a quote: names are not escaped (json.c:18-29, 327). -/
theorem C45_name_counterexample : ∃ ps t, printRoot ps = some t ∧ (parse t).isNone = true :=
  ⟨.cons "a\"b".toList (.int 1) .nil, _, rfl, by decide +kernel⟩

/-- The names of the members of an object. -/
def names : J → List Str
  | .obj ps => ps.map Prod.fst
  | _ => []

/-- A name with a backslash comes back changed. -/
theorem C45_backslash_counterexample : ∃ ps t l, printRoot ps = some t ∧ (parse t).map names = some l ∧
    l ≠ names (.obj (denPairs ps)) :=
  ⟨.cons "a\\nb".toList (.int 1) .nil, _, ["a\nb".toList], rfl, by decide +kernel, by decide +kernel⟩

/-- C45 fails for a double that is not a number (json.c:357). -/
theorem C45_nan_counterexample : ∃ ps t, printRoot ps = some t ∧ (parse t).isNone = true :=
  ⟨.cons "x".toList (.flt (.nan true)) .nil, _, rfl, by decide +kernel⟩

/-- C45 fails for an infinite double (json.c:357). -/
theorem C45_inf_counterexample : ∃ ps t, printRoot ps = some t ∧ (parse t).isNone = true :=
  ⟨.cons "x".toList (.flt (.inf false)) .nil, _, rfl, by decide +kernel⟩

end Fio.Json
