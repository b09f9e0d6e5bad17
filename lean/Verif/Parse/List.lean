import Verif.Parse.Props

/-!
# C44: lists of values

`a,b,c` gives the values for reads, writes and trims; a value that is left out keeps the default, and the last value
also applies to what follows (HOWTO.rst:1755-1785).  `C44_list` and `C44_pair` for numbers, `C44_time` for times,
`C44_range` for ranges; and the cases in which the code does something else.
-/

namespace Fio.Parse
open Spec

/-! ## strchr and split -/

theorem strchr_none {s : Str} {c : Char} (h : c ∉ s) : strchr s c = none := by
  unfold strchr
  have : s.dropWhile (fun d => d != c) = [] := by
    have := List.dropWhile_append_of_pos (p := fun d => d != c) (l₁ := s) (l₂ := []) (by
      intro d hd
      simp only [bne_iff_ne, ne_eq]
      rintro rfl
      exact h hd)
    simpa using this
  rw [this]

theorem take_ne {s q : Str} {c : Char} (h : c ∉ s) : (s ++ c :: q).takeWhile (fun d => d != c) = s := by
  rw [List.takeWhile_append_of_pos]
  · simp
  · intro d hd
    simp only [bne_iff_ne, ne_eq]
    rintro rfl
    exact h hd

theorem strchr_some {s q : Str} {c : Char} (h : c ∉ s) : strchr (s ++ c :: q) c = some (s, q) := by
  unfold strchr
  have : (s ++ c :: q).dropWhile (fun d => d != c) = c :: q := by
    rw [List.dropWhile_append_of_pos]
    · simp
    · intro d hd
      simp only [bne_iff_ne, ne_eq]
      rintro rfl
      exact h hd
  rw [this, take_ne h]

/-- The separators of a list. -/
def IsSep (c : Char) : Prop := c = ',' ∨ c = ':' ∨ c = '-'

theorem split_last {f : Str} (h : ',' ∉ f ∧ ':' ∉ f ∧ '-' ∉ f) : split f = (f, none) := by
  unfold split
  rw [strchr_none h.1, strchr_none h.2.1]
  simp only
  cases f with
  | nil => rfl
  | cons c s =>
    have hc : c ≠ '-' := by rintro rfl; exact h.2.2 (by simp)
    simp only
    rw [if_neg hc, strchr_none h.2.2]
    rfl

theorem split_more {sep : Char} (f q : Str) (hs : IsSep sep) (h : ',' ∉ f ∧ ':' ∉ f ∧ '-' ∉ f)
    (hq' : sep ≠ ',' → ',' ∉ q)
    (hq2 : sep = '-' → ':' ∉ q ∧ f ≠ []) :
    ∃ r, split (f ++ sep :: q) = (f ++ r, some q) ∧ (r = [] ∨ r = sep :: q) := by
  rcases hs with rfl | rfl | rfl
  · unfold split
    rw [strchr_some h.1]
    cases q with
    | nil => exact ⟨[], by simp, Or.inl rfl⟩
    | cons a q => exact ⟨',' :: a :: q, by simp, Or.inr rfl⟩
  · unfold split
    have h1 : ',' ∉ f ++ ':' :: q := by
      have := hq' (by decide)
      simp only [List.mem_append, List.mem_cons, not_or]
      exact ⟨h.1, by decide, this⟩
    rw [strchr_none h1, strchr_some h.2.1]
    exact ⟨':' :: q, rfl, Or.inr rfl⟩
  · unfold split
    have h1 : ',' ∉ f ++ '-' :: q := by
      have := hq' (by decide)
      simp only [List.mem_append, List.mem_cons, not_or]
      exact ⟨h.1, by decide, this⟩
    have h2 : ':' ∉ f ++ '-' :: q := by
      have := (hq2 rfl).1
      simp only [List.mem_append, List.mem_cons, not_or]
      exact ⟨h.2.1, by decide, this⟩
    rw [strchr_none h1, strchr_none h2]
    simp only
    refine ⟨'-' :: q, ?_, Or.inr rfl⟩
    split
    next heq => simp at heq
    next c s heq =>
      have hc : c ≠ '-' := by
        rintro rfl
        cases f with
        | nil => exact (hq2 rfl).2 rfl
        | cons a f =>
          simp only [List.cons_append, List.cons.injEq] at heq
          exact h.2.2 (by simp [heq.1])
      rw [if_neg hc, strchr_some h.2.2]
      rfl

theorem tail_of {sep : Char} {r : Str} (hs : IsSep sep) (h : ∀ c u, r = c :: u → c = sep) : Tail r := by
  intro c u hc
  rw [h c u hc]
  rcases hs with rfl | rfl | rfl <;> decide

/-- What `tmp` is: the value, and something after a separator that is not a comma. -/
theorem tmp_eq {sep : Char} (f r q : Str) (hf : ',' ∉ f) (hl : f.length ≤ 127) (hr : r = [] ∨ r = sep :: q)
    : ∃ r', ((f ++ r).take 127).takeWhile (fun c => c != ',') = f ++ r' ∧ (sep = ',' → r' = []) ∧
      (∀ c u, r' = c :: u → c = sep) ∧ ∀ c ∈ r', c = sep ∨ c ∈ q := by
  have hf' : ∀ d ∈ f, (d != ',') = true := by
    intro d hd
    simp only [bne_iff_ne, ne_eq]
    rintro rfl
    exact hf hd
  have h1 : ((f ++ r).take 127).takeWhile (fun c => c != ',') =
      f ++ (r.take (127 - f.length)).takeWhile (fun c => c != ',') := by
    rw [List.take_append, List.take_of_length_le hl, List.takeWhile_append_of_pos hf']
  rw [h1]
  refine ⟨_, rfl, ?_, ?_, ?_⟩
  · intro hsep
    rcases hr with rfl | rfl
    · simp
    · cases h : 127 - f.length <;> simp [hsep]
  · intro c u h
    rcases hr with rfl | rfl
    · simp at h
    · cases h0 : 127 - f.length with
      | zero => simp [h0] at h
      | succ n =>
        rw [h0, List.take_succ_cons, List.takeWhile_cons] at h
        split at h
        · simp only [List.cons.injEq] at h
          exact h.1.symm
        · cases h
  · intro c hc
    have : c ∈ r := List.mem_of_mem_take (List.takeWhile_subset _ hc)
    rcases hr with rfl | rfl
    · simp at this
    · simpa using this

/-! ## The loop -/

/-- The parser `__handle_option` calls. -/
def parseOne (o : Opt) (kb : Nat) (s : Str) (err : Bool) : Option Int × Bool :=
  if o.kind = .valTime then checkStrTime s o.isSeconds err else checkStrBytes s kb err

/-- One value as text, and what it means (nothing if it is left out). -/
structure Good (o : Opt) (kb : Nat) (sep : Char) (err : Bool) (x : Str × Option Int) : Prop where
  chars : ',' ∉ x.1 ∧ ':' ∉ x.1 ∧ '-' ∉ x.1 ∧ 'z' ∉ x.1
  noHex : sep ≠ ',' → 'x' ∉ x.1 ∧ 'X' ∉ x.1
  len : x.1.length ≤ 127
  ne : sep = '-' → x.1 ≠ []
  parse : ∀ r, (sep = ',' → r = []) → (∀ c u, r = c :: u → c = sep) → 'x' ∉ r → 'X' ∉ r → parseOne o kb (x.1 ++ r) err = (x.2, err)
  lim : ∀ v, x.2 = some v → tooLarge o v = false ∧ tooSmall o v = false

/-- The assignments one after the other. -/
def stores (o : Opt) : Nat → List (Option Int) → Vars → Vars
  | _, [], st => st
  | k, f :: fs, st => stores o (k + 1) fs (match f with
      | none => st
      | some v => store o v (k = 0) (!fs.isEmpty) k st)

theorem join_cons_cons (sep : Char) (f g : Str) (fs : List Str) :
    join sep (f :: g :: fs) = f ++ sep :: join sep (g :: fs) := rfl

theorem join_chars {sep c : Char} {fs : List Str} (h : c ∈ join sep fs) : c = sep ∨ ∃ f ∈ fs, c ∈ f := by
  induction fs with
  | nil => simp [join] at h
  | cons f fs ih =>
    cases fs with
    | nil => exact Or.inr ⟨f, by simp, h⟩
    | cons g fs =>
      rw [join_cons_cons] at h
      simp only [List.mem_append, List.mem_cons] at h
      rcases h with h | h | h
      · exact Or.inr ⟨f, by simp, h⟩
      · exact Or.inl h
      · rcases ih h with h | ⟨f', h1, h2⟩
        · exact Or.inl h
        · exact Or.inr ⟨f', by simp only [List.mem_cons] at h1 ⊢; exact Or.inr h1, h2⟩

theorem handleOne_good {o : Opt} {kb : Nat} {sep : Char} {err : Bool} {x : Str × Option Int} (hx : Good o kb sep err x)
    (hs : IsSep sep) (r q : Str) (hr : r = [] ∨ r = sep :: q) (hz : 'z' ∉ q)
    (hq : sep ≠ ',' → 'x' ∉ q ∧ 'X' ∉ q) (first more : Bool) (curr : Nat) (st : Vars) :
    handleOne o kb (x.1 ++ r) first more curr (st, err) =
      (x.2.isSome, (match x.2 with | none => st | some v => store o v first more curr st), err) := by
  unfold handleOne
  have hzz : 'z' ∉ x.1 ++ r := by
    simp only [List.mem_append, not_or]
    refine ⟨hx.chars.2.2.2, ?_⟩
    rcases hr with rfl | rfl
    · simp
    · simp only [List.mem_cons, not_or]
      exact ⟨by rcases hs with rfl | rfl | rfl <;> decide, hz⟩
  rw [if_neg (fun h => hzz (List.mem_of_getLast? h))]
  obtain ⟨r', h1, h2, h3, h4⟩ := tmp_eq x.1 r q hx.chars.1 hx.len hr
  simp only [h1]
  have hx' : ∀ y, (y = 'x' ∨ y = 'X') → y ∉ r' := by
    intro y hy hm
    by_cases hc : sep = ','
    · rw [h2 hc] at hm; simp at hm
    · rcases h4 y hm with h | h
      · rcases hy with rfl | rfl <;> rcases hs with h' | h' | h' <;> rw [h'] at h <;> exact absurd h (by decide)
      · rcases hy with rfl | rfl
        · exact (hq hc).1 h
        · exact (hq hc).2 h
  have hp := hx.parse r' h2 h3 (hx' _ (Or.inl rfl)) (hx' _ (Or.inr rfl))
  unfold parseOne at hp
  rw [hp]
  cases hv : x.2 with
  | none => rfl
  | some v =>
    have := hx.lim v hv
    simp [this.1, this.2]

theorem handleLoop_good (o : Opt) (kb : Nat) (sep : Char) (err : Bool) (hs : IsSep sep) : ∀ (xs : List (Str × Option Int))
    (fuel done : Nat) (ok : Bool) (st : Vars), xs ≠ [] → (∀ x ∈ xs, Good o kb sep err x) →
    (join sep (xs.map Prod.fst)).length < fuel →
    handleLoop o kb fuel (join sep (xs.map Prod.fst)) done ok (st, err) =
      some (ok || xs.any fun x => x.2.isSome, stores o done (xs.map Prod.snd) st, err) := by
  intro xs
  induction xs with
  | nil => intro fuel done ok st h; exact absurd rfl h
  | cons x xs ih =>
    intro fuel done ok st _ hg hf
    have hx := hg x (by simp)
    cases fuel with
    | zero => omega
    | succ fuel =>
      cases xs with
      | nil =>
        simp only [List.map_cons, List.map_nil, join]
        unfold handleLoop
        rw [split_last ⟨hx.chars.1, hx.chars.2.1, hx.chars.2.2.1⟩]
        have h1 := handleOne_good hx hs [] [] (Or.inl rfl) (by simp) (by simp) (decide (done = 0)) false done st
        simp only [List.append_nil] at h1
        simp only [Option.isSome_none, h1]
        simp [stores]
      | cons y ys =>
        simp only [List.map_cons] at hf ⊢
        rw [join_cons_cons] at hf ⊢
        have hq : join sep (y.1 :: ys.map Prod.fst) = join sep ((y :: ys).map Prod.fst) := rfl
        rw [hq] at hf ⊢
        generalize hQ : join sep ((y :: ys).map Prod.fst) = q at *
        have hqc : ∀ c ∈ q, c = sep ∨ ∃ z ∈ y :: ys, c ∈ z.1 := by
          intro c hc
          rw [← hQ] at hc
          rcases join_chars hc with h | ⟨f, h1, h2⟩
          · exact Or.inl h
          · obtain ⟨z, hz, rfl⟩ := List.mem_map.mp h1
            exact Or.inr ⟨z, hz, h2⟩
        have hz : 'z' ∉ q := by
          intro h
          rcases hqc _ h with h | ⟨z, h1, h2⟩
          · rcases hs with h' | h' | h' <;> rw [h'] at h <;> exact absurd h (by decide)
          · exact (hg z (List.mem_cons_of_mem _ h1)).chars.2.2.2 h2
        have hxx : sep ≠ ',' → 'x' ∉ q ∧ 'X' ∉ q := by
          intro hc
          constructor <;> intro h <;> rcases hqc _ h with h | ⟨z, h1, h2⟩
          · rcases hs with h' | h' | h' <;> rw [h'] at h <;> exact absurd h (by decide)
          · exact ((hg z (List.mem_cons_of_mem _ h1)).noHex hc).1 h2
          · rcases hs with h' | h' | h' <;> rw [h'] at h <;> exact absurd h (by decide)
          · exact ((hg z (List.mem_cons_of_mem _ h1)).noHex hc).2 h2
        have hcomma : sep ≠ ',' → ',' ∉ q := by
          intro hc h
          rcases hqc _ h with h | ⟨z, h1, h2⟩
          · exact hc h.symm
          · exact (hg z (List.mem_cons_of_mem _ h1)).chars.1 h2
        have hcolon : sep = '-' → ':' ∉ q ∧ x.1 ≠ [] := by
          intro hc
          refine ⟨?_, hx.ne hc⟩
          intro h
          rcases hqc _ h with h | ⟨z, h1, h2⟩
          · rw [hc] at h; exact absurd h (by decide)
          · exact (hg z (List.mem_cons_of_mem _ h1)).chars.2.1 h2
        obtain ⟨r, h1, h2⟩ := split_more x.1 q hs ⟨hx.chars.1, hx.chars.2.1, hx.chars.2.2.1⟩
          hcomma hcolon
        unfold handleLoop
        rw [h1]
        simp only [handleOne_good hx hs r q h2 hz hxx, Option.isSome_some]
        have := ih fuel (done + 1) (ok || x.2.isSome)
          (match x.2 with | none => st | some v => store o v (decide (done = 0)) true done st) (by simp)
          (fun z hz => hg z (List.mem_cons_of_mem _ hz)) (by simp only [List.length_append, List.length_cons] at hf; omega)
        rw [this]
        simp [stores, Bool.or_assoc]

/-- Beyond the third place nothing is stored. -/
theorem stores_beyond (o : Opt) (hk : o.kind = .int ∨ o.kind = .ull) : ∀ (fs : List (Option Int)) (k : Nat) (st : Vars), 3 ≤ k →
    stores o k fs st = st := by
  intro fs
  induction fs with
  | nil => intro k st _; rfl
  | cons f fs ih =>
    intro k st h
    unfold stores
    rw [ih (k + 1) _ (by omega)]
    cases f with
    | none => rfl
    | some v =>
      have h0 : k ≠ 0 := by omega
      have h1 : k ≠ 1 := by omega
      have h2 : k ≠ 2 := by omega
      simp [store, hk, h0, h1, h2]
      intro _ h'; omega

/-- What the assignments amount to. -/
theorem stores_eq (o : Opt) (hk : o.kind = .int ∨ o.kind = .ull) (h2 : o.off2 = true) (h3 : o.off3 = true)
    (fs : List (Option Int)) (hne : fs ≠ []) (st : Vars) (hr : ∀ v, some v ∈ fs → o.kind = .int → toInt v = v) :
    stores o 0 fs st = ⟨listValue fs 0 st.v1, listValue fs 1 st.v2, listValue fs 2 st.v3⟩ := by
  have hst : ∀ v, some v ∈ fs → (if o.kind = .int then toInt v else v) = v := by
    intro v hv
    split
    next h => exact hr v hv h
    next => rfl
  match fs, hne with
  | [f], _ =>
    cases f with
    | none => simp [stores, listValue]
    | some v => simp [stores, listValue, store, hk, h2, h3, hst v (by simp)]
  | [f, g], _ =>
    cases f <;> cases g <;> simp [stores, listValue, store, hk, h2, h3, hst]
  | [f, g, h], _ =>
    cases f <;> cases g <;> cases h <;> simp [stores, listValue, store, hk, h2, h3, hst]
  | f :: g :: h :: k :: t, _ =>
    have e : stores o 0 (f :: g :: h :: k :: t) st = stores o 3 (k :: t) (stores o 0 [f, g, h, none] st) := by
      simp [stores]
    rw [e, stores_beyond o hk _ 3 _ (by omega)]
    cases f <;> cases g <;> cases h <;> simp [stores, listValue, store, hk, h2, h3, hst]

/-- For the options with two variables: the first value and the last one. -/
theorem stores_pair (o : Opt) (hk : o.kind = .val ∨ o.kind = .valTime) (h2 : o.off2 = true)
    (fs : List (Option Int)) (hne : fs ≠ []) (st : Vars) :
    stores o 0 fs st = ⟨listValue fs 0 st.v1, (fs.getLast?.join).getD st.v2, st.v3⟩ := by
  have hn : o.kind ≠ .int ∧ o.kind ≠ .ull := by rcases hk with h | h <;> rw [h] <;> decide
  have key : ∀ (fs : List (Option Int)) (k : Nat) (st : Vars), k ≠ 0 →
      stores o k fs st = ⟨st.v1, (fs.getLast?.join).getD st.v2, st.v3⟩ := by
    intro fs
    induction fs with
    | nil => intro k st _; rfl
    | cons f fs ih =>
      intro k st hk0
      unfold stores
      rw [ih (k + 1) _ (by omega)]
      cases fs with
      | nil => cases f <;> simp [store, hn, h2, hk0]
      | cons g fs => cases f <;> simp [store, hn, hk0, List.getLast?_cons_cons]
  cases fs with
  | nil => exact absurd rfl hne
  | cons f fs =>
    unfold stores
    rw [key fs 1 _ (by decide)]
    cases fs with
    | nil => cases f <;> simp [store, hn, h2, listValue]
    | cons g fs => cases f <;> simp [store, hn, listValue, List.getLast?_cons_cons]

/-! ## Numbers -/

/-- A number in a list: digits, a suffix, and the unit that stands for. -/
structure Field where
  ds : List Char
  sfx : List Char
  unit : Nat

/-- Its text. -/
def Field.text (f : Field) : List Char := f.ds ++ f.sfx

/-- Its value. -/
def Field.value (f : Field) : Nat := decVal f.ds * f.unit

/-- It is a number with a documented data suffix (other than `ki` and the like), not too long. -/
structure Field.Data (kb : Nat) (f : Field) : Prop where
  dec : IsDec f.ds
  unit : dataUnit kb f.sfx = some f.unit
  noKi : ∀ c, f.sfx.map Char.toLower ≠ [c, 'i']
  len : f.text.length ≤ 127
  val : f.value < 2 ^ 63 - 1

/-- The text of a value that may have been left out. -/
def textOf : Option Field → List Char
  | none => []
  | some f => f.text

/-- The value of a value that may have been left out. -/
def valueOf (f : Option Field) : Option Int := f.map fun f => (f.value : Int)

theorem tail_reject (r : Str) (kb : Nat) (err : Bool) (h1 : Tail r) (h2 : ∀ c u, r = c :: u → c ≠ '-') (hx : 'x' ∉ r)
    (hX : 'X' ∉ r) (kilo isSeconds : Bool) : strToDecimal r kilo kb isSeconds err = (none, err) := by
  refine C43_reject .none [] r kilo isSeconds err kb (by simp) ⟨hx, hX⟩ ?_
  intro c u h
  have h1 := h1 c u h
  have h2 := h2 c u h
  simp only [isSeparator, Bool.or_eq_true, beq_iff_eq] at h1
  rcases h1 with ((h | h) | h) | h <;> subst h <;> first | exact absurd rfl h2 | (constructor <;> simp)

theorem good_data (o : Opt) (kb : Nat) (sep : Char) (err : Bool) (f : Option Field) (hkb : kb = 1000 ∨ kb = 1024)
    (hk : o.kind ≠ .valTime) (hsep : IsSep sep) (h0 : sep = '-' → f ≠ none) (hf : ∀ g, f = some g → g.Data kb)
    (hlim : ∀ g, f = some g → tooLarge o g.value = false ∧ tooSmall o g.value = false) :
    Good o kb sep err (textOf f, valueOf f) := by
  cases f with
  | none =>
    refine ⟨by simp [textOf], by simp [textOf], by simp [textOf], fun h => absurd rfl (h0 h), ?_, by simp [valueOf]⟩
    intro r hr ht hx hX
    simp only [textOf, List.nil_append, valueOf, Option.map_none, parseOne, if_neg hk]
    refine tail_reject r kb err (tail_of hsep ht) ?_ hx hX true false
    rintro c u rfl rfl
    exact h0 (ht _ _ rfl).symm rfl
  | some g =>
    have hg := hf g rfl
    have hu : (g.sfx.map lower, g.unit) ∈ units kb := by rw [map_lower]; exact dataUnit_mem hg.unit hg.noKi
    have hc := unit_chars hkb hu
    refine ⟨?_, ?_, hg.len, ?_, ?_, ?_⟩
    · simp only [textOf, Field.text, List.mem_append, not_or]
      refine ⟨⟨?_, ?_⟩, ⟨?_, ?_⟩, ⟨?_, ?_⟩, ?_, ?_⟩ <;> intro hm
      · have := dec_digit (hg.dec.2 _ hm); simp_all
      · have := hc _ hm; simp_all
      · have := dec_digit (hg.dec.2 _ hm); simp_all
      · have := hc _ hm; simp_all
      · have := dec_digit (hg.dec.2 _ hm); simp_all
      · have := hc _ hm; simp_all
      · have := dec_digit (hg.dec.2 _ hm); simp_all
      · have := hc _ hm; simp_all
    · intro _
      simp only [textOf, Field.text, List.mem_append, not_or]
      refine ⟨⟨?_, ?_⟩, ?_, ?_⟩ <;> intro hm
      · have := dec_digit (hg.dec.2 _ hm); simp_all
      · have := hc _ hm; simp_all
      · have := dec_digit (hg.dec.2 _ hm); simp_all
      · have := hc _ hm; simp_all
    · intro _
      have := hg.dec.1
      simp [textOf, Field.text, this]
    · intro r _ ht hx hX
      simp only [textOf, valueOf, Option.map_some, parseOne, if_neg hk, Field.text, List.append_assoc]
      have := data_rest .none kb g.unit g.ds g.sfx r err hkb hg.dec hu hg.val (tail_of hsep ht) ⟨hx, hX⟩
      simpa [Sign.text, Sign.apply, Field.value] using this
    · intro v hv
      simp only [valueOf, Option.map_some, Option.some.injEq] at hv
      exact hv ▸ hlim g rfl

/-- The limits of an option: `minval` and `maxval` (0 for none), and the range of an `int` for `FIO_OPT_INT`. -/
structure Field.Within (o : Opt) (f : Field) : Prop where
  min : o.minval ≤ f.value
  max : o.maxval ≠ 0 → f.value ≤ o.maxval
  int : o.kind = .int → f.value < 2 ^ 31

theorem toInt_small {v : Nat} (h : v < 2 ^ 31) : toInt v = v := by
  have h' : v < 2147483648 := h
  unfold toInt
  omega

theorem within_lim (o : Opt) (f : Field) (h : f.Within o) (h0 : 0 ≤ o.minval) (h31 : o.minval < 2 ^ 31)
    (hv : f.value < 2 ^ 63 - 1) : tooLarge o f.value = false ∧ tooSmall o f.value = false := by
  have h1 := h.min
  have h2 := h.max
  have h31' : o.minval < 2147483648 := h31
  have hv' : f.value < 9223372036854775807 := hv
  unfold tooLarge tooSmall toULL
  constructor
  · split
    · rfl
    next hm =>
      have h2 := h2 hm
      split
      next hk =>
        have h3 : f.value < 2147483648 := h.int hk
        rw [toInt_small (h.int hk)]
        rw [if_neg (by omega), decide_eq_false_iff_not]
        omega
      next => rw [decide_eq_false_iff_not]; omega
  · split
    · rfl
    · split
      next hk =>
        rw [toInt_small (h.int hk), decide_eq_false_iff_not]
        omega
      next => rw [decide_eq_false_iff_not]; omega

/-- **C44** (three values).  For an option with values for reads, writes and trims, a list of documented numbers within
the limits of the option, separated by commas (or colons, or minus signs when none is left out), sets the three
variables as documented: a value that is left out leaves its variable alone, the last one applies to all that follow;
values beyond the third are ignored.  The option is accepted if at least one value is there. -/
theorem C44_list (o : Opt) (kb : Nat) (sep : Char) (fs : List (Option Field)) (st : Vars) (err : Bool)
    (hkb : kb = 1000 ∨ kb = 1024) (hk : o.kind = .int ∨ o.kind = .ull) (h2 : o.off2 = true) (h3 : o.off3 = true)
    (hmin : 0 ≤ o.minval ∧ o.minval < 2 ^ 31) (hsep : sep = ',' ∨ sep = ':' ∨ sep = '-') (hne : fs ≠ [])
    (h0 : sep = '-' → none ∉ fs) (hf : ∀ f, some f ∈ fs → f.Data kb ∧ f.Within o) :
    handleOption o kb (join sep (fs.map textOf)) (st, err) =
      some (fs.any Option.isSome, ⟨listValue (fs.map valueOf) 0 st.v1, listValue (fs.map valueOf) 1 st.v2,
        listValue (fs.map valueOf) 2 st.v3⟩, err) := by
  have hkt : o.kind ≠ .valTime := by rcases hk with h | h <;> rw [h] <;> decide
  let xs := fs.map fun f => (textOf f, valueOf f)
  have e1 : xs.map Prod.fst = fs.map textOf := by simp [xs, Function.comp_def]
  have e2 : xs.map Prod.snd = fs.map valueOf := by simp [xs, Function.comp_def]
  have e3 : (xs.any fun x => x.2.isSome) = fs.any Option.isSome := by
    simp [xs, Function.comp_def, valueOf]
  have hg : ∀ x ∈ xs, Good o kb sep err x := by
    intro x hx
    obtain ⟨f, hm, rfl⟩ := List.mem_map.mp hx
    refine good_data o kb sep err f hkb hkt hsep ?_ ?_ ?_
    · rintro h rfl; exact h0 h hm
    · rintro g rfl; exact (hf g hm).1
    · rintro g rfl
      exact within_lim o g (hf g hm).2 hmin.1 hmin.2 (hf g hm).1.val
  have := handleLoop_good o kb sep err hsep xs ((join sep (xs.map Prod.fst)).length + 1) 0 false st
    (by simpa [xs] using hne) hg (by omega)
  rw [e3, e2, e1] at this
  unfold handleOption
  rw [this, stores_eq o hk h2 h3 _ (by simpa using hne) st]
  · simp
  · intro v hv hint
    obtain ⟨f, hm, hfv⟩ := List.mem_map.mp hv
    cases f with
    | none => simp [valueOf] at hfv
    | some g =>
      simp only [valueOf, Option.map_some, Option.some.injEq] at hfv
      rw [← hfv]
      exact toInt_small ((hf g hm).2.int hint)

/-- `bs=8k,32k,` with a default of 4096: 8k for reads, 32k for writes, and the default for trims (HOWTO.rst:1768). -/
example : handleOption { kind := .ull, minval := 1 } 1024 "8k,32k,".toList (⟨4096, 4096, 4096⟩, false) =
    some (true, ⟨8192, 32768, 4096⟩, false) := by
  refine C44_list { kind := .ull, minval := 1 } 1024 ',' [some ⟨['8'], ['k'], 1024⟩, some ⟨['3', '2'], ['k'], 1024⟩, none]
    ⟨4096, 4096, 4096⟩ false (Or.inr rfl) (Or.inr rfl) rfl rfl ⟨by decide, by decide⟩ (Or.inl rfl) (by simp)
    (by simp) ?_
  intro f hf
  simp only [List.mem_cons, List.not_mem_nil, or_false, Option.some.injEq, reduceCtorEq] at hf
  rcases hf with rfl | rfl
  · exact ⟨⟨⟨by decide, by decide⟩, by decide, by intro c h; simp at h, by decide, by decide⟩, by decide, by simp, by simp⟩
  · exact ⟨⟨⟨by decide, by decide⟩, by decide, by intro c h; simp at h, by decide, by decide⟩, by decide, by simp, by simp⟩

/-- **C44** (two values).  For an option with a lower and an upper variable the first value goes to the one and the
last value to the other; a value that is left out leaves its variable alone. -/
theorem C44_pair (o : Opt) (kb : Nat) (sep : Char) (fs : List (Option Field)) (st : Vars) (err : Bool)
    (hkb : kb = 1000 ∨ kb = 1024) (hk : o.kind = .val) (h2 : o.off2 = true)
    (hmin : 0 ≤ o.minval ∧ o.minval < 2 ^ 31) (hsep : sep = ',' ∨ sep = ':' ∨ sep = '-') (hne : fs ≠ [])
    (h0 : sep = '-' → none ∉ fs) (hf : ∀ f, some f ∈ fs → f.Data kb ∧ f.Within o) :
    handleOption o kb (join sep (fs.map textOf)) (st, err) =
      some (fs.any Option.isSome, ⟨listValue (fs.map valueOf) 0 st.v1, ((fs.map valueOf).getLast?.join).getD st.v2,
        st.v3⟩, err) := by
  have hkt : o.kind ≠ .valTime := by rw [hk]; decide
  let xs := fs.map fun f => (textOf f, valueOf f)
  have e1 : xs.map Prod.fst = fs.map textOf := by simp [xs, Function.comp_def]
  have e2 : xs.map Prod.snd = fs.map valueOf := by simp [xs, Function.comp_def]
  have e3 : (xs.any fun x => x.2.isSome) = fs.any Option.isSome := by
    simp [xs, Function.comp_def, valueOf]
  have hg : ∀ x ∈ xs, Good o kb sep err x := by
    intro x hx
    obtain ⟨f, hm, rfl⟩ := List.mem_map.mp hx
    refine good_data o kb sep err f hkb hkt hsep ?_ ?_ ?_
    · rintro h rfl; exact h0 h hm
    · rintro g rfl; exact (hf g hm).1
    · rintro g rfl
      exact within_lim o g (hf g hm).2 hmin.1 hmin.2 (hf g hm).1.val
  have := handleLoop_good o kb sep err hsep xs ((join sep (xs.map Prod.fst)).length + 1) 0 false st
    (by simpa [xs] using hne) hg (by omega)
  rw [e3, e2, e1] at this
  unfold handleOption
  rw [this, stores_pair o (Or.inl hk) h2 _ (by simpa using hne) st]
  simp

example : handleOption { kind := .val } 1024 "4k-1m".toList (⟨0, 0, 0⟩, false) =
    some (true, ⟨4096, 1048576, 0⟩, false) := by
  refine C44_pair { kind := .val } 1024 '-' [some ⟨['4'], ['k'], 1024⟩, some ⟨['1'], ['m'], 1048576⟩]
    ⟨0, 0, 0⟩ false (Or.inr rfl) rfl rfl ⟨by decide, by decide⟩ (Or.inr (Or.inr rfl)) (by simp) (by simp) ?_
  intro f hf
  simp only [List.mem_cons, List.not_mem_nil, or_false, Option.some.injEq] at hf
  rcases hf with rfl | rfl
  · exact ⟨⟨⟨by decide, by decide⟩, by decide, by intro c h; simp at h, by decide, by decide⟩, by decide, by simp, by simp⟩
  · exact ⟨⟨⟨by decide, by decide⟩, by decide, by intro c h; simp at h, by decide, by decide⟩, by decide, by simp, by simp⟩

/-- **C44** (limits).  A number below `minval` or above `maxval` is refused and nothing is stored. -/
theorem C44_limits (o : Opt) (kb : Nat) (f : Field) (st : Vars) (err : Bool) (hkb : kb = 1000 ∨ kb = 1024)
    (hk : o.kind ≠ .valTime) (hmin : 0 ≤ o.minval ∧ o.minval < 2 ^ 31) (hf : f.Data kb)
    (hint : o.kind = .int → f.value < 2 ^ 31)
    (hout : (f.value : Int) < o.minval ∨ (o.maxval ≠ 0 ∧ o.maxval < f.value)) :
    handleOption o kb f.text (st, err) = some (false, st, err) := by
  have hg := good_data { kind := .ull } kb ',' err (some f) hkb (by decide) (Or.inl rfl) (by simp)
    (by rintro g' h; cases h; exact hf) (by rintro g' h; cases h; simp [tooLarge, tooSmall])
  have hc := hg.chars
  simp only [textOf] at hc
  have hp := hg.parse [] (by simp) (by simp) (by simp) (by simp)
  simp only [textOf, List.append_nil, valueOf, Option.map_some, parseOne, reduceCtorEq, if_false] at hp
  have hl : (tooLarge o f.value || tooSmall o f.value) = true := by
    have hv' : f.value < 9223372036854775807 := hf.val
    have h31 : o.minval < 2147483648 := hmin.2
    rw [Bool.or_eq_true]
    rcases hout with h | ⟨h1, h2⟩
    · right
      unfold tooSmall toULL
      rw [if_neg (by omega)]
      split
      next hi => rw [toInt_small (hint hi), decide_eq_true_eq]; exact h
      next => rw [decide_eq_true_eq]; omega
    · left
      unfold tooLarge toULL
      rw [if_neg h1]
      split
      next hi =>
        have h3 : f.value < 2147483648 := hint hi
        rw [toInt_small (hint hi), if_neg (by omega), decide_eq_true_eq]
        omega
      next => rw [decide_eq_true_eq]; omega
  have hone : handleOne o kb f.text true false 0 (st, err) = (false, st, err) := by
    unfold handleOne
    rw [if_neg (fun h => hc.2.2.2 (List.mem_of_getLast? h))]
    have htmp : (f.text.take 127).takeWhile (fun c => c != ',') = f.text := by
      obtain ⟨r', e, h, _⟩ := tmp_eq (sep := ',') f.text [] [] hc.1 hf.len (Or.inl rfl)
      rw [List.append_nil] at e
      rw [e, h rfl, List.append_nil]
    simp only [htmp, if_neg hk, hp, hl, if_true]
  unfold handleOption handleLoop
  rw [split_last ⟨hc.1, hc.2.1, hc.2.2.1⟩]
  simp [hone]

/-- `iodepth=0` (whose `minval` is 1) is refused. -/
example : handleOption { kind := .int, minval := 1, off2 := false, off3 := false } 1024 "0".toList (⟨1, 0, 0⟩, false) =
    some (false, ⟨1, 0, 0⟩, false) :=
  C44_limits { kind := .int, minval := 1, off2 := false, off3 := false } 1024 ⟨['0'], [], 1⟩ ⟨1, 0, 0⟩ false (Or.inr rfl)
    (by decide) ⟨by decide, by decide⟩ ⟨⟨by decide, by decide⟩, by decide, by intro c h; simp at h, by decide, by decide⟩
    (by decide) (Or.inl (by decide))

/-- It is a number with a documented time suffix (other than `sec`), not too long. -/
structure Field.Time (isSeconds : Bool) (f : Field) : Prop where
  dec : IsDec f.ds
  unit : timeUnit (if isSeconds then 1000000 else 1) f.sfx = some f.unit
  noSec : f.sfx.map Char.toLower ≠ "sec".toList
  len : f.text.length ≤ 127
  val : f.value < 2 ^ 63 - 1

theorem time_chars {dflt u : Nat} {sfx : Str} (h : (sfx.map lower, u) ∈ times dflt) :
    ∀ c ∈ sfx, c ≠ ',' ∧ c ≠ ':' ∧ c ≠ '-' ∧ c ≠ 'z' := by
  intro c hc
  have h1 := times_chars dflt _ h (lower c) (List.mem_map_of_mem hc)
  have h2 := lower_small h1.1 h1.2.1
  refine ⟨?_, ?_, ?_, ?_⟩
  · rintro rfl; exact absurd h2 (by decide)
  · rintro rfl; exact absurd h2 (by decide)
  · rintro rfl; exact absurd h2 (by decide)
  · rintro rfl
    simp only [times, List.mem_cons, List.not_mem_nil, or_false, Prod.mk.injEq] at h
    have hz : 'z' ∈ sfx.map lower := List.mem_map.mpr ⟨'z', hc, by decide⟩
    rcases h with h | h | h | h | h | h | h | h | h <;> rw [h.1] at hz <;> exact absurd hz (by decide)

/-- **C44** (two times).  The same for the options that are times, such as `startdelay`, as far as the separator is a
comma. -/
theorem C44_time (o : Opt) (kb : Nat) (fs : List (Option Field)) (st : Vars) (err : Bool) (hk : o.kind = .valTime)
    (h2 : o.off2 = true) (hmin : 0 ≤ o.minval ∧ o.minval < 2 ^ 31) (hne : fs ≠ [])
    (hf : ∀ f, some f ∈ fs → f.Time o.isSeconds ∧ f.Within o) :
    handleOption o kb (join ',' (fs.map textOf)) (st, err) =
      some (fs.any Option.isSome, ⟨listValue (fs.map valueOf) 0 st.v1, ((fs.map valueOf).getLast?.join).getD st.v2,
        st.v3⟩, err) := by
  let xs := fs.map fun f => (textOf f, valueOf f)
  have e1 : xs.map Prod.fst = fs.map textOf := by simp [xs, Function.comp_def]
  have e2 : xs.map Prod.snd = fs.map valueOf := by simp [xs, Function.comp_def]
  have e3 : (xs.any fun x => x.2.isSome) = fs.any Option.isSome := by
    simp [xs, Function.comp_def, valueOf]
  have hg : ∀ x ∈ xs, Good o kb ',' err x := by
    intro x hx
    obtain ⟨f, hm, rfl⟩ := List.mem_map.mp hx
    cases f with
    | none =>
      refine ⟨by simp [textOf], by simp, by simp [textOf], by simp, ?_, by simp [valueOf]⟩
      intro r hr _ _ _
      rw [hr rfl]
      simp [textOf, valueOf, parseOne, hk, checkStrTime, strToDecimal]
    | some g =>
      have hg := (hf g hm).1
      have hmem := timeUnit_mem hg.unit hg.noSec
      rw [← map_lower] at hmem
      have hc := time_chars hmem
      refine ⟨?_, by simp, hg.len, by simp, ?_, ?_⟩
      · simp only [textOf, Field.text, List.mem_append, not_or]
        refine ⟨⟨?_, ?_⟩, ⟨?_, ?_⟩, ⟨?_, ?_⟩, ?_, ?_⟩ <;> intro hm
        · have := dec_digit (hg.dec.2 _ hm); simp_all
        · exact (hc _ hm).1 rfl
        · have := dec_digit (hg.dec.2 _ hm); simp_all
        · exact (hc _ hm).2.1 rfl
        · have := dec_digit (hg.dec.2 _ hm); simp_all
        · exact (hc _ hm).2.2.1 rfl
        · have := dec_digit (hg.dec.2 _ hm); simp_all
        · exact (hc _ hm).2.2.2 rfl
      · intro r hr _ _ _
        rw [hr rfl]
        have := C43_time .none o.isSeconds g.unit g.ds g.sfx err hg.dec hg.unit hg.noSec hg.val
        simpa [Sign.text, Sign.apply, Field.value, textOf, Field.text, valueOf, parseOne, hk] using this
      · intro v hv
        simp only [valueOf, Option.map_some, Option.some.injEq] at hv
        exact hv ▸ within_lim o g (hf g hm).2 hmin.1 hmin.2 hg.val
  have := handleLoop_good o kb ',' err (Or.inl rfl) xs ((join ',' (xs.map Prod.fst)).length + 1) 0 false st
    (by simpa [xs] using hne) hg (by omega)
  rw [e3, e2, e1] at this
  unfold handleOption
  rw [this, stores_pair o (Or.inr hk) h2 _ (by simpa using hne) st]
  simp

/-- `startdelay=1s,5s`. -/
example : handleOption { kind := .valTime, isSeconds := true } 1024 "1s,5s".toList (⟨0, 0, 0⟩, false) =
    some (true, ⟨1000000, 5000000, 0⟩, false) := by
  refine C44_time { kind := .valTime, isSeconds := true } 1024 [some ⟨['1'], ['s'], 1000000⟩, some ⟨['5'], ['s'], 1000000⟩]
    ⟨0, 0, 0⟩ false rfl rfl ⟨by decide, by decide⟩ (by simp) ?_
  intro f hf
  simp only [List.mem_cons, List.not_mem_nil, or_false, Option.some.injEq] at hf
  rcases hf with rfl | rfl
  · exact ⟨⟨⟨by decide, by decide⟩, by decide, by decide, by decide, by decide⟩, by decide, by simp, by simp⟩
  · exact ⟨⟨⟨by decide, by decide⟩, by decide, by decide, by decide, by decide⟩, by decide, by simp, by simp⟩

/-- HOWTO.rst:588 and the description of `startdelay`: a range of times is written with `-` or `:`.  But then the unit
of the first value is not understood, as `get_mult_time` compares the whole rest of the string with `s`:
`startdelay=1s-5s` is a delay between one *microsecond* and five seconds. -/
theorem C44_time_range_counterexample :
    handleOption { kind := .valTime, isSeconds := true } 1024 "1s-5s".toList (⟨0, 0, 0⟩, false) =
      some (true, ⟨1, 5000000, 0⟩, false) ∧
    handleOption { kind := .valTime, isSeconds := true } 1024 "1s:5s".toList (⟨0, 0, 0⟩, false) =
      some (true, ⟨1, 5000000, 0⟩, false) := by
  decide +kernel

/-- `FIO_OPT_INT` options are cut to 32 bits before they are compared with the limits and stored: `iodepth=4294967297`
(whose `minval` is 1) is accepted and means 1. -/
theorem C44_int_counterexample :
    handleOption { kind := .int, minval := 1, off2 := false, off3 := false } 1024 "4294967297".toList
      (⟨1, 0, 0⟩, false) = some (true, ⟨1, 0, 0⟩, false) := by
  decide +kernel

/-- An error in a later value is not noticed once one value was good: `bs=8k,foo` is accepted, the block size of
writes stays at the default. -/
theorem C44_error_counterexample :
    handleOption { kind := .ull, minval := 1 } 1024 "8k,foo".toList (⟨4096, 4096, 4096⟩, false) =
      some (true, ⟨8192, 4096, 4096⟩, false) := by
  decide +kernel

/-! ## Ranges -/

/-- A range: two numbers and the character between them. -/
structure RField where
  lo : Field
  hi : Field
  sep : Char

/-- Its text. -/
def RField.text (f : RField) : List Char := f.lo.text ++ f.sep :: f.hi.text

/-- What it means: the two numbers, the smaller one first (HOWTO.rst:590). -/
def RField.value (f : RField) : Int × Int := (min f.lo.value f.hi.value, max f.lo.value f.hi.value)

/-- The text of a range that may have been left out. -/
def rtextOf : Option RField → List Char
  | none => []
  | some f => f.text

/-- It is made of two documented numbers, with `-` or `:` between them, and not too long. -/
structure RField.Ok (kb : Nat) (f : RField) : Prop where
  lo : f.lo.Data kb
  hi : f.hi.Data kb
  sep : f.sep = '-' ∨ f.sep = ':'
  len : f.text.length ≤ 127

theorem data_chars {kb : Nat} {g : Field} (hkb : kb = 1000 ∨ kb = 1024) (hg : g.Data kb) :
    ',' ∉ g.text ∧ ':' ∉ g.text ∧ '-' ∉ g.text := by
  have := (good_data { kind := .ull } kb ',' false (some g) hkb (by decide) (Or.inl rfl) (by simp)
    (by rintro g' h; cases h; exact hg) (by rintro g' h; cases h; simp [tooLarge, tooSmall])).chars
  exact ⟨this.1, this.2.1, this.2.2.1⟩

theorem check_data {kb : Nat} {g : Field} (hkb : kb = 1000 ∨ kb = 1024) (hg : g.Data kb) (err : Bool) :
    checkStrBytes g.text kb err = (some (g.value : Int), err) := by
  have := C43_data .none kb g.unit g.ds g.sfx err hkb hg.dec hg.unit hg.noKi hg.val
  simpa [Sign.text, Sign.apply, Field.value, Field.text] using this

/-- The effect of one range. -/
def rstore (first more : Bool) (curr : Nat) (r : Int × Int) (s : Ranges) : Ranges :=
  let s := if first then { s with r1 := r } else s
  let s := if curr = 1 then { s with r2 := r } else s
  let s := if curr = 2 then { s with r3 := r } else s
  let s := if !more ∧ curr < 1 then { s with r2 := r } else s
  if !more ∧ curr < 2 then { s with r3 := r } else s

/-- The effect of a range that may have been left out. -/
def rapply (first more : Bool) (curr : Nat) (f : Option (Int × Int)) (s : Ranges) : Ranges :=
  match f with
  | none => s
  | some r => rstore first more curr r s

theorem handleRange_good (kb : Nat) (f : Option RField) (hkb : kb = 1000 ∨ kb = 1024) (hf : ∀ g, f = some g → g.Ok kb)
    (r q : Str) (hr : r = [] ∨ r = ',' :: q) (first more : Bool) (curr : Nat) (st : Ranges) (err : Bool) :
    handleRange kb (rtextOf f ++ r) first more curr (st, err) =
      (f.isSome, rapply first more curr (f.map RField.value) st, err) := by
  have htmp : ∀ t : Str, ',' ∉ t → t.length ≤ 127 → ((t ++ r).take 127).takeWhile (fun c => c != ',') = t := by
    intro t h1 h2
    obtain ⟨r', e, h, _⟩ := tmp_eq t r q h1 h2 hr
    rw [e, h rfl, List.append_nil]
  cases f with
  | none =>
    unfold handleRange
    simp only [rtextOf]
    rw [htmp [] (by simp) (by simp)]
    simp [strchr, rapply]
  | some g =>
    have hg := hf g rfl
    have hlo := data_chars hkb hg.lo
    have hhi := data_chars hkb hg.hi
    have hcomma : ',' ∉ g.text := by
      unfold RField.text
      simp only [List.mem_append, List.mem_cons, not_or]
      exact ⟨hlo.1, by rcases hg.sep with h | h <;> rw [h] <;> decide, hhi.1⟩
    have hsplit : ((strchr g.text '-').orElse fun _ => strchr g.text ':') = some (g.lo.text, g.hi.text) := by
      unfold RField.text
      rcases hg.sep with h | h <;> rw [h]
      · rw [strchr_some hlo.2.2]; rfl
      · rw [strchr_none, strchr_some hlo.2.1]
        · rfl
        · simp only [List.mem_append, List.mem_cons, not_or]
          exact ⟨hlo.2.2, by decide, hhi.2.2⟩
    unfold handleRange
    simp only [rtextOf]
    rw [htmp g.text hcomma hg.len, hsplit]
    simp only [check_data hkb hg.lo, check_data hkb hg.hi]
    have hv : (if (g.hi.value : Int) < g.lo.value then ((g.hi.value : Int), (g.lo.value : Int))
        else ((g.lo.value : Int), (g.hi.value : Int))) = g.value := by
      unfold RField.value
      split <;> (congr 1 <;> omega)
    rw [hv]
    rfl

/-- The assignments one after the other. -/
def rstores : Nat → List (Option (Int × Int)) → Ranges → Ranges
  | _, [], st => st
  | k, f :: fs, st => rstores (k + 1) fs (rapply (k = 0) (!fs.isEmpty) k f st)

theorem rangeLoop_good (kb : Nat) (err : Bool) (hkb : kb = 1000 ∨ kb = 1024) : ∀ (xs : List (Option RField))
    (fuel done : Nat) (ok : Bool) (st : Ranges), xs ≠ [] → (∀ g, some g ∈ xs → g.Ok kb) →
    (join ',' (xs.map rtextOf)).length < fuel →
    rangeLoop kb fuel (join ',' (xs.map rtextOf)) done ok (st, err) =
      some (ok || xs.any Option.isSome, rstores done (xs.map (Option.map RField.value)) st, err) := by
  intro xs
  induction xs with
  | nil => intro fuel done ok st h; exact absurd rfl h
  | cons x xs ih =>
    intro fuel done ok st _ hg hf
    have hx : ∀ g, x = some g → g.Ok kb := by rintro g rfl; exact hg g (by simp)
    have hcomma : ',' ∉ rtextOf x := by
      cases x with
      | none => simp [rtextOf]
      | some g =>
        have := hx g rfl
        unfold rtextOf RField.text
        simp only [List.mem_append, List.mem_cons, not_or]
        exact ⟨(data_chars hkb this.lo).1, by rcases this.sep with h | h <;> rw [h] <;> decide,
          (data_chars hkb this.hi).1⟩
    cases fuel with
    | zero => omega
    | succ fuel =>
      cases xs with
      | nil =>
        simp only [List.map_cons, List.map_nil, join]
        unfold rangeLoop
        have h0 : splitComma (rtextOf x) = (rtextOf x, none) := by unfold splitComma; rw [strchr_none hcomma]
        rw [h0]
        have h1 := handleRange_good kb x hkb hx [] [] (Or.inl rfl) (decide (done = 0)) false done st err
        simp only [List.append_nil] at h1
        simp only [Option.isSome_none, h1]
        simp [rstores]
      | cons y ys =>
        simp only [List.map_cons] at hf ⊢
        rw [join_cons_cons] at hf ⊢
        have hq : join ',' (rtextOf y :: ys.map rtextOf) = join ',' ((y :: ys).map rtextOf) := rfl
        rw [hq] at hf ⊢
        generalize hQ : join ',' ((y :: ys).map rtextOf) = q at *
        obtain ⟨r, h1, h2⟩ : ∃ r, splitComma (rtextOf x ++ ',' :: q) = (rtextOf x ++ r, some q) ∧
            (r = [] ∨ r = ',' :: q) := by
          unfold splitComma
          rw [strchr_some hcomma]
          cases q with
          | nil => exact ⟨[], by simp, Or.inl rfl⟩
          | cons a q => exact ⟨',' :: a :: q, by simp, Or.inr rfl⟩
        unfold rangeLoop
        rw [h1]
        simp only [handleRange_good kb x hkb hx r q h2, Option.isSome_some]
        have := ih fuel (done + 1) (ok || x.isSome)
          (rapply (decide (done = 0)) true done (x.map RField.value) st) (by simp)
          (fun g hm => hg g (List.mem_cons_of_mem _ hm))
          (by simp only [List.length_append, List.length_cons] at hf; omega)
        rw [this]
        simp [rstores, Bool.or_assoc]

theorem rstores_beyond : ∀ (fs : List (Option (Int × Int))) (k : Nat) (st : Ranges), 3 ≤ k → rstores k fs st = st := by
  intro fs
  induction fs with
  | nil => intro k st _; rfl
  | cons f fs ih =>
    intro k st h
    unfold rstores
    rw [ih (k + 1) _ (by omega)]
    cases f with
    | none => rfl
    | some v =>
      have h0 : k ≠ 0 := by omega
      have h1 : k ≠ 1 := by omega
      have h2 : k ≠ 2 := by omega
      have h3 : ¬k < 2 := by omega
      simp [rapply, rstore, h0, h1, h2, h3]

theorem rstores_eq (fs : List (Option (Int × Int))) (hne : fs ≠ []) (st : Ranges) :
    rstores 0 fs st = ⟨listValue fs 0 st.r1, listValue fs 1 st.r2, listValue fs 2 st.r3⟩ := by
  match fs, hne with
  | [f], _ => cases f <;> simp [rstores, listValue, rapply, rstore]
  | [f, g], _ => cases f <;> cases g <;> simp [rstores, listValue, rapply, rstore]
  | [f, g, h], _ => cases f <;> cases g <;> cases h <;> simp [rstores, listValue, rapply, rstore]
  | f :: g :: h :: k :: t, _ =>
    have e : rstores 0 (f :: g :: h :: k :: t) st = rstores 3 (k :: t) (rstores 0 [f, g, h, none] st) := by
      simp [rstores, rapply]
    rw [e, rstores_beyond _ 3 _ (by omega)]
    cases f <;> cases g <;> cases h <;> simp [rstores, listValue, rapply, rstore]

/-- **C44** (ranges).  A list of ranges of documented numbers, separated by commas, sets the ranges for reads, writes
and trims as documented, the smaller number of each first. -/
theorem C44_range (kb : Nat) (fs : List (Option RField)) (st : Ranges) (err : Bool) (hkb : kb = 1000 ∨ kb = 1024)
    (hne : fs ≠ []) (hf : ∀ f, some f ∈ fs → f.Ok kb) :
    handleRangeOption kb (join ',' (fs.map rtextOf)) (st, err) =
      some (fs.any Option.isSome, ⟨listValue (fs.map (Option.map RField.value)) 0 st.r1,
        listValue (fs.map (Option.map RField.value)) 1 st.r2,
        listValue (fs.map (Option.map RField.value)) 2 st.r3⟩, err) := by
  unfold handleRangeOption
  rw [rangeLoop_good kb err hkb fs _ 0 false st hne hf (by omega), rstores_eq _ (by simpa using hne)]
  simp

/-- `bsrange=16k-4k,,1k:2k`: 4k to 16k for reads, 1k to 2k for trims, the default for writes. -/
example : handleRangeOption 1024 "16k-4k,,1k:2k".toList (⟨(1, 1), (1, 1), (1, 1)⟩, false) =
    some (true, ⟨(4096, 16384), (1, 1), (1024, 2048)⟩, false) := by
  have := C44_range 1024 [some ⟨⟨['1', '6'], ['k'], 1024⟩, ⟨['4'], ['k'], 1024⟩, '-'⟩, none,
    some ⟨⟨['1'], ['k'], 1024⟩, ⟨['2'], ['k'], 1024⟩, ':'⟩] ⟨(1, 1), (1, 1), (1, 1)⟩ false (Or.inr rfl) (by simp) ?_
  · rw [show "16k-4k,,1k:2k".toList = join ',' ([some ⟨⟨['1', '6'], ['k'], 1024⟩, ⟨['4'], ['k'], 1024⟩, '-'⟩, none,
      some ⟨⟨['1'], ['k'], 1024⟩, ⟨['2'], ['k'], 1024⟩, ':'⟩].map rtextOf) from by decide, this]
    decide +kernel
  intro f hf
  simp only [List.mem_cons, List.not_mem_nil, or_false, Option.some.injEq, reduceCtorEq, false_or] at hf
  rcases hf with rfl | rfl
  · exact ⟨⟨⟨by decide, by decide⟩, by decide, by intro c h; simp at h, by decide, by decide⟩,
      ⟨⟨by decide, by decide⟩, by decide, by intro c h; simp at h, by decide, by decide⟩, Or.inl rfl, by decide⟩
  · exact ⟨⟨⟨by decide, by decide⟩, by decide, by intro c h; simp at h, by decide, by decide⟩,
      ⟨⟨by decide, by decide⟩, by decide, by intro c h; simp at h, by decide, by decide⟩, Or.inr rfl, by decide⟩

end Fio.Parse
