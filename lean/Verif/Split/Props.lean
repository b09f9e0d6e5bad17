import Verif.Split.Lemmas

/-! # C76: block sizes come in the shares the option asks for -/

namespace Fio.Split

open IoGen

/-- An option that makes sense: up to 64 sizes greater than 0, percentages from 1 to 100 that add up to
at most 100. -/
structure Good (l : List (Nat × Option Nat)) : Prop where
  ne : l ≠ []
  few : l.length ≤ 64
  size : ∀ x ∈ l, 0 < x.1 ∧ x.1 < 2 ^ 63
  perc : ∀ x ∈ l, ∀ p, x.2 = some p → 1 ≤ p ∧ p ≤ 100
  sum : given l ≤ 100

/-- The option as the parser sees it. -/
def text (l : List (Nat × Option Nat)) : List (Nat × Option Int) :=
  l.map fun x => (x.1, x.2.map Int.ofNat)

theorem rawPerc_ofNat {p : Nat} (h1 : 1 ≤ p) (h2 : p ≤ 100) : rawPerc (some (Int.ofNat p)) = p := by
  unfold rawPerc
  have : ((Int.ofNat p) % 2 ^ 64).toNat = p := by
    simp only [Int.ofNat_eq_natCast]
    omega
  simp only [this]
  rw [if_neg (by omega), if_neg (by omega)]

/-- The percentage stored for an entry before the rest is shared. -/
def code (x : Nat × Option Nat) : Nat × Nat := (x.1, x.2.getD (2 ^ 32 - 1))

theorem splitParse_text {l : List (Nat × Option Nat)} (h : Good l) :
    splitParse (text l) = l.map code := by
  unfold splitParse text
  rw [List.take_of_length_le (by simpa using h.few), List.map_map]
  apply List.map_congr_left
  intro x hx
  obtain ⟨b, p⟩ := x
  cases p with
  | none => simp [code, rawPerc]
  | some p =>
    have := h.perc _ hx p rfl
    simp only [Function.comp_apply, code, Option.map_some, Option.getD_some]
    rw [rawPerc_ofNat this.1 this.2]

theorem code_unset {l : List (Nat × Option Nat)} (h : ∀ x ∈ l, ∀ p, x.2 = some p → 1 ≤ p ∧ p ≤ 100)
    {x : Nat × Option Nat} (hx : x ∈ l) : (code x).2 = 2 ^ 32 - 1 ↔ x.2 = none := by
  obtain ⟨b, p⟩ := x
  cases p with
  | none => simp [code]
  | some p => have := h _ hx p rfl; simp [code]; omega

theorem foldl_mod : ∀ (l : List Nat) (a : Nat), a < 2 ^ 32 →
    l.foldl (fun a b => (a + b) % 2 ^ 32) a = (a + l.sum) % 2 ^ 32
  | [], a, h => by simp only [List.foldl_nil, List.sum_nil, Nat.add_zero]; rw [Nat.mod_eq_of_lt h]
  | b :: l, a, h => by
    rw [List.foldl_cons, foldl_mod l _ (Nat.mod_lt _ (by decide)), List.sum_cons]
    omega

theorem missing_eq : ∀ (l : List (Nat × Option Nat)),
    (∀ x ∈ l, ∀ p, x.2 = some p → 1 ≤ p ∧ p ≤ 100) →
    ((l.map code).filter fun x => x.2 = 2 ^ 32 - 1).length = unset l ∧
    (((l.map code).filter fun x => x.2 ≠ 2 ^ 32 - 1).map (·.2)).sum = given l
  | [], _ => by simp [unset, given]
  | x :: l, h => by
    have ih := missing_eq l fun y hy => h y (List.mem_cons_of_mem _ hy)
    have hx := code_unset h (x := x) List.mem_cons_self
    obtain ⟨b, p⟩ := x
    cases p with
    | none =>
      have hc : (code (b, none)).2 = 2 ^ 32 - 1 := rfl
      unfold unset given at *
      simp only [List.map_cons, List.filter_cons, hc, decide_true, ite_true, List.length_cons, ih.1,
        Option.isNone_none, ne_eq, not_true_eq_false, decide_false, Bool.false_eq_true, ite_false,
        Option.getD_none, List.sum_cons, Nat.zero_add]
      exact ⟨trivial, ih.2⟩
    | some p =>
      have hc : ¬ (code (b, some p)).2 = 2 ^ 32 - 1 := fun e => by simpa using hx.1 e
      unfold unset given at *
      simp only [List.map_cons, List.filter_cons, hc, decide_false, Bool.false_eq_true, ite_false,
        Option.isNone_some, ne_eq, not_false_eq_true, decide_true, ite_true,
        Option.getD_some, List.sum_cons]
      exact ⟨ih.1, by rw [← ih.2]; rfl⟩

theorem ddir_eq {l : List (Nat × Option Nat)} (h : Good l) (hl : l.length ≠ 1) :
    ∃ mn mx, bssplitDdir (splitParse (text l)) = some (mn, mx, l.map fun x => (x.1, share l x)) := by
  rw [splitParse_text h]
  unfold bssplitDdir
  obtain ⟨h1, h2⟩ := missing_eq l h.perc
  simp only [h1, List.length_map]
  rw [foldl_mod _ _ (by decide), h2]
  have hs := h.sum
  rw [Nat.zero_add, Nat.mod_eq_of_lt (by omega), if_neg (by omega), if_neg (by omega)]
  refine ⟨_, _, congrArg some (Prod.ext rfl (Prod.ext rfl ?_))⟩
  dsimp only
  rw [List.map_map]
  apply List.map_congr_left
  intro x hx
  have hc := code_unset h.perc hx
  have e : (2 ^ 32 + 100 - given l) % 2 ^ 32 = 100 - given l := by omega
  simp only [Function.comp_apply]
  obtain ⟨b, p⟩ := x
  cases p with
  | none =>
    rw [if_pos (hc.2 rfl), e]
    simp [code, share]
  | some p =>
    rw [if_neg (fun e => by simpa using hc.1 e)]
    simp [code, share]

theorem wsum_map (l m : List (Nat × Option Nat)) (s : Nat) :
    wsum (m.map fun x => (x.1, share l x)) s = ((m.filter fun x => x.1 = s).map (share l)).sum := by
  induction m with
  | nil => simp [wsum]
  | cons x m ih =>
    rw [List.map_cons, wsum_cons, ih]
    by_cases h : x.1 = s
    · simp [h]
    · simp [h]

theorem perm_sums {l m : List (Nat × Nat)} (h : l.Perm m) (s : Nat) : wsum l s = wsum m s ∧ psum l = psum m :=
  ⟨((h.filter _).map _).sum_nat, (h.map _).sum_nat⟩

theorem total_le {l : List (Nat × Option Nat)} (h : given l ≤ 100) : total l ≤ 100 := by
  have key : ∀ (m : List (Nat × Option Nat)), (m.map (share l)).sum =
      given m + unset m * ((100 - given l) / unset l) := by
    intro m
    induction m with
    | nil => simp [given, unset]
    | cons x m ih =>
      obtain ⟨b, p⟩ := x
      cases p with
      | none =>
        simp only [List.map_cons, List.sum_cons, ih]
        simp only [share, given, unset, List.map_cons, List.filter_cons, Option.isNone_none, ite_true,
          List.length_cons, Option.getD_none, List.sum_cons, Nat.add_mul]
        omega
      | some p =>
        simp only [List.map_cons, List.sum_cons, ih]
        simp [share, given, unset]
        omega
  unfold total
  rw [key]
  have := Nat.mul_div_le (100 - given l) (unset l)
  omega

theorem want_le (l : List (Nat × Option Nat)) (s : Nat) : want l s ≤ total l := by
  have h := wsum_le (l.map fun x => (x.1, share l x)) s
  rw [wsum_map] at h
  have e : psum (l.map fun x => (x.1, share l x)) = total l := by
    simp [psum, total, Function.comp_def]
  rw [e] at h
  exact h

theorem roundLen_id {u : Bool} {mn mx v : Nat} (h : u = true ∨ mn ∣ v) (hv : v ≤ mx) :
    roundLen u mn mx v = v := by
  unfold roundLen
  have : (if u then v else v - v % mn) = v := by
    split
    · rfl
    · rename_i hu
      have := Nat.mod_eq_zero_of_dvd (h.resolve_left hu)
      omega
  simp only [this]
  rw [if_neg (by omega)]

/-- What `Parsed` says about the smallest and the greatest size. -/
theorem parsed_range {l : List (Nat × Option Nat)} (h : Good l) {o : Opts} {d : Dir}
    (hp : Parsed (text l) o d) :
    (∀ x ∈ l, o.minBs d ≤ x.1 ∧ x.1 ≤ o.maxBs d) ∧ (∃ x ∈ l, x.1 = o.minBs d) ∧ (∃ x ∈ l, x.1 = o.maxBs d) := by
  obtain ⟨_, m, hm, _⟩ := hp
  rw [splitParse_text h] at hm
  unfold bssplitDdir at hm
  simp only at hm
  split at hm
  · exact absurd hm (by simp)
  simp only [Option.some.injEq, Prod.mk.injEq] at hm
  obtain ⟨h1, h2, -⟩ := hm
  have fm : ∀ (l : List (Nat × Option Nat)) (a : Nat),
      (l.map code).foldl (fun m x => if x.1 < m then x.1 else m) a = a ∨
      ∃ x ∈ l, x.1 = (l.map code).foldl (fun m x => if x.1 < m then x.1 else m) a := by
    intro l
    induction l with
    | nil => intro a; left; rfl
    | cons x l ih =>
      intro a
      simp only [List.map_cons, List.foldl_cons]
      rcases ih (if (code x).1 < a then (code x).1 else a) with h | ⟨y, hy, h⟩
      · rw [h]
        split
        · right; exact ⟨x, List.mem_cons_self, rfl⟩
        · left; rfl
      · right; exact ⟨y, List.mem_cons_of_mem _ hy, h⟩
  have fx : ∀ (l : List (Nat × Option Nat)) (a : Nat),
      (l.map code).foldl (fun m x => if x.1 > m then x.1 else m) a = a ∨
      ∃ x ∈ l, x.1 = (l.map code).foldl (fun m x => if x.1 > m then x.1 else m) a := by
    intro l
    induction l with
    | nil => intro a; left; rfl
    | cons x l ih =>
      intro a
      simp only [List.map_cons, List.foldl_cons]
      rcases ih (if (code x).1 > a then (code x).1 else a) with h | ⟨y, hy, h⟩
      · rw [h]
        split
        · right; exact ⟨x, List.mem_cons_self, rfl⟩
        · left; rfl
      · right; exact ⟨y, List.mem_cons_of_mem _ hy, h⟩
  have k1 := (foldl_min_le (l.map code) m1)
  have k2 := (foldl_le_max (l.map code) 0)
  rw [h1] at k1
  rw [h2] at k2
  have all : ∀ x ∈ l, o.minBs d ≤ x.1 ∧ x.1 ≤ o.maxBs d := fun x hx =>
    ⟨k1.2 (code x) (List.mem_map_of_mem hx), k2.2 (code x) (List.mem_map_of_mem hx)⟩
  obtain ⟨y, hy⟩ := List.exists_mem_of_ne_nil _ h.ne
  have hs := h.size y hy
  refine ⟨all, ?_, ?_⟩
  · rcases fm l m1 with e | e
    · rw [h1] at e
      have := (all y hy).1
      rw [e] at this
      unfold m1 at this
      omega
    · rw [h1] at e; exact e
  · rcases fx l 0 with e | e
    · rw [h2] at e
      have := (all y hy).2
      omega
    · rw [h2] at e; exact e

/-- C76: take any option that makes sense and an I/O at a place with room for each of its sizes, all
multiples of the smallest one (or bs_unaligned). Of all random numbers, the part that gives size `s`
is the percentage asked for `s`; if the percentages do not add up to 100, one size gets the rest too.
Up to 84 of the 2^32 or 2^64 numbers. -/
theorem C76_share_partial {l : List (Nat × Option Nat)} (h : Good l) {o : Opts} {d0 d : Dir} {f : File}
    {off bits s : Nat} {isRandom : Bool} {e : Draws} {rest : List Nat}
    (hp : Parsed (text l) o d) (hd : lenDir o d0 isRandom = d) (ht : o.randTrimWrite = false)
    (hb : bits = 32 ∨ bits = 64)
    (hroom : ∀ x ∈ l, off + x.1 ≤ f.ioSize + f.startOff) (hfit : f.ioSize + f.startOff < 2 ^ 64)
    (hal : o.bsUnaligned = true ∨ ∃ m ∈ l, ∀ x ∈ l, m.1 ∣ x.1) :
    let n := howMany bits fun r =>
      nextLen o f d0 off isRandom { e with bits := bits, bs := r :: rest } == some s
    want l s * 2 ^ bits ≤ 100 * (n + 84) ∧
    100 * n ≤ (want l s + (100 - total l)) * (2 ^ bits + 84) := by
  intro n
  obtain ⟨hrange, ⟨xm, hxm, hmin⟩, ⟨xM, hxM, hmax⟩⟩ := parsed_range h hp
  have fit : ∀ x ∈ l, fits f off x.1 = true := by
    intro x hx
    have := hroom x hx
    unfold fits add64
    rw [Nat.mod_eq_of_lt (by omega), Nat.mod_eq_of_lt hfit]
    exact decide_eq_true this
  have htl := total_le h.sum
  have hwl := want_le l s
  by_cases heq : o.minBs d = o.maxBs d
  · -- one size only
    have hone : ∀ x ∈ l, x.1 = o.minBs d := fun x hx => by have := hrange x hx; omega
    have hn : ∀ r, nextLen o f d0 off isRandom { e with bits := bits, bs := r :: rest } =
        some (o.minBs d) := by
      intro r
      unfold nextLen
      rw [if_neg (by simp [ht])]
      simp only [hd]
      rw [if_pos heq]
    by_cases hs : s = o.minBs d
    · have e1 : n = 2 ^ bits := by
        show howMany bits _ = _
        unfold howMany
        rw [Finset.filter_true_of_mem (by intro r _; dsimp only; rw [hn, hs]; simp)]
        simp
      have e2 : want l s = total l := by
        unfold want total
        rw [List.filter_eq_self.2 (by intro x hx; simp [hone x hx, hs])]
      rw [e1, e2]
      have : total l + (100 - total l) = 100 := by omega
      rw [this]
      constructor
      · have := Nat.mul_le_mul_right (2 ^ bits) htl
        omega
      · omega
    · have e1 : n = 0 := by
        show howMany bits _ = _
        unfold howMany
        rw [Finset.filter_false_of_mem (by intro r _; dsimp only; rw [hn]; simp; exact fun e => hs e.symm)]
        simp
      have e2 : want l s = 0 := by
        unfold want
        rw [List.filter_eq_nil_iff.2 (by intro x hx; simp [hone x hx]; exact fun e => hs e.symm)]
        simp
      rw [e1, e2]
      simp
  · have hlen : l.length ≠ 1 := by
      intro h1
      obtain ⟨a, rfl⟩ := List.length_eq_one_iff.1 h1
      simp only [List.mem_singleton] at hxm hxM
      subst hxm; subst hxM; omega
    obtain ⟨_, m, hm, hsort, _⟩ := hp
    obtain ⟨mn, mx, he⟩ := ddir_eq h hlen
    rw [he] at hm
    simp only [Option.some.injEq, Prod.mk.injEq] at hm
    obtain ⟨-, -, rfl⟩ := hm
    obtain ⟨pw, pp⟩ := perm_sums hsort s
    rw [wsum_map] at pw
    have pp' : psum (o.bssplit d) = total l := by
      rw [pp]; simp [psum, total, Function.comp_def]
    have hmem : ∀ x ∈ o.bssplit d, ∃ y ∈ l, y.1 = x.1 := by
      intro x hx
      have := hsort.mem_iff.1 hx
      rw [List.mem_map] at this
      obtain ⟨y, hy, rfl⟩ := this
      exact ⟨y, hy, rfl⟩
    have fit' : ∀ x ∈ o.bssplit d, fits f off x.1 = true := by
      intro x hx
      obtain ⟨y, hy, e⟩ := hmem x hx
      rw [← e]; exact fit y hy
    have hne : o.bssplit d ≠ [] := by
      intro e
      rw [e] at hsort
      have := hsort.length_eq
      simp only [List.length_nil, List.length_map] at this
      exact h.ne (List.eq_nil_of_length_eq_zero this.symm)
    have hmdvd : ∀ x ∈ l, o.bsUnaligned = true ∨ o.minBs d ∣ x.1 := by
      intro x hx
      rcases hal with ha | ⟨m0, hm0, ha⟩
      · exact .inl ha
      · right
        have h1 := Nat.le_of_dvd (h.size xm hxm).1 (ha xm hxm)
        have h2 := (hrange m0 hm0).1
        have : o.minBs d = m0.1 := by omega
        rw [this]; exact ha x hx
    have hstep : ∀ r, nextLen o f d0 off isRandom { e with bits := bits, bs := r :: rest } =
        some (splitPick f off r (2 ^ bits - 1) (o.bssplit d) 0 0) := by
      intro r
      unfold nextLen
      rw [if_neg (by simp [ht])]
      simp only [hd]
      rw [if_neg heq, if_neg (by rw [← hmin]; simp [fit xm hxm])]
      unfold lenLoop
      have hdraw : drawLen o f d off bits r 0 = splitPick f off r (2 ^ bits - 1) (o.bssplit d) 0 0 := by
        unfold drawLen
        split
        · rename_i e; exact absurd e hne
        · rfl
      simp only [hdraw]
      rcases splitPick_mem f off r (2 ^ bits - 1) (o.bssplit d) 0 0 with hz | ⟨x, hx, hz⟩
      · rw [hz, roundLen_id (.inr (Nat.dvd_zero _)) (Nat.zero_le _)]
        rw [if_pos]
        have := hroom xm hxm
        unfold fits add64
        rw [Nat.mod_eq_of_lt (by omega), Nat.mod_eq_of_lt hfit]
        exact decide_eq_true (by omega)
      · obtain ⟨y, hy, e1⟩ := hmem x hx
        rw [hz, ← e1, roundLen_id (hmdvd y hy) (hrange y hy).2, if_pos (fit y hy)]
    have hn : n = num f off (2 ^ bits - 1) (o.bssplit d) 0 0 s 0 (2 ^ bits) := by
      show howMany bits _ = _
      unfold howMany num
      rw [Finset.range_eq_Ico]
      congr 1
      apply Finset.filter_congr
      intro r _
      dsimp only
      rw [hstep]
      simp
    have hK : 2 ^ bits ≤ 100 * ((2 ^ bits - 1) / 100 + 1) ∧
        100 * ((2 ^ bits - 1) / 100 + 1) ≤ 2 ^ bits + 84 ∧ 84 < (2 ^ bits - 1) / 100 + 1 := by
      rcases hb with rfl | rfl <;> decide
    have hbd := num_bounds (f := f) (off := off) (M := 2 ^ bits - 1) (N := 2 ^ bits) (s := s)
      hK.1 hK.2.1 hK.2.2 (o.bssplit d) 0 0 fit' (by omega)
    rw [Nat.zero_mul, ← hn, pp', Nat.sub_zero] at hbd
    have pw' : wsum (o.bssplit d) s = want l s := pw
    rw [pw'] at hbd
    obtain ⟨b1, b2⟩ := hbd
    obtain ⟨k1, k2, -⟩ := hK
    generalize (2 ^ bits - 1) / 100 + 1 = K at *
    generalize 2 ^ bits = N at *
    constructor
    · calc want l s * N ≤ want l s * (100 * K) := Nat.mul_le_mul_left _ k1
        _ = 100 * (want l s * K) := by ring
        _ ≤ 100 * (n + 84) := by omega
    · calc 100 * n ≤ 100 * ((want l s + (100 - total l)) * K) := by omega
        _ = (want l s + (100 - total l)) * (100 * K) := by ring
        _ ≤ _ := Nat.mul_le_mul_left _ k2

end Fio.Split
