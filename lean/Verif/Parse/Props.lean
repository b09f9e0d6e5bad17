import Verif.Parse.Lemmas

/-!
# C43: a number in a job file means what the documentation says

`C43_data`: every decimal number with a documented data suffix, C43_time: with a documented time suffix, C43_percent,
C43_hex, C43_reject, C43_too_big; and where the documentation is not followed (`…_counterexample`).
-/

namespace Fio.Parse
open Spec

theorem wrap_small {i : Int} (h1 : -9223372036854775808 ≤ i) (h2 : i < 9223372036854775808) : wrap i = i := by
  unfold wrap
  omega

theorem units_pos (kb : Nat) (hkb : kb = 1000 ∨ kb = 1024) : ∀ x ∈ units kb, 1 ≤ x.2 := by
  rcases hkb with rfl | rfl <;> decide +kernel

theorem unit_chars {kb u : Nat} {sfx : Str} (hkb : kb = 1000 ∨ kb = 1024) (hu : (sfx.map lower, u) ∈ units kb) :
    ∀ c ∈ sfx, c ≠ 'x' ∧ c ≠ 'X' ∧ c ≠ 'z' ∧ digitVal 10 c = none ∧ c ≠ ',' ∧ c ≠ ':' ∧ c ≠ '-' := by
  intro c hc
  have h := (chain_units kb hkb _ hu).2 (lower c) (List.mem_map_of_mem hc)
  have ha := lower_small h.2.1 h.2.2.1
  refine ⟨?_, ?_, ?_, ?_, ?_, ?_, ?_⟩
  · rintro rfl; exact h.2.2.2.1 rfl
  · rintro rfl; exact h.2.2.2.1 rfl
  · rintro rfl; exact h.2.2.2.2.1 rfl
  · have hnd : isDigit c = false := by
      cases hdig : isDigit c
      · rfl
      · exfalso
        simp only [isDigit, isAlpha, Bool.and_eq_true, Bool.or_eq_true, decide_eq_true_eq, Char.le_def,
          UInt32.le_iff_toNat_le] at hdig ha
        have h9 : '9'.val.toNat = 57 := by decide
        have hA : 'A'.val.toNat = 65 := by decide
        have ha' : 'a'.val.toNat = 97 := by decide
        omega
    simp only [isAlpha, Bool.and_eq_true, Bool.or_eq_true, decide_eq_true_eq] at ha
    unfold digitVal
    simp only [hnd, Bool.false_eq_true, if_false]
    rcases ha with ha | ha
    · rw [if_pos ha]
      simp only [Option.bind_some]
      rw [if_neg]
      have h1 := ha.1
      simp only [Char.le_def, UInt32.le_iff_toNat_le] at h1
      have e : 'a'.val.toNat = 97 := by decide
      have e2 : c.val.toNat = c.toNat := rfl
      omega
    · have : ¬('a' ≤ c ∧ c ≤ 'z') := by
        intro h
        have h1 := h.1
        have h2 := ha.2
        simp only [Char.le_def, UInt32.le_iff_toNat_le] at h1 h2
        have e : 'a'.val.toNat = 97 := by decide
        have e2 : 'Z'.val.toNat = 90 := by decide
        omega
      rw [if_neg this, if_pos ha]
      simp only [Option.bind_some]
      rw [if_neg]
      have h1 := ha.1
      simp only [Char.le_def, UInt32.le_iff_toNat_le] at h1
      have e : 'A'.val.toNat = 65 := by decide
      have e2 : c.val.toNat = c.toNat := rfl
      omega
  · rintro rfl; exact absurd ha (by decide)
  · rintro rfl; exact absurd ha (by decide)
  · rintro rfl; exact absurd ha (by decide)

theorem noHex_of {s : Str} (h1 : 'x' ∉ s) (h2 : 'X' ∉ s) : hasHex s = false := by
  cases h : hasHex s
  · rfl
  · rcases hasHex_x s h with h | h <;> contradiction

theorem sign_chars (g : Sign) (c : Char) (h : c ∈ g.text) : c = '+' ∨ c = '-' := by
  cases g <;> simp_all [Sign.text]

/-- The general form: a number, a suffix, and whatever follows a separator. -/
theorem data_rest (g : Sign) (kb u : Nat) (ds sfx rest : Str) (err : Bool) (hkb : kb = 1000 ∨ kb = 1024)
    (hd : IsDec ds) (hu : (sfx.map lower, u) ∈ units kb) (hv : decVal ds * u < 2 ^ 63 - 1) (hr : Tail rest)
    (hx : 'x' ∉ rest ∧ 'X' ∉ rest) :
    checkStrBytes (g.text ++ (ds ++ (sfx ++ rest))) kb err = (some (g.apply (decVal ds * u)), err) := by
  have hup := units_pos kb hkb _ hu
  have hds : decVal ds < 2 ^ 63 - 1 := Nat.lt_of_le_of_lt (Nat.le_mul_of_pos_right _ hup) hv
  have hc := unit_chars hkb hu
  have hnx : ∀ y, (y = 'x' ∨ y = 'X') → y ∉ g.text ++ (ds ++ (sfx ++ rest)) := by
    intro y hy hm
    simp only [List.mem_append] at hm
    rcases hm with hm | hm | hm | hm
    · rcases sign_chars g y hm with h | h <;> rcases hy with h' | h' <;> rw [h'] at h <;> exact absurd h (by decide)
    · have := dec_digit (hd.2 y hm); rcases hy with h' | h' <;> simp_all
    · have := hc y hm; rcases hy with h' | h' <;> simp_all
    · rcases hy with h' | h' <;> simp_all
  have hnd : NoDigit (sfx ++ rest) := by
    intro c v h
    cases sfx with
    | nil => exact (lower_sep (hr c v h)).2.2.2.2
    | cons a s' =>
      simp only [List.cons_append, List.cons.injEq] at h
      exact h.1 ▸ (hc a (by simp)).2.2.2.1
  have hne : g.text ++ (ds ++ (sfx ++ rest)) ≠ [] := by
    have := hd.1
    simp [this]
  unfold checkStrBytes strToDecimal
  rw [if_neg hne, noHex_of (hnx _ (Or.inl rfl)) (hnx _ (Or.inr rfl))]
  simp only [Bool.false_eq_true, if_false]
  rw [strtoll_dec g ds _ hd hnd (by omega)]
  simp only [Bool.or_false, if_true]
  have hmax : ¬(g.apply (decVal ds) = llMax ∧ err = true) := by
    rintro ⟨h, _⟩
    unfold Sign.apply llMax at h
    have hds' : decVal ds < 9223372036854775807 := hds
    split at h <;> omega
  rw [if_neg hmax, getMultBytes_unit g kb u ds sfx rest hkb hd hu hr]
  simp only [Bool.false_eq_true, if_false]
  have e : g.apply (decVal ds) * (u : Int) = g.apply (decVal ds * u) := by
    unfold Sign.apply
    split <;> push_cast <;> grind
  rw [e, wrap_small]
  all_goals
    unfold Sign.apply
    have hv' : decVal ds * u < 9223372036854775807 := hv
    generalize decVal ds * u = w at *
    split <;> omega

/-- **C43** (quantities of data).  A decimal number with an optional sign and one of the documented suffixes, in any
mixture of small and capital letters, is its value times the documented unit, as long as that is less than `LLONG_MAX`.
The one exception is the suffixes with `i` but without `b` (`ki`, `mi`, …; see `C43_ki_counterexample`). -/
theorem C43_data (g : Sign) (kb u : Nat) (ds sfx : List Char) (err : Bool) (hkb : kb = 1000 ∨ kb = 1024)
    (hd : IsDec ds) (hu : dataUnit kb sfx = some u) (hi : ∀ c, sfx.map Char.toLower ≠ [c, 'i'])
    (hv : decVal ds * u < 2 ^ 63 - 1) :
    checkStrBytes (g.text ++ (ds ++ sfx)) kb err = (some (g.apply (decVal ds * u)), err) := by
  have := data_rest g kb u ds sfx [] err hkb hd (by rw [map_lower]; exact dataUnit_mem hu hi) hv
    (by intro c u h; cases h) (by simp)
  simpa using this

/-- `4KiB` is 4096 with `kb_base` 1000 and 4000 with `kb_base` 1024. -/
example : checkStrBytes "4KiB".toList 1000 false = (some 4096, false) :=
  C43_data .none 1000 1024 ['4'] "KiB".toList false (Or.inl rfl) ⟨by decide, by decide⟩ (by decide)
    (by intro c h; simp at h) (by decide)
example : checkStrBytes "4KiB".toList 1024 false = (some 4000, false) :=
  C43_data .none 1024 1000 ['4'] "KiB".toList false (Or.inr rfl) ⟨by decide, by decide⟩ (by decide)
    (by intro c h; simp at h) (by decide)
example : checkStrBytes "-12m".toList 1024 true = (some (-12582912), true) :=
  C43_data .minus 1024 1048576 ['1', '2'] ['m'] true (Or.inr rfl) ⟨by decide, by decide⟩ (by decide)
    (by intro c h; simp at h) (by decide)

/-- HOWTO.rst:565 and 575: `4ki` should be 4096 with `kb_base` 1000 (and `1mi` 1000000 with `kb_base` 1024).  The code
looks for `kib` and takes everything else that starts with `k` for `k`: 4000, and 1048576. -/
theorem C43_ki_counterexample :
    dataUnit 1000 "ki".toList = some 1024 ∧ checkStrBytes "4ki".toList 1000 false = (some 4000, false) ∧
    dataUnit 1024 "mi".toList = some 1000000 ∧ checkStrBytes "1mi".toList 1024 false = (some 1048576, false) := by
  decide +kernel

/-- The product is taken modulo `2^64` without a check: 16 Ei is 0, and `9007199254740992k` is negative. -/
theorem C43_overflow_counterexample :
    checkStrBytes "16777216t".toList 1024 false = (some 0, false) ∧
    checkStrBytes "9007199254740992k".toList 1024 false = (some (-9223372036854775808), false) := by
  decide +kernel

/-- A blank before the number makes the suffix disappear: the second value of `4k, 8k` is 8. -/
theorem C43_blank_counterexample : checkStrBytes " 8k".toList 1024 false = (some 8, false) := by decide +kernel

/-- The documented time suffixes in small letters, without `sec`. -/
def times (dflt : Nat) : List (Str × Nat) :=
  [([], dflt), (['d'], 86400000000), (['h'], 3600000000), (['m'], 60000000), (['s'], 1000000), (['m', 's'], 1000),
   (['m', 's', 'e', 'c'], 1000), (['u', 's'], 1), (['u', 's', 'e', 'c'], 1)]

theorem timeUnit_mem {dflt u : Nat} {sfx : Str} (h : timeUnit dflt sfx = some u)
    (hs : sfx.map Char.toLower ≠ "sec".toList) : (sfx.map Char.toLower, u) ∈ times dflt := by
  unfold timeUnit at h
  generalize sfx.map Char.toLower = L at *
  split at h <;> simp_all [times]

theorem times_chars (dflt : Nat) : ∀ x ∈ times dflt, ∀ c ∈ x.1, 'a' ≤ c ∧ c ≤ 'z' ∧ c ≠ 'x' := by
  intro x hx
  simp only [times, List.mem_cons, List.not_mem_nil, or_false] at hx
  rcases hx with h | h | h | h | h | h | h | h | h <;> subst h <;> simp only <;> decide

theorem dropTime (g : Sign) (ds t : Str) (hd : ∀ c ∈ ds, c ∈ ['0', '1', '2', '3', '4', '5', '6', '7', '8', '9'])
    (ht : ∀ c u, t = c :: u → isAlpha c = true) :
    (g.text ++ (ds ++ t)).dropWhile (fun c => isDigit c || c == '+' || c == '-') = t := by
  have h0 : t.dropWhile (fun c => isDigit c || c == '+' || c == '-') = t := by
    cases t with
    | nil => rfl
    | cons c u =>
      have ha := ht c u rfl
      rw [List.dropWhile_cons_of_neg]
      simp only [isDigit, isAlpha, Bool.and_eq_true, Bool.or_eq_true, decide_eq_true_eq, Char.le_def,
          UInt32.le_iff_toNat_le, beq_iff_eq] at *
      have h9 : '9'.val.toNat = 57 := by decide
      have hA : 'A'.val.toNat = 65 := by decide
      have ha' : 'a'.val.toNat = 97 := by decide
      rintro ((h | h) | h)
      · omega
      · subst h; have : '+'.val.toNat = 43 := by decide
        omega
      · subst h; have : '-'.val.toNat = 45 := by decide
        omega
  have h1 : (ds ++ t).dropWhile (fun c => isDigit c || c == '+' || c == '-') = t := by
    rw [List.dropWhile_append_of_pos]
    · exact h0
    · intro c hc
      simp [(dec_digit (hd c hc)).1]
  cases g <;> simpa [Sign.text, isDigit] using h1

theorem timeChain (dflt : Bool) : ∀ x ∈ times (if dflt then 1000000 else 1), ∀ a t, x.1 = a :: t →
    (if pre "us" x.1 || pre "usec" x.1 then 1
    else if pre "ms" x.1 || pre "msec" x.1 then 1000
    else if x.1 == "s".toList then 1000000
    else if x.1 == "m".toList then 60000000
    else if x.1 == "h".toList then 3600000000
    else if x.1 == "d".toList then 86400000000
    else 1) = x.2 := by
  intro x hx a t h
  simp only [times, List.mem_cons, List.not_mem_nil, or_false] at hx
  rcases hx with h' | h' | h' | h' | h' | h' | h' | h' | h' <;> subst h'
  · cases h
  all_goals decide

/-- **C43** (times).  A decimal number with an optional sign and one of the documented time suffixes, in any mixture of
small and capital letters, is its value times that unit in microseconds; without a suffix the unit is the second for
options in seconds and the microsecond for the others.  The exception is `sec`
(see `C43_sec_counterexample`). -/
theorem C43_time (g : Sign) (isSeconds : Bool) (u : Nat) (ds sfx : List Char) (err : Bool) (hd : IsDec ds)
    (hu : timeUnit (if isSeconds then 1000000 else 1) sfx = some u) (hs : sfx.map Char.toLower ≠ "sec".toList)
    (hv : decVal ds * u < 2 ^ 63 - 1) :
    checkStrTime (g.text ++ (ds ++ sfx)) isSeconds err = (some (g.apply (decVal ds * u)), err) := by
  have hm := timeUnit_mem hu hs
  rw [← map_lower] at hm
  have hch := times_chars _ _ hm
  simp only at hch
  have hal : ∀ c ∈ sfx, isAlpha c = true := fun c hc =>
    lower_small (hch _ (List.mem_map_of_mem hc)).1 (hch _ (List.mem_map_of_mem hc)).2.1
  have hup : 1 ≤ u := by
    simp only [times, List.mem_cons, List.not_mem_nil, or_false, Prod.mk.injEq] at hm
    cases isSeconds <;> simp at hm <;> omega
  have hds : decVal ds < 2 ^ 63 - 1 := Nat.lt_of_le_of_lt (Nat.le_mul_of_pos_right _ hup) hv
  have hnx : ∀ y, (y = 'x' ∨ y = 'X') → y ∉ g.text ++ (ds ++ sfx) := by
    intro y hy hm
    simp only [List.mem_append] at hm
    rcases hm with hm | hm | hm
    · rcases sign_chars g y hm with h | h <;> rcases hy with h' | h' <;> rw [h'] at h <;> exact absurd h (by decide)
    · have := dec_digit (hd.2 y hm); rcases hy with h' | h' <;> simp_all
    · have := (hch _ (List.mem_map_of_mem hm)).2.2
      rcases hy with h' | h' <;> subst h' <;> exact this (by decide)
  have hnd : NoDigit sfx := by
    intro c v h
    have hc : c ∈ sfx := by simp [h]
    have h1 := hch _ (List.mem_map_of_mem hc)
    have ha := hal c hc
    -- a letter is not a decimal digit
    simp only [isAlpha, Bool.and_eq_true, Bool.or_eq_true, decide_eq_true_eq, Char.le_def,
          UInt32.le_iff_toNat_le] at ha
    have e0 : '0'.val.toNat = 48 := by decide
    have e9 : '9'.val.toNat = 57 := by decide
    have eA : 'A'.val.toNat = 65 := by decide
    have eZ : 'Z'.val.toNat = 90 := by decide
    have ea : 'a'.val.toNat = 97 := by decide
    have ez : 'z'.val.toNat = 122 := by decide
    have ec : c.toNat = c.val.toNat := rfl
    unfold digitVal isDigit
    simp only [Char.le_def, UInt32.le_iff_toNat_le, Bool.and_eq_true, decide_eq_true_eq]
    rw [if_neg (by omega)]
    split
    · simp only [Option.bind_some]; rw [if_neg (by omega)]
    · split
      · simp only [Option.bind_some]; rw [if_neg (by omega)]
      · rfl
  have hne : g.text ++ (ds ++ sfx) ≠ [] := by
    have := hd.1
    simp [this]
  unfold checkStrTime strToDecimal
  rw [if_neg hne, noHex_of (hnx _ (Or.inl rfl)) (hnx _ (Or.inr rfl))]
  simp only [Bool.false_eq_true, if_false]
  rw [strtoll_dec g ds _ hd hnd (by omega)]
  simp only [Bool.or_false]
  have hmax : ¬(g.apply (decVal ds) = llMax ∧ err = true) := by
    rintro ⟨h, _⟩
    unfold Sign.apply llMax at h
    have hds' : decVal ds < 9223372036854775807 := hds
    split at h <;> omega
  rw [if_neg hmax]
  have hmt : getMultTime (g.text ++ (ds ++ sfx)) isSeconds = u := by
    unfold getMultTime
    rw [dropTime g ds sfx hd.2 (fun c v h => hal c (by simp [h]))]
    cases hsfx : sfx with
    | nil =>
      subst hsfx
      simp only [timeUnit, List.map_nil, Option.some.injEq] at hu
      exact hu
    | cons a t =>
      simp only [hal a (by simp [hsfx]), Bool.not_true, Bool.false_eq_true, if_false]
      have := timeChain isSeconds _ hm
      rw [hsfx] at this
      exact this (lower a) (t.map lower) (by simp)
  rw [hmt]
  have e : g.apply (decVal ds) * (u : Int) = g.apply (decVal ds * u) := by
    unfold Sign.apply
    split <;> push_cast <;> grind
  rw [e, wrap_small]
  all_goals
    unfold Sign.apply
    have hv' : decVal ds * u < 9223372036854775807 := hv
    generalize decVal ds * u = w at *
    split <;> omega

/-- `runtime=10m` is ten minutes, `runtime=90` a minute and a half, `250Msec` a quarter of a second. -/
example : checkStrTime "10m".toList true false = (some 600000000, false) :=
  C43_time .none true 60000000 ['1', '0'] ['m'] false ⟨by decide, by decide⟩ (by decide) (by decide) (by decide)
example : checkStrTime "90".toList true false = (some 90000000, false) :=
  C43_time .none true 1000000 ['9', '0'] [] false ⟨by decide, by decide⟩ (by decide) (by decide) (by decide)
example : checkStrTime "250Msec".toList true false = (some 250000, false) :=
  C43_time .none true 1000 ['2', '5', '0'] "Msec".toList false ⟨by decide, by decide⟩ (by decide) (by decide) (by decide)

/-- HOWTO.rst:584 allows `sec` for seconds, the code does not know it: `runtime=10sec` is ten microseconds.  The same
happens to any other word, such as `10min`. -/
theorem C43_sec_counterexample :
    timeUnit 1000000 "sec".toList = some 1000000 ∧ checkStrTime "10sec".toList true false = (some 10, false) ∧
    checkStrTime "10min".toList true false = (some 10, false) := by
  decide +kernel

theorem digits_tail (g : Sign) (ds t : Str) (hd : IsDec ds) (hx : 'x' ∉ t ∧ 'X' ∉ t) :
    g.text ++ (ds ++ t) ≠ [] ∧ hasHex (g.text ++ (ds ++ t)) = false := by
  refine ⟨by have := hd.1; simp [this], ?_⟩
  have hnx : ∀ y, (y = 'x' ∨ y = 'X') → y ∉ g.text ++ (ds ++ t) := by
    intro y hy hm
    simp only [List.mem_append] at hm
    rcases hm with hm | hm | hm
    · rcases sign_chars g y hm with h | h <;> rcases hy with h' | h' <;> rw [h'] at h <;> exact absurd h (by decide)
    · have := dec_digit (hd.2 y hm); rcases hy with h' | h' <;> simp_all
    · rcases hy with h' | h' <;> simp_all
  exact noHex_of (hnx _ (Or.inl rfl)) (hnx _ (Or.inr rfl))

/-- **C43** (percentages).  `n%` is stored as `-1 - n`.  Up to 100 it is recognised as a percentage and the number can
be recovered; no quantity that is not negative is taken for a percentage. -/
theorem C43_percent (kb : Nat) (ds : List Char) (err : Bool) (hd : IsDec ds) (hv : decVal ds < 2 ^ 63 - 1) :
    checkStrBytes (ds ++ ['%']) kb err = (some (-1 - (decVal ds : Int)), err) ∧
    (isPercent (-1 - (decVal ds : Int)) = true ↔ decVal ds ≤ 100) ∧
    ∀ v : Int, 0 ≤ v → v < 2 ^ 63 → isPercent v = false := by
  have hv' : decVal ds < 9223372036854775807 := hv
  refine ⟨?_, ?_, ?_⟩
  · have ht := digits_tail .none ds ['%'] hd (by decide)
    have hs := strtoll_dec .none ds ['%'] hd (by intro c u h; cases h; decide) (by omega)
    simp only [Sign.text, List.nil_append] at ht hs
    unfold checkStrBytes strToDecimal
    rw [if_neg ht.1, ht.2]
    simp only [Bool.false_eq_true, if_false]
    rw [hs]
    simp only [Bool.or_false, if_true, Sign.apply, reduceCtorEq, if_false]
    rw [if_neg (by unfold llMax; omega)]
    have hm : getMultBytes (ds ++ ['%']) kb = (1, true) := by
      unfold getMultBytes
      have hl : ¬(ds ++ ['%']).length < 2 := by
        have := hd.1
        cases ds <;> simp_all
      rw [if_neg hl, skipNum_dec ds ['%'] hd.2 (by intro c u h; cases h; decide) false (Or.inl hd.1)]
      rfl
    rw [hm]
    simp only [if_true]
    rw [wrap_small (by omega) (by omega)]
  · unfold isPercent
    rw [decide_eq_true_eq]
    generalize decVal ds = w at *
    omega
  · intro v h1 h2
    have h2' : v < 9223372036854775808 := h2
    unfold isPercent
    rw [decide_eq_false_iff_not]
    omega

example : checkStrBytes "20%".toList 1024 false = (some (-21), false) :=
  (C43_percent 1024 ['2', '0'] false ⟨by decide, by decide⟩ (by decide)).1

theorem lower_inv {c y : Char} (h : lower c = y) : c = y ∨ (c.toNat + 32 = y.toNat ∧ 'A' ≤ c ∧ c ≤ 'Z') := by
  unfold lower at h
  split at h
  next hc =>
    right
    refine ⟨?_, hc⟩
    rw [← h]
    have h2 := hc.2
    simp only [Char.le_def, UInt32.le_iff_toNat_le] at h2
    have e : 'Z'.val.toNat = 90 := by decide
    have e' : c.toNat = c.val.toNat := rfl
    have hv : (c.toNat + 32).isValidChar := Or.inl (by omega)
    rw [Char.ofNat, dif_pos hv]
    rfl
  next hc => exact Or.inl h

theorem hexDigit_mem {c : Char} {v : Nat} (h : hexDigit c = some v) : (lower c, v) ∈
    [('0', 0), ('1', 1), ('2', 2), ('3', 3), ('4', 4), ('5', 5), ('6', 6), ('7', 7), ('8', 8), ('9', 9), ('a', 10),
     ('b', 11), ('c', 12), ('d', 13), ('e', 14), ('f', 15)] := by
  unfold hexDigit at h
  rw [← lower_eq] at h
  generalize lower c = y at *
  rw [List.idxOf?, List.findIdx?_eq_some_iff_getElem] at h
  obtain ⟨hlt, h1, _⟩ := h
  simp only [List.length_cons, List.length_nil] at hlt
  have hv : v = 0 ∨ v = 1 ∨ v = 2 ∨ v = 3 ∨ v = 4 ∨ v = 5 ∨ v = 6 ∨ v = 7 ∨ v = 8 ∨ v = 9 ∨ v = 10 ∨ v = 11 ∨ v = 12 ∨
    v = 13 ∨ v = 14 ∨ v = 15 := by omega
  rcases hv with h | h | h | h | h | h | h | h | h | h | h | h | h | h | h | h <;> subst h <;>
    simp only [List.getElem_cons_zero, List.getElem_cons_succ, beq_iff_eq] at h1 <;> subst h1 <;> decide

theorem hexDigit_val {c : Char} {v : Nat} (h : hexDigit c = some v) : digitVal 16 c = some v := by
  have hm := hexDigit_mem h
  simp only [List.mem_cons, Prod.mk.injEq, List.not_mem_nil, or_false] at hm
  have key : ∀ y : Char, lower c = y → c = y ∨ c = Char.ofNat (y.toNat - 32) ∧ 'A' ≤ c ∧ c ≤ 'Z' := by
    intro y hy
    rcases lower_inv hy with h | ⟨h1, h2⟩
    · exact Or.inl h
    · refine Or.inr ⟨?_, h2⟩
      have : c.toNat = y.toNat - 32 := by omega
      rw [← this, Char.ofNat_toNat]
  rcases hm with ⟨hc, hv⟩ | ⟨hc, hv⟩ | ⟨hc, hv⟩ | ⟨hc, hv⟩ | ⟨hc, hv⟩ | ⟨hc, hv⟩ | ⟨hc, hv⟩ | ⟨hc, hv⟩ | ⟨hc, hv⟩ |
    ⟨hc, hv⟩ | ⟨hc, hv⟩ | ⟨hc, hv⟩ | ⟨hc, hv⟩ | ⟨hc, hv⟩ | ⟨hc, hv⟩ | ⟨hc, hv⟩ <;> subst hv <;>
    rcases key _ hc with h1 | ⟨h1, h2, h3⟩ <;> rw [h1] at * <;>
    first
      | decide
      | exact absurd h2 (by decide)
      | exact absurd h3 (by decide)

theorem scan_hex (hs : Str) (hh : ∀ c ∈ hs, (hexDigit c).isSome) : ∀ n v, scanDigits 16 hs n v =
      (n + hs.length, hs.foldl (fun a c => 16 * a + (hexDigit c).getD 0) v) := by
  induction hs with
  | nil => intro n v; rfl
  | cons c hs ih =>
    intro n v
    obtain ⟨d, hd⟩ := Option.isSome_iff_exists.mp (hh c (by simp))
    have h1 := hexDigit_val hd
    simp only [scanDigits, h1, List.length_cons, List.foldl_cons, hd, Option.getD_some]
    rw [ih (fun c hc => hh c (by simp [hc]))]
    congr 1
    · omega
    · congr 1; omega

/-- **C43** (hexadecimal).  `0x` and hexadecimal digits, with an optional sign, are that number of bytes. -/
theorem C43_hex (g : Sign) (kb : Nat) (x : Char) (hs : List Char) (err : Bool) (hx : x = 'x' ∨ x = 'X')
    (hh : IsHex hs) (hv : hexVal hs < 2 ^ 63 - 1) :
    checkStrBytes (g.text ++ '0' :: x :: hs) kb err = (some (g.apply (hexVal hs)), err) := by
  have hv' : hexVal hs < 9223372036854775807 := hv
  obtain ⟨d, hs', rfl⟩ : ∃ d hs', hs = d :: hs' := by
    cases hs with
    | nil => exact absurd rfl hh.1
    | cons d hs' => exact ⟨d, hs', rfl⟩
  have hd : (digitVal 16 d).isSome := by
    obtain ⟨v, hd⟩ := Option.isSome_iff_exists.mp (hh.2 d (by simp))
    rw [hexDigit_val hd]; rfl
  have hhex : hasHex (g.text ++ '0' :: x :: d :: hs') = true := by
    have h0 : hasHex ('0' :: x :: d :: hs') = true := by
      unfold hasHex
      rcases hx with h | h <;> simp [h]
    cases g
    · simpa [Sign.text] using h0
    · simp only [Sign.text, List.cons_append, List.nil_append]
      unfold hasHex; simpa using h0
    · simp only [Sign.text, List.cons_append, List.nil_append]
      unfold hasHex; simpa using h0
  have hst : strtoll (g.text ++ '0' :: x :: d :: hs') 16 = some (g.apply (hexVal (d :: hs')), false) := by
    unfold strtoll
    rw [dropSpace_text g _ (by intro c t h; cases h; decide), signOf_text g _ (by intro c t h; cases h; decide)]
    have h0 : strip0x 16 ('0' :: x :: d :: hs') = d :: hs' := by simp [strip0x, hx, hd]
    simp only [h0]
    rw [clamp_some 16 _ _ _ _ (scan_hex _ hh.2 0 0) (by simp) (by
      have : hexVal (d :: hs') < 9223372036854775808 := by omega
      exact this)]
    simp [Sign.apply, hexVal]
  have hm : getMultBytes (g.text ++ '0' :: x :: d :: hs') kb = (1, false) := by
    unfold getMultBytes
    rw [if_neg (by simp [List.length_append]; omega), skipNum_sign]
    have hdx : isDigit x = false := by rcases hx with h | h <;> subst h <;> decide
    have hax : isAlpha x = true := by rcases hx with h | h <;> subst h <;> decide
    have hlx : lower x = 'x' := by rcases hx with h | h <;> subst h <;> decide
    have h1 : skipNum ('0' :: x :: d :: hs') false = x :: d :: hs' := by
      have h00 : isDigit '0' = true := by decide
      simp [skipNum, hdx, h00]
    rw [h1]
    simp only [hax, Bool.not_true, Bool.false_and, Bool.false_eq_true, if_false]
    have hsx : isSeparator 'x' = false := by decide
    unfold getMultBytes'
    simp [hlx, hsx, pre]
  unfold checkStrBytes strToDecimal
  rw [if_neg (by simp), hhex]
  simp only [if_true]
  rw [hst]
  simp only [Bool.or_false]
  have hmax : ¬(g.apply (hexVal (d :: hs')) = llMax ∧ err = true) := by
    rintro ⟨h, _⟩
    unfold Sign.apply llMax at h
    split at h <;> omega
  rw [if_neg hmax, hm]
  simp only [Bool.false_eq_true, if_false]
  have e : g.apply (hexVal (d :: hs')) * ((1 : Nat) : Int) = g.apply (hexVal (d :: hs')) := by simp
  rw [e, wrap_small]
  all_goals
    unfold Sign.apply
    generalize hexVal (d :: hs') = w at *
    split <;> omega

example : checkStrBytes "0xFf".toList 1024 false = (some 255, false) :=
  C43_hex .none 1024 'x' ['F', 'f'] false (Or.inl rfl) ⟨by decide, by decide⟩ (by decide)

/-- A hexadecimal number has no units: the suffix of `0x10k` is ignored (16 bytes, not 16384), and `runtime=0x10` is 16
microseconds although `runtime=16` is 16 seconds.  And a `0x` later in the string makes the number before it
hexadecimal. -/
theorem C43_hex_counterexample :
    checkStrBytes "0x10k".toList 1024 false = (some 16, false) ∧
    checkStrTime "0x10".toList true false = (some 16, false) ∧
    checkStrTime "16".toList true false = (some 16000000, false) ∧
    checkStrBytes "10:0x20".toList 1024 false = (some 16, false) := by
  decide +kernel

theorem noDigit_val {c : Char} (hnd : c ∉ ['0', '1', '2', '3', '4', '5', '6', '7', '8', '9']) :
    digitVal 10 c = none := by
  have e0 : '0'.val.toNat = 48 := by decide
  have e9 : '9'.val.toNat = 57 := by decide
  have eA : 'A'.val.toNat = 65 := by decide
  have ea : 'a'.val.toNat = 97 := by decide
  have ec : c.toNat = c.val.toNat := rfl
  unfold digitVal isDigit
  simp only [Char.le_def, UInt32.le_iff_toNat_le, Bool.and_eq_true, decide_eq_true_eq]
  split
  next h =>
    exfalso
    have : c.toNat = 48 ∨ c.toNat = 49 ∨ c.toNat = 50 ∨ c.toNat = 51 ∨ c.toNat = 52 ∨ c.toNat = 53 ∨
      c.toNat = 54 ∨ c.toNat = 55 ∨ c.toNat = 56 ∨ c.toNat = 57 := by omega
    rcases this with h | h | h | h | h | h | h | h | h | h <;>
      (have hc : c = Char.ofNat c.toNat := (Char.ofNat_toNat c).symm
       rw [h] at hc
       rw [hc] at hnd
       exact hnd (by decide))
  next =>
    split
    · simp only [Option.bind_some]; rw [if_neg (by omega)]
    · split
      · simp only [Option.bind_some]; rw [if_neg (by omega)]
      · rfl

/-- **C43** (errors).  A string that is not a number (blanks, an optional sign, and then no digit) is refused. -/
theorem C43_reject (g : Sign) (bl t : List Char) (kilo isSeconds err : Bool) (kb : Nat)
    (hbl : ∀ c ∈ bl, c ∈ [' ', '\t', '\n', '\x0b', '\x0c', '\r']) (hx : 'x' ∉ t ∧ 'X' ∉ t)
    (ht : ∀ c u, t = c :: u → c ∉ ['0', '1', '2', '3', '4', '5', '6', '7', '8', '9'] ∧
      (g = .none → c ∉ [' ', '\t', '\n', '\x0b', '\x0c', '\r', '+', '-'])) :
    strToDecimal (bl ++ (g.text ++ t)) kilo kb isSeconds err = (none, err) := by
  have hblx : ∀ y, (y = 'x' ∨ y = 'X') → y ∉ bl ++ (g.text ++ t) := by
    intro y hy hm
    simp only [List.mem_append] at hm
    rcases hm with hm | hm | hm
    · have := hbl y hm
      rcases hy with h' | h' <;> subst h' <;> exact absurd this (by decide)
    · rcases sign_chars g y hm with h | h <;> rcases hy with h' | h' <;> rw [h'] at h <;> exact absurd h (by decide)
    · rcases hy with h' | h' <;> simp_all
  unfold strToDecimal
  split
  · rfl
  · rw [noHex_of (hblx _ (Or.inl rfl)) (hblx _ (Or.inr rfl))]
    simp only [Bool.false_eq_true, if_false]
    have hst : strtoll (bl ++ (g.text ++ t)) 10 = none := by
      have hd1 : (bl ++ (g.text ++ t)).dropWhile isSpace = (g.text ++ t).dropWhile isSpace := by
        rw [List.dropWhile_append_of_pos]
        intro c hc
        have := hbl c hc
        simp only [List.mem_cons, List.not_mem_nil, or_false] at this
        rcases this with h | h | h | h | h | h <;> subst h <;> decide
      have hd2 : (g.text ++ t).dropWhile isSpace = g.text ++ t := by
        cases g
        · simp only [Sign.text, List.nil_append]
          cases t with
          | nil => rfl
          | cons c u =>
            have := (ht c u rfl).2 rfl
            rw [List.dropWhile_cons_of_neg]
            simp only [List.mem_cons, List.not_mem_nil, or_false, not_or] at this
            simp [isSpace, this]
        · simp only [Sign.text, List.cons_append, List.nil_append]
          rw [List.dropWhile_cons_of_neg (by decide)]
        · simp only [Sign.text, List.cons_append, List.nil_append]
          rw [List.dropWhile_cons_of_neg (by decide)]
      have hsg : (signOf (g.text ++ t)).2 = t := by
        cases g
        · rw [signOf_text .none t]
          intro c u h
          have := (ht c u h).2 rfl
          simp only [List.mem_cons, List.not_mem_nil, or_false, not_or] at this
          exact ⟨this.2.2.2.2.2.2.2, this.2.2.2.2.2.2.1⟩
        · rfl
        · rfl
      have hsc : scanDigits 10 t 0 0 = (0, 0) := by
        cases t with
        | nil => rfl
        | cons c u =>
          have hnd := (ht c u rfl).1
          have := noDigit_val hnd
          simp [scanDigits, this]
      unfold strtoll
      rw [hd1, hd2]
      simp only [hsg]
      have h0 : strip0x 10 t = t := by simp [strip0x]
      rw [h0]
      unfold clamp
      simp [hsc]
    rw [hst]

example : strToDecimal "  -k".toList true 1024 false false = (none, false) :=
  C43_reject .minus [' ', ' '] ['k'] true false false 1024 (by decide) (by decide)
    (by intro c u h; cases h; exact ⟨by decide, by simp⟩)

/-- **C43** (errors).  A positive number that does not fit a `long long` is refused, whatever its suffix. -/
theorem C43_too_big (g : Sign) (ds t : List Char) (kilo isSeconds err : Bool) (kb : Nat) (hg : g ≠ .minus)
    (hd : IsDec ds) (ht : ∀ c u, t = c :: u → c ∉ ['0', '1', '2', '3', '4', '5', '6', '7', '8', '9'])
    (hx : 'x' ∉ t ∧ 'X' ∉ t) (hv : 2 ^ 63 ≤ decVal ds) :
    strToDecimal (g.text ++ (ds ++ t)) kilo kb isSeconds err = (none, true) := by
  have hh := dec_head hd t
  have hs := scan_dec ds t hd.2 (fun c u h => noDigit_val (ht c u h)) 0 0
  have hlen : 0 + ds.length ≠ 0 := by have := hd.1; simp; exact this
  have hst : strtoll (g.text ++ (ds ++ t)) 10 = some (llMax, true) := by
    unfold strtoll
    rw [dropSpace_text g _ fun c u h => (hh c u h).2.2.1,
      signOf_text g _ fun c u h => ⟨(hh c u h).2.2.2.1, (hh c u h).2.2.2.2.1⟩]
    have h0 : strip0x 10 (ds ++ t) = ds ++ t := by simp [strip0x]
    simp only [h0, hg, decide_false]
    unfold clamp
    simp only [hs, if_neg hlen, Bool.false_eq_true, if_false]
    rw [if_pos]
    have hv' : 9223372036854775808 ≤ decVal ds := hv
    unfold llMax
    change (9223372036854775807 : Int) < (decVal ds : Nat)
    omega
  have h1 := digits_tail g ds t hd hx
  unfold strToDecimal
  rw [if_neg h1.1, h1.2]
  simp only [Bool.false_eq_true, if_false]
  rw [hst]
  simp

example : strToDecimal "9223372036854775808k".toList true 1024 false false = (none, true) := by
  refine C43_too_big .none "9223372036854775808".toList ['k'] true false false 1024 (by decide)
    ⟨by decide, by decide +kernel⟩ ?_ (by decide) (by decide +kernel)
  intro c u h
  cases h
  decide

/-- A negative number that does not fit is not refused but clamped; and because `errno` is never reset, `LLONG_MAX` is
refused if an earlier call left `ERANGE` there, and accepted otherwise. -/
theorem C43_range_counterexample :
    checkStrBytes "-9223372036854775809".toList 1024 false = (some (-9223372036854775808), true) ∧
    checkStrBytes "9223372036854775807".toList 1024 false = (some 9223372036854775807, false) ∧
    checkStrBytes "9223372036854775807".toList 1024 true = (none, true) := by
  decide +kernel

end Fio.Parse
