import Verif.Parse.Model
import Verif.Parse.Spec

/-! # Lemmas about the number parser -/

namespace Fio.Parse
open Spec

theorem lower_eq (c : Char) : lower c = c.toLower := by
  unfold lower Char.toLower
  simp only [Char.le_def, UInt32.le_iff_toNat_le, ge_iff_le]
  split
  next h =>
    apply Char.ext
    have h1 : c.toNat ≤ 90 := h.2
    have hv : (c.toNat + 32).isValidChar := Or.inl (by omega)
    simp only [Char.ofNat, hv, dite_true, Char.ofNatAux]
    apply UInt32.toNat.inj
    rw [UInt32.toNat_add]
    show c.toNat + 32 = (c.val.toNat + ('a'.val - 'A'.val).toNat) % 2 ^ 32
    have h32 : ('a'.val - 'A'.val).toNat = 32 := by decide
    rw [h32]
    have : c.val.toNat = c.toNat := rfl
    omega
  next h => rfl

theorem map_lower (s : List Char) : s.map lower = s.map Char.toLower := by
  simp [lower_eq]

theorem dec_digit {c : Char} (h : c ∈ ['0', '1', '2', '3', '4', '5', '6', '7', '8', '9']) :
    isDigit c = true ∧ digitVal 10 c = some (c.toNat - '0'.toNat) ∧ isSpace c = false ∧ c ≠ '-' ∧ c ≠ '+' ∧
    c ≠ ',' ∧ c ≠ ':' ∧ c ≠ 'x' ∧ c ≠ 'X' ∧ c ≠ 'z' := by
  simp only [List.mem_cons, List.not_mem_nil, or_false] at h
  rcases h with h | h | h | h | h | h | h | h | h | h <;> subst h <;> decide

theorem hasHex_x (s : Str) (h : hasHex s = true) : 'x' ∈ s ∨ 'X' ∈ s := by
  induction s with
  | nil => simp [hasHex] at h
  | cons a s ih =>
    cases s with
    | nil => unfold hasHex at h; split at h <;> simp_all [hasHex]
    | cons b t =>
      unfold hasHex at h
      split at h
      next c s' heq =>
        simp only [List.cons.injEq] at heq
        obtain ⟨rfl, rfl, rfl⟩ := heq
        simp only [Bool.or_eq_true, beq_iff_eq] at h
        rcases h with (h | h) | h
        · simp [h]
        · simp [h]
        · have := ih h
          simp only [List.mem_cons] at this ⊢
          grind
      next heq =>
        simp only [List.cons.injEq] at heq
        obtain ⟨rfl, rfl⟩ := heq
        have := ih h
        simp only [List.mem_cons] at this ⊢
        grind
      next heq => cases heq

/-- `t` does not go on with a digit. -/
def NoDigit (t : Str) : Prop := ∀ c u, t = c :: u → digitVal 10 c = none

theorem scan_dec (ds t : Str) (hd : ∀ c ∈ ds, c ∈ ['0', '1', '2', '3', '4', '5', '6', '7', '8', '9'])
    (ht : NoDigit t) : ∀ n v, scanDigits 10 (ds ++ t) n v =
      (n + ds.length, ds.foldl (fun a c => 10 * a + (c.toNat - '0'.toNat)) v) := by
  induction ds with
  | nil =>
    intro n v
    cases t with
    | nil => rfl
    | cons c u => simp [scanDigits, ht c u rfl]
  | cons c ds ih =>
    intro n v
    have h1 := (dec_digit (hd c (by simp))).2.1
    simp only [List.cons_append, scanDigits, h1, List.length_cons, List.foldl_cons]
    rw [ih (fun c hc => hd c (by simp [hc]))]
    congr 1
    · omega
    · congr 1; omega

/-- An optional sign. -/
inductive Sign where
  | none | plus | minus
  deriving DecidableEq, Repr

/-- Its text. -/
def Sign.text : Sign → Str
  | .none => []
  | .plus => ['+']
  | .minus => ['-']

/-- The signed value. -/
def Sign.apply (s : Sign) (n : Nat) : Int := if s = .minus then -(n : Int) else n

theorem signOf_text (g : Sign) (s : Str) (h : ∀ c t, s = c :: t → c ≠ '-' ∧ c ≠ '+') :
    signOf (g.text ++ s) = (decide (g = .minus), s) := by
  cases g
  · simp only [Sign.text, List.nil_append]
    unfold signOf
    split
    next t => exact absurd rfl (h '-' t rfl).1
    next t => exact absurd rfl (h '+' t rfl).2
    next => simp
  · simp [Sign.text, signOf]
  · simp [Sign.text, signOf]

theorem dropSpace_text (g : Sign) (s : Str) (h : ∀ c t, s = c :: t → isSpace c = false) :
    (g.text ++ s).dropWhile isSpace = g.text ++ s := by
  cases g
  · simp only [Sign.text, List.nil_append]
    cases s with
    | nil => rfl
    | cons c t => rw [List.dropWhile_cons_of_neg (by simp [h c t rfl])]
  · simp only [Sign.text, List.cons_append, List.nil_append]
    rw [List.dropWhile_cons_of_neg (by decide)]
  · simp only [Sign.text, List.cons_append, List.nil_append]
    rw [List.dropWhile_cons_of_neg (by decide)]

theorem clamp_some (base : Nat) (neg : Bool) (s : Str) (n v : Nat) (h : scanDigits base s 0 0 = (n, v)) (hn : n ≠ 0)
    (hv : v < 2 ^ 63) : clamp base neg s = some (if neg then -(v : Int) else v, false) := by
  have hv' : v < 9223372036854775808 := hv
  unfold clamp llMax llMin
  simp only [h, if_neg hn]
  cases neg
  · simp only [Bool.false_eq_true, if_false]
    rw [if_neg (by omega), if_neg (by omega)]
  · simp only [if_true]
    rw [if_neg (by omega), if_neg (by omega)]

theorem dec_head {ds : Str} (hd : IsDec ds) (t : Str) : ∀ c u, ds ++ t = c :: u → isDigit c = true ∧
    digitVal 10 c = some (c.toNat - '0'.toNat) ∧ isSpace c = false ∧ c ≠ '-' ∧ c ≠ '+' ∧
    c ≠ ',' ∧ c ≠ ':' ∧ c ≠ 'x' ∧ c ≠ 'X' ∧ c ≠ 'z' := by
  obtain ⟨hne, hd⟩ := hd
  cases ds with
  | nil => exact absurd rfl hne
  | cons d ds' =>
    intro c u h
    simp only [List.cons_append, List.cons.injEq] at h
    exact h.1 ▸ dec_digit (hd d (by simp))

theorem strtoll_dec (g : Sign) (ds t : Str) (hd : IsDec ds) (ht : NoDigit t) (hv : decVal ds < 2 ^ 63) :
    strtoll (g.text ++ (ds ++ t)) 10 = some (g.apply (decVal ds), false) := by
  have hh := dec_head hd t
  have hs := scan_dec ds t hd.2 ht 0 0
  have hlen : 0 + ds.length ≠ 0 := by have := hd.1; simp; exact this
  unfold strtoll
  rw [dropSpace_text g _ fun c u h => (hh c u h).2.2.1,
    signOf_text g _ fun c u h => ⟨(hh c u h).2.2.2.1, (hh c u h).2.2.2.2.1⟩]
  have h0 : strip0x 10 (ds ++ t) = ds ++ t := by simp [strip0x]
  simp only [h0]
  rw [clamp_some 10 _ _ _ _ hs hlen hv]
  simp [Sign.apply, decVal]

theorem skipNum_dec (ds t : Str) (hd : ∀ c ∈ ds, c ∈ ['0', '1', '2', '3', '4', '5', '6', '7', '8', '9'])
    (ht : ∀ c u, t = c :: u → isDigit c = false) : ∀ seen, (ds ≠ [] ∨ seen = true) → skipNum (ds ++ t) seen = t := by
  induction ds with
  | nil =>
    intro seen hs
    simp only [ne_eq, not_true_eq_false, false_or] at hs
    subst hs
    cases t with
    | nil => rfl
    | cons c u => simp [skipNum, ht c u rfl]
  | cons d ds ih =>
    intro seen _
    have h1 := (dec_digit (hd d (by simp))).1
    simp only [List.cons_append, skipNum, h1]
    simp only [Bool.not_true, Bool.false_and, Bool.false_eq_true, if_false, Bool.or_true]
    exact ih (fun c hc => hd c (by simp [hc])) true (Or.inr rfl)

theorem skipNum_sign (g : Sign) (s : Str) : skipNum (g.text ++ s) false = skipNum s false := by
  cases g <;> simp [Sign.text, skipNum, isDigit]

theorem prefixPow_cases {c : Char} {n : Nat} (h : prefixPow c = some n) :
    (c = 'k' ∧ n = 1) ∨ (c = 'm' ∧ n = 2) ∨ (c = 'g' ∧ n = 3) ∨ (c = 't' ∧ n = 4) ∨ (c = 'p' ∧ n = 5) := by
  unfold prefixPow at h
  split at h <;> simp_all

/-- The documented suffixes in small letters, without the `ki` forms. -/
def units (kb : Nat) : List (Str × Nat) :=
  [([], 1), (['b'], 1)] ++
  ([('k', 1), ('m', 2), ('g', 3), ('t', 4), ('p', 5)].flatMap fun (c, n) =>
    [([c], kb ^ n), ([c, 'b'], kb ^ n), ([c, 'i', 'b'], (2024 - kb) ^ n)])

theorem dataUnit_mem {kb u : Nat} {sfx : Str} (h : dataUnit kb sfx = some u)
    (hi : ∀ c, sfx.map Char.toLower ≠ [c, 'i']) : (sfx.map Char.toLower, u) ∈ units kb := by
  unfold dataUnit at h
  generalize sfx.map Char.toLower = L at *
  split at h
  · simp_all [units]
  · simp_all [units]
  · simp only [Option.map_eq_some_iff] at h
    obtain ⟨n, h1, h2⟩ := h
    rcases prefixPow_cases h1 with ⟨h3, h4⟩ | ⟨h3, h4⟩ | ⟨h3, h4⟩ | ⟨h3, h4⟩ | ⟨h3, h4⟩ <;> subst h3 h4 h2 <;>
      simp [units]
  · simp only [Option.map_eq_some_iff] at h
    obtain ⟨n, h1, h2⟩ := h
    rcases prefixPow_cases h1 with ⟨h3, h4⟩ | ⟨h3, h4⟩ | ⟨h3, h4⟩ | ⟨h3, h4⟩ | ⟨h3, h4⟩ <;> subst h3 h4 h2 <;>
      simp [units]
  · exact absurd rfl (hi _)
  · simp only [Option.map_eq_some_iff] at h
    obtain ⟨n, h1, h2⟩ := h
    rcases prefixPow_cases h1 with ⟨h3, h4⟩ | ⟨h3, h4⟩ | ⟨h3, h4⟩ | ⟨h3, h4⟩ | ⟨h3, h4⟩ <;> subst h3 h4 h2 <;>
      simp [units]
  · simp at h

/-- The chain of comparisons of `__get_mult_bytes` on the documented suffixes. -/
theorem chain_units (kb : Nat) (hkb : kb = 1000 ∨ kb = 1024) : ∀ x ∈ units kb,
    getMultBytes' x.1 kb = (x.2, false) ∧ (∀ c ∈ x.1, isSeparator c = false ∧ 'a' ≤ c ∧ c ≤ 'z' ∧ c ≠ 'x' ∧ c ≠ 'z' ∧
      digitVal 10 c = none) := by
  rcases hkb with rfl | rfl <;> decide +kernel

theorem lower_small {a : Char} (h1 : 'a' ≤ lower a) (h2 : lower a ≤ 'z') : isAlpha a = true := by
  unfold lower at h1 h2
  unfold isAlpha
  split at h1
  next h => simp [h]
  next h => simp_all

theorem lower_sep {c : Char} (h : isSeparator c = true) : lower c = c ∧ isAlpha c = false ∧ c ≠ '%' ∧
    isDigit c = false ∧ digitVal 10 c = none := by
  simp only [isSeparator, Bool.or_eq_true, beq_iff_eq] at h
  rcases h with ((h | h) | h) | h <;> subst h <;> decide

theorem lower_digit {c : Char} (h : isDigit c = true) : lower c = c := by
  unfold isDigit at h
  unfold lower
  rw [if_neg]
  simp only [Bool.and_eq_true, decide_eq_true_eq, Char.le_def, UInt32.le_iff_toNat_le] at *
  have h9 : '9'.val.toNat = 57 := by decide
  have hA : 'A'.val.toNat = 65 := by decide
  omega

/-- What may follow a number in a list: nothing, or a separator. -/
def Tail (t : Str) : Prop := ∀ c u, t = c :: u → isSeparator c = true

theorem getMultBytes'_tail (p rest : Str) (kb : Nat) (hr : Tail rest) (hp : ∀ c ∈ p.map lower, isSeparator c = false) :
    getMultBytes' (p ++ rest) kb = getMultBytes' (p.map lower) kb := by
  have hll : ∀ c, lower (lower c) = lower c := by
    intro c
    rw [lower_eq, lower_eq]
    unfold Char.toLower
    split
    next h =>
      split
      next h' =>
        exfalso
        have h1 := h.1; have h2 := h'.2
        simp only [ge_iff_le, UInt32.le_iff_toNat_le, UInt32.toNat_add] at h1 h2
        have e1 : ('a'.val - 'A'.val).toNat = 32 := by decide
        have e2 : 'A'.val.toNat = 65 := by decide
        have e3 : 'Z'.val.toNat = 90 := by decide
        have h3 := h.2
        simp only [UInt32.le_iff_toNat_le] at h3
        omega
      next => rfl
    next h => rfl
  have h1 : ((p ++ rest).map lower).takeWhile (fun c => !isSeparator c) = p.map lower := by
    rw [List.map_append, List.takeWhile_append_of_pos (by simpa using hp)]
    cases rest with
    | nil => simp
    | cons c u =>
      have := hr c u rfl
      simp [(lower_sep this).1, this]
  have h2 : ((p.map lower).map lower).takeWhile (fun c => !isSeparator c) = p.map lower := by
    have : (p.map lower).map lower = p.map lower := by simp [hll]
    rw [this]
    have := List.takeWhile_append_of_pos (p := fun c => !isSeparator c) (l₁ := p.map lower) (l₂ := [])
      (by simpa using hp)
    simpa using this
  unfold getMultBytes'
  rw [h1, h2]

theorem mult_digit (d : Char) (kb : Nat) (h : d ∈ ['0', '1', '2', '3', '4', '5', '6', '7', '8', '9']) :
    getMultBytes' [d] kb = (1, false) := by
  simp only [List.mem_cons, List.not_mem_nil, or_false] at h
  rcases h with h | h | h | h | h | h | h | h | h | h <;> subst h <;> rfl

/-- `get_mult_bytes` on a number with a documented suffix. -/
theorem getMultBytes_unit (g : Sign) (kb u : Nat) (ds sfx rest : Str) (hkb : kb = 1000 ∨ kb = 1024) (hd : IsDec ds)
    (hu : (sfx.map lower, u) ∈ units kb) (hr : Tail rest) :
    getMultBytes (g.text ++ (ds ++ (sfx ++ rest))) kb = (u, false) := by
  have hc := chain_units kb hkb _ hu
  simp only at hc
  have hds : 1 ≤ ds.length := by
    have := hd.1
    cases ds <;> simp_all
  have hl : ∀ c v, sfx ++ rest = c :: v → isDigit c = false := by
    intro c v h
    cases sfx with
    | nil => exact (lower_sep (hr c v h)).2.2.2.1
    | cons a s' =>
      simp only [List.cons_append, List.cons.injEq] at h
      have h1 := hc.2 (lower a) (by simp)
      rw [← h.1]
      cases hdig : isDigit a
      · rfl
      · have := lower_digit hdig
        rw [this] at h1
        simp [digitVal, hdig] at h1
        have h2 := h1.2.2.2.2
        simp only [isDigit, Bool.and_eq_true, decide_eq_true_eq, Char.le_def, UInt32.le_iff_toNat_le] at hdig
        have h9 : '9'.val.toNat = 57 := by decide
        have : a.toNat = a.val.toNat := rfl
        omega
  unfold getMultBytes
  by_cases hlen : (g.text ++ (ds ++ (sfx ++ rest))).length < 2
  · simp only [if_pos hlen]
    simp only [List.length_append] at hlen
    have hs : sfx = [] := List.length_eq_zero_iff.mp (by omega)
    have hr' : rest = [] := List.length_eq_zero_iff.mp (by omega)
    have hg : g = .none := by
      cases g
      · rfl
      · simp only [Sign.text, List.length_cons] at hlen; omega
      · simp only [Sign.text, List.length_cons] at hlen; omega
    subst hs hr' hg
    match ds, hd, hds with
    | [d], hd, _ =>
      simp only [Sign.text, List.nil_append, List.append_nil]
      rw [mult_digit d kb (hd.2 d (by simp))]
      have : u = 1 := by
        simp only [List.map_nil] at hc
        have := hc.1
        simp only [getMultBytes', List.map_nil, List.takeWhile_nil] at this
        simp [pre] at this
        exact this.symm
      rw [this]
    | d :: e :: t, hd, _ => simp only [List.length_cons] at hlen; omega
  · simp only [if_neg hlen]
    rw [skipNum_sign, skipNum_dec ds _ hd.2 hl false (Or.inl hd.1)]
    cases sfx with
    | nil =>
      have : u = 1 := by
        simp only [List.map_nil] at hc
        have := hc.1
        simp only [getMultBytes', List.map_nil, List.takeWhile_nil] at this
        simp [pre] at this
        exact this.symm
      cases rest with
      | nil => simp [this]
      | cons c v =>
        have h1 := lower_sep (hr c v rfl)
        simp [h1.2.1, h1.2.2.1, this]
    | cons a s' =>
      have h1 := hc.2 (lower a) (by simp)
      have h2 := lower_small h1.2.1 h1.2.2.1
      simp only [List.cons_append, h2, Bool.not_true, Bool.false_and, Bool.false_eq_true, if_false]
      rw [← List.cons_append, getMultBytes'_tail _ _ _ hr (fun c hc' => (hc.2 c hc').1)]
      exact hc.1

end Fio.Parse
