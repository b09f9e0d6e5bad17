import Verif.Json.Model
import Verif.Json.Spec

/-! # Lemmas: strings, numbers and white space of the JSON output -/

namespace Fio.Json
open Spec

/-! ## Strings -/

theorem escape_length (s : Str) : (escapeLoop s).length = s.length + countEscapes s := by
  induction s with
  | nil => rfl
  | cons c s ih =>
    unfold escapeLoop countEscapes
    split <;> simp only [List.length_cons, ih] <;> omega

theorem strdupEscape_eq (s : Str) : strdupEscape s = some (escapeLoop s) := by
  unfold strdupEscape
  simp [escape_length]

/-- No control characters (U+0000 to U+001F). -/
def NoCtrl (s : Str) : Prop := ∀ c ∈ s, 32 ≤ c.toNat

theorem pstr_escape (s r : Str) (h : NoCtrl s) : pstr (escapeLoop s ++ '"' :: r) = some (s, r) := by
  induction s with
  | nil => simp [escapeLoop, pstr]
  | cons c s ih =>
    have ih := ih fun d hd => h d (by simp [hd])
    have hc := h c (by simp)
    unfold escapeLoop
    split
    next hs =>
      rcases hs with rfl | rfl
      · simp only [List.cons_append]
        rw [pstr]
        · simp [ih, unescape]
        · intro a b c d r h
          simp at h
      · simp only [List.cons_append]
        rw [pstr]
        · simp [ih, unescape]
        · intro a b c d r h
          simp at h
    next hs =>
      simp only [not_or] at hs
      simp only [List.cons_append]
      rw [pstr]
      · rw [if_neg (by omega), ih]
        rfl
      · exact hs.2
      · intro a b d e r h; exact absurd h hs.1
      · intro a r h; exact absurd h hs.1

/-- A name that needs no escapes. -/
def Plain (s : Str) : Prop := ∀ c ∈ s, 32 ≤ c.toNat ∧ c ≠ '"' ∧ c ≠ '\\'

theorem escape_plain (s : Str) (h : Plain s) : escapeLoop s = s := by
  induction s with
  | nil => rfl
  | cons c s ih =>
    have hc := h c (by simp)
    unfold escapeLoop
    rw [if_neg (by simp [hc.2.1, hc.2.2]), ih fun d hd => h d (by simp [hd])]

theorem pstr_plain (s r : Str) (h : Plain s) : pstr (s ++ '"' :: r) = some (s, r) := by
  have := pstr_escape s r fun c hc => (h c hc).1
  rwa [escape_plain s h] at this

/-! ## White space -/

theorem skip_indent (n : Nat) (s : Str) : skip (indent n ++ s) = skip s := by
  induction n with
  | zero => rfl
  | succ n ih =>
    have h : isWs ' ' = true := by decide
    unfold skip at *
    simp only [indent, List.cons_append, List.dropWhile_cons, h, if_true, ih]

theorem skip_cons {c : Char} (s : Str) (h : isWs c = false) : skip (c :: s) = c :: s := by
  unfold skip
  rw [List.dropWhile_cons_of_neg (by simp [h])]

theorem skip_nl (s : Str) : skip ('\n' :: s) = skip s := by
  have h : isWs '\n' = true := by decide
  unfold skip
  simp [h]

theorem skip_sp (s : Str) : skip (' ' :: s) = skip s := by
  have h : isWs ' ' = true := by decide
  unfold skip
  simp [h]

/-! ## Numbers -/

theorem digit_ofNat {d : Nat} (h : d < 10) : digit (Char.ofNat (48 + d)) = some d := by
  have : d = 0 ∨ d = 1 ∨ d = 2 ∨ d = 3 ∨ d = 4 ∨ d = 5 ∨ d = 6 ∨ d = 7 ∨ d = 8 ∨ d = 9 := by omega
  rcases this with h | h | h | h | h | h | h | h | h | h <;> subst h <;> decide

theorem digits_append {a : Str} (ha : ∀ c ∈ a, (digit c).isSome) (b : Str) : ∀ v k, digits (a ++ b) v k =
    digits b (a.foldl (fun v c => 10 * v + (digit c).getD 0) v) (k + a.length) := by
  induction a with
  | nil => intro v k; rfl
  | cons c a ih =>
    intro v k
    obtain ⟨d, hd⟩ := Option.isSome_iff_exists.mp (ha c (by simp))
    simp only [List.cons_append, digits, hd, List.foldl_cons, List.length_cons, Option.getD_some]
    rw [ih (fun c hc => ha c (by simp [hc]))]
    congr 1
    omega

theorem natText_digits (n : Nat) : ∀ c ∈ natText n, (digit c).isSome := by
  induction n using natText.induct with
  | case1 n h =>
    unfold natText
    rw [if_pos h]
    intro c hc
    simp only [List.mem_singleton] at hc
    rw [hc, digit_ofNat h]; rfl
  | case2 n h ih =>
    unfold natText
    rw [if_neg h]
    intro c hc
    simp only [List.mem_append, List.mem_singleton] at hc
    rcases hc with hc | hc
    · exact ih c hc
    · rw [hc, digit_ofNat (Nat.mod_lt _ (by decide))]; rfl

theorem natText_fold (n : Nat) : ∀ v, (natText n).foldl (fun v c => 10 * v + (digit c).getD 0) v =
    10 ^ (natText n).length * v + n := by
  induction n using natText.induct with
  | case1 n h =>
    intro v
    unfold natText
    rw [if_pos h]
    simp [digit_ofNat h]
  | case2 n h ih =>
    intro v
    rw [natText, if_neg h, List.foldl_append, ih]
    simp only [List.foldl_cons, List.foldl_nil, digit_ofNat (Nat.mod_lt n (show 0 < 10 by decide)), Option.getD_some,
      List.length_append, List.length_cons, List.length_nil]
    rw [Nat.pow_succ]
    have := Nat.div_add_mod n 10
    generalize 10 ^ (natText (n / 10)).length = p at *
    have e : 10 * (p * v + n / 10) = p * 10 * v + 10 * (n / 10) := by
      rw [Nat.mul_add, ← Nat.mul_assoc, Nat.mul_comm 10 p]
    omega

theorem natText_pos (n : Nat) : 1 ≤ (natText n).length := by
  unfold natText
  split <;> simp

theorem natText_head (n : Nat) (h : (natText n).head? = some '0') : (natText n).length = 1 := by
  have key : ∀ n, n ≠ 0 → (natText n).head? ≠ some '0' := by
    intro n
    induction n using natText.induct with
    | case1 n hn =>
      intro h0
      unfold natText
      rw [if_pos hn]
      have : n = 1 ∨ n = 2 ∨ n = 3 ∨ n = 4 ∨ n = 5 ∨ n = 6 ∨ n = 7 ∨ n = 8 ∨ n = 9 := by omega
      rcases this with h | h | h | h | h | h | h | h | h <;> subst h <;> decide
    | case2 n hn ih =>
      intro _
      rw [natText, if_neg hn]
      have h1 := natText_pos (n / 10)
      have := ih (by omega)
      cases ht : natText (n / 10) with
      | nil => rw [ht] at h1; simp at h1
      | cons c s => rw [ht] at this; simpa using this
  by_cases h0 : n = 0
  · subst h0
    rw [natText, if_pos (by decide)]; rfl
  · exact absurd h (key n h0)

theorem fracText_digits : ∀ k n, ∀ c ∈ fracText k n, (digit c).isSome := by
  intro k
  induction k with
  | zero => intro n c hc; simp [fracText] at hc
  | succ k ih =>
    intro n c hc
    simp only [fracText, List.mem_append, List.mem_singleton] at hc
    rcases hc with hc | hc
    · exact ih _ c hc
    · rw [hc, digit_ofNat (Nat.mod_lt _ (by decide))]; rfl

theorem fracText_length : ∀ k n, (fracText k n).length = k := by
  intro k
  induction k with
  | zero => intro n; rfl
  | succ k ih => intro n; simp [fracText, ih]

theorem fracText_fold : ∀ k n v, n < 10 ^ k → (fracText k n).foldl (fun v c => 10 * v + (digit c).getD 0) v =
    10 ^ k * v + n := by
  intro k
  induction k with
  | zero => intro n v h; simp at h; simp [fracText, h]
  | succ k ih =>
    intro n v h
    rw [fracText, List.foldl_append, ih _ _ (by rw [Nat.pow_succ] at h; omega)]
    simp only [List.foldl_cons, List.foldl_nil, digit_ofNat (Nat.mod_lt n (show 0 < 10 by decide)), Option.getD_some]
    rw [Nat.pow_succ]
    have := Nat.div_add_mod n 10
    generalize 10 ^ k = p at *
    have e : 10 * (p * v + n / 10) = p * 10 * v + 10 * (n / 10) := by
      rw [Nat.mul_add, ← Nat.mul_assoc, Nat.mul_comm 10 p]
    omega

/-- What may follow a number. -/
def NumEnd (r : Str) : Prop := ∀ c u, r = c :: u → digit c = none ∧ c ≠ '.' ∧ c ≠ 'e' ∧ c ≠ 'E'

theorem digits_end {r : Str} (h : ∀ c u, r = c :: u → digit c = none) (v k : Nat) : digits r v k = (v, k, r) := by
  cases r with
  | nil => rfl
  | cons c u => simp [digits, h c u rfl]

theorem pexp_end {r : Str} (h : NumEnd r) : pexp r = some (0, r) := by
  cases r with
  | nil => rfl
  | cons c u =>
    have := h c u rfl
    simp only [pexp]
    rw [if_neg (by simp [this.2.2.1, this.2.2.2])]

theorem natText_cons (n : Nat) : ∃ c s, natText n = c :: s ∧ (digit c).isSome := by
  have h := natText_pos n
  have hd := natText_digits n
  cases ht : natText n with
  | nil => rw [ht] at h; simp at h
  | cons c s => exact ⟨c, s, rfl, hd c (by simp [ht])⟩

theorem digit_cases {c : Char} (h : (digit c).isSome) :
    c ∈ ['0', '1', '2', '3', '4', '5', '6', '7', '8', '9'] := by
  unfold digit at h
  have : '0' = c ∨ '1' = c ∨ '2' = c ∨ '3' = c ∨ '4' = c ∨ '5' = c ∨ '6' = c ∨ '7' = c ∨ '8' = c ∨ '9' = c := by
    simpa [List.idxOf?, List.findIdx?_isSome, List.any_eq_true] using h
  rcases this with h | h | h | h | h | h | h | h | h | h <;> subst h <;> decide

theorem psign_natText (neg : Bool) (n : Nat) (r : Str) :
    psign ((if neg then ['-'] else []) ++ (natText n ++ r)) = (neg, natText n ++ r) := by
  cases neg
  · obtain ⟨c, s, hc, hd⟩ := natText_cons n
    have := digit_cases hd
    rw [hc]
    simp only [Bool.false_eq_true, if_false, List.nil_append, List.cons_append]
    rw [psign]
    intro r h
    simp only [List.cons.injEq] at h
    rw [h.1] at this
    exact absurd this (by decide)
  · rfl

theorem natText_lead (n : Nat) (r : Str) :
    ¬((natText n).length = 0 ∨ ((natText n).length ≠ 1 ∧ (natText n ++ r).head? = some '0')) := by
  have h1 := natText_pos n
  rintro (h | ⟨h2, h3⟩)
  · omega
  · apply h2
    apply natText_head
    rw [← h3]
    cases ht : natText n with
    | nil => rw [ht] at h1; simp at h1
    | cons c s => rfl

theorem pnum_int (neg : Bool) (n : Nat) (r : Str) (h : NumEnd r) :
    pnum ((if neg then ['-'] else []) ++ (natText n ++ r)) = some (.num (if neg then -(n : Int) else n) 0, r) := by
  have hd : digits (natText n ++ r) 0 0 = (n, (natText n).length, r) := by
    rw [digits_append (natText_digits n), natText_fold, digits_end fun c u hc => (h c u hc).1]
    simp
  have hdot : pfrac n r = some (n, 0, r) := by
    cases r with
    | nil => rfl
    | cons c u => rw [pfrac]; intro w hw; simp only [List.cons.injEq] at hw; exact (h c u rfl).2.1 hw.1
  simp only [pnum, psign_natText, hd]
  rw [if_neg (natText_lead n r)]
  simp [hdot, pexp_end h]

theorem pnum_flt (neg : Bool) (n f : Nat) (hf : f < 1000000) (r : Str) (h : NumEnd r) :
    pnum ((if neg then ['-'] else []) ++ (natText n ++ '.' :: (fracText 6 f ++ r))) =
      some (.num (if neg then -((1000000 * n + f : Nat) : Int) else (1000000 * n + f : Nat)) 6, r) := by
  have hd : digits (natText n ++ '.' :: (fracText 6 f ++ r)) 0 0 =
      (n, (natText n).length, '.' :: (fracText 6 f ++ r)) := by
    rw [digits_append (natText_digits n), natText_fold, digits_end]
    · simp
    · intro c u hc
      simp only [List.cons.injEq] at hc
      rw [← hc.1]
      decide
  have hd2 : digits (fracText 6 f ++ r) n 0 = (1000000 * n + f, 6, r) := by
    rw [digits_append (fracText_digits 6 f), fracText_fold 6 f n hf, digits_end fun c u hc => (h c u hc).1,
      fracText_length]
  have hdot : pfrac n ('.' :: (fracText 6 f ++ r)) = some (1000000 * n + f, 6, r) := by
    simp [pfrac, hd2]
  simp only [pnum, psign_natText, hd]
  rw [if_neg (natText_lead n _)]
  simp [hdot, pexp_end h]

end Fio.Json
