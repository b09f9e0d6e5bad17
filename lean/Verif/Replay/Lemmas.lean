import Verif.Replay.Model

/-! Lemmas: a line written is read back. -/
namespace Fio.Replay

theorem numVal_append (a : List Nat) (d : Nat) :
    numVal (a ++ [d]) = numVal a * 10 + (d - 48) := by
  simp [numVal, List.foldl_append]

theorem decF_numVal : ∀ f n, n < 10 ^ f → 0 < f → numVal (decF f n) = n := by
  intro f
  induction f with
  | zero => intro n _ h; omega
  | succ f ih =>
    intro n hn _
    unfold decF
    split
    · simp [numVal]
    · rename_i h10
      rw [numVal_append]
      have hf : 0 < f := by
        rcases Nat.eq_zero_or_pos f with h | h
        · subst h; simp at hn; omega
        · exact h
      rw [ih (n / 10) (by rw [Nat.pow_succ] at hn; omega) hf]
      omega

theorem decF_digits : ∀ f n, ∀ b ∈ decF f n, isDigit b = true := by
  intro f
  induction f with
  | zero => intro n b h; simp [decF] at h
  | succ f ih =>
    intro n b h
    unfold decF at h
    split at h
    · simp at h; subst h; simp [isDigit]; omega
    · rw [List.mem_append] at h
      rcases h with h | h
      · exact ih _ b h
      · simp at h; subst h; simp [isDigit]; omega

theorem decF_ne (f n : Nat) (hf : 0 < f) : decF f n ≠ [] := by
  cases f with
  | zero => omega
  | succ f => unfold decF; split <;> simp

theorem decF_length : ∀ f n, (decF f n).length ≤ f := by
  intro f
  induction f with
  | zero => intro n; simp [decF]
  | succ f ih =>
    intro n
    unfold decF
    split
    · simp
    · have := ih (n / 10)
      simp; omega

theorem takeWhile_append_stop {p : Nat → Bool} {a : List Nat} {c : Nat} {r : List Nat}
    (ha : ∀ b ∈ a, p b = true) (hc : p c = false) :
    (a ++ c :: r).takeWhile p = a := by
  induction a with
  | nil => simp [hc]
  | cons x a ih =>
    have hx := ha x (by simp)
    simp only [List.cons_append, List.takeWhile_cons, hx, if_true]
    rw [ih (fun b hb => ha b (by simp [hb]))]

theorem dropWhile_append_stop {p : Nat → Bool} {a : List Nat} {c : Nat} {r : List Nat}
    (ha : ∀ b ∈ a, p b = true) (hc : p c = false) :
    (a ++ c :: r).dropWhile p = c :: r := by
  induction a with
  | nil => simp [hc]
  | cons x a ih =>
    have hx := ha x (by simp)
    simp only [List.cons_append, List.dropWhile_cons, hx, if_true]
    exact ih (fun b hb => ha b (by simp [hb]))

theorem digit_not_space {b : Nat} (h : isDigit b = true) : isSpace b = false := by
  simp only [isDigit, Bool.and_eq_true, decide_eq_true_eq] at h
  simp only [isSpace, Bool.or_eq_false_iff, beq_eq_false_iff_ne, Bool.and_eq_false_iff,
    decide_eq_false_iff_not]
  omega

theorem takeWhile_all {p : Nat → Bool} : ∀ {a : List Nat}, (∀ b ∈ a, p b = true) → a.takeWhile p = a
  | [], _ => rfl
  | x :: a, h => by
    rw [List.takeWhile_cons, if_pos (h x (by simp)), takeWhile_all (fun b hb => h b (by simp [hb]))]

theorem skipWs_tok {a r : List Nat} (hne : a ≠ []) (ha : ∀ b ∈ a, isSpace b = false) :
    skipWs (a ++ r) = a ++ r := by
  cases a with
  | nil => exact absurd rfl hne
  | cons x a =>
    have hx := ha x (by simp)
    simp [skipWs, hx]

theorem skipWs_sp (r : List Nat) : skipWs (32 :: r) = skipWs r := by
  simp [skipWs, isSpace]

theorem readNum_dec {n c : Nat} {r : List Nat} (hn : n < 2 ^ 64) (hc : isDigit c = false) :
    readNum (dec n ++ c :: r) = some (n, c :: r) := by
  have hd := decF_digits 20 n
  have hne := decF_ne 20 n (by omega)
  have hv := decF_numVal 20 n (by omega) (by omega)
  have hh : ∀ k : Nat, isDigit k = false → ((dec n ++ c :: r).head? == some k) = false := by
    intro k hk
    unfold dec
    cases hl : decF 20 n with
    | nil => exact absurd hl hne
    | cons x xs =>
      have := hd x (by rw [hl]; simp)
      simp only [List.cons_append, List.head?_cons, beq_eq_false_iff_ne, ne_eq, Option.some.injEq]
      intro e; subst e; rw [hk] at this; cases this
  have h45 := hh 45 (by decide)
  have h43 := hh 43 (by decide)
  unfold readNum
  simp only [h45, h43, Bool.or_self, Bool.false_eq_true, if_false]
  have ht : (dec n ++ c :: r).takeWhile isDigit = dec n := takeWhile_append_stop hd hc
  have hdr : (dec n ++ c :: r).dropWhile isDigit = c :: r := dropWhile_append_stop hd hc
  rw [ht, hdr]
  have hne' : dec n ≠ [] := hne
  rw [if_neg hne']
  have hv' : numVal (dec n) = n := hv
  rw [hv', if_neg (by omega)]

theorem dec_nospace (n : Nat) : ∀ b ∈ dec n, isSpace b = false :=
  fun b hb => digit_not_space (decF_digits 20 n b hb)

theorem dec_ne (n : Nat) : dec n ≠ [] := decF_ne 20 n (by omega)

theorem conv_ull {n c : Nat} {r : List Nat} (hn : n < 2 ^ 64) (hc : isDigit c = false) :
    conv1 .ull (dec n ++ c :: r) = some (.num n, c :: r) := by
  simp only [conv1]
  rw [skipWs_tok (dec_ne n) (dec_nospace n), readNum_dec hn hc]
  rfl

theorem conv_sp (k : Conv) (r : List Nat) : conv1 k (32 :: r) = conv1 k r := by
  cases k <;> simp only [conv1, skipWs_sp]

theorem conv_u {n c : Nat} {r : List Nat} (hn : n < 2 ^ 64) (hc : isDigit c = false) :
    conv1 .u (dec n ++ c :: r) = some (.num (n % 2 ^ 32), c :: r) := by
  simp only [conv1]
  rw [skipWs_tok (dec_ne n) (dec_nospace n), readNum_dec hn hc]
  rfl

theorem conv_s {w : Nat} {a r : List Nat} {c : Nat} (hne : a ≠ []) (hw : a.length ≤ w)
    (ha : ∀ b ∈ a, isSpace b = false) (hc : isSpace c = true) :
    conv1 (.s w) (a ++ c :: r) = some (.bytes a, c :: r) := by
  simp only [conv1]
  rw [skipWs_tok hne ha]
  have ht : ((a ++ c :: r).take w).takeWhile (fun b => !isSpace b) = a := by
    rw [List.take_append]
    rw [List.take_of_length_le hw]
    rcases Nat.eq_zero_or_pos (w - a.length) with h | h
    · rw [h]
      simp only [List.take_zero, List.append_nil]
      exact takeWhile_all (fun b hb => by simp [ha b hb])
    · obtain ⟨m, hm⟩ : ∃ m, w - a.length = m + 1 := ⟨w - a.length - 1, by omega⟩
      rw [hm]
      simp only [List.take_succ_cons]
      exact takeWhile_append_stop (fun b hb => by simp [ha b hb]) (by simp [hc])
  rw [ht, if_neg hne, List.drop_left]

theorem conv_end (k : Conv) : conv1 k [10] = none := by
  cases k with
  | ull => decide
  | u => decide
  | s w => simp [conv1, skipWs, isSpace]

/-- A name that can stand in a log. -/
def GoodName (n : List Nat) : Prop :=
  n ≠ [] ∧ n.length ≤ 256 ∧ ∀ b ∈ n, isSpace b = false ∧ b ≠ 0

theorem scan_io {t off len : Nat} {nm a : List Nat} (ht : t < 2 ^ 64) (ho : off < 2 ^ 64)
    (hl : len < 2 ^ 64) (hn : GoodName nm) (ha : GoodName a) :
    scan [.ull, .s 256, .s 256, .ull, .u]
      (dec t ++ [32] ++ nm ++ [32] ++ a ++ [32] ++ dec off ++ [32] ++ dec len ++ [10])
      = [.num t, .bytes nm, .bytes a, .num off, .num (len % 2 ^ 32)] := by
  have e : dec t ++ [32] ++ nm ++ [32] ++ a ++ [32] ++ dec off ++ [32] ++ dec len ++ [10]
      = dec t ++ 32 :: (nm ++ 32 :: (a ++ 32 :: (dec off ++ 32 :: (dec len ++ 10 :: [])))) := by
    simp
  rw [e]
  simp only [scan]
  rw [conv_ull ht (by decide)]
  simp only
  rw [conv_sp, conv_s hn.1 hn.2.1 (fun b hb => (hn.2.2 b hb).1) (by decide)]
  simp only
  rw [conv_sp, conv_s ha.1 ha.2.1 (fun b hb => (ha.2.2 b hb).1) (by decide)]
  simp only
  rw [conv_sp, conv_ull ho (by decide)]
  simp only
  rw [conv_sp, conv_u hl (by decide)]

theorem scan_file {t : Nat} {nm a : List Nat} (ht : t < 2 ^ 64)
    (hn : GoodName nm) (ha : GoodName a) :
    scan [.ull, .s 256, .s 256, .ull, .u] (dec t ++ [32] ++ nm ++ [32] ++ a ++ [10])
      = [.num t, .bytes nm, .bytes a] := by
  have e : dec t ++ [32] ++ nm ++ [32] ++ a ++ [10]
      = dec t ++ 32 :: (nm ++ 32 :: (a ++ 10 :: [])) := by simp
  rw [e]
  simp only [scan]
  rw [conv_ull ht (by decide)]
  simp only
  rw [conv_sp, conv_s hn.1 hn.2.1 (fun b hb => (hn.2.2 b hb).1) (by decide)]
  simp only
  rw [conv_sp, conv_s ha.1 ha.2.1 (fun b hb => (ha.2.2 b hb).1) (by decide)]
  simp only
  rw [conv_end]

theorem good_ddir (d : Ddir) : GoodName (ddirName d) := by
  refine ⟨?_, ?_, ?_⟩ <;> cases d <;> decide

theorem good_fact (a : FAct) : GoodName (factName a) := by
  refine ⟨?_, ?_, ?_⟩ <;> cases a <;> decide

/-- Bytes that may stand in a line before its end. -/
def Body (l : List Nat) : Prop := ∀ b ∈ l, b ≠ 10 ∧ b ≠ 0

theorem Body.append {a b : List Nat} (ha : Body a) (hb : Body b) : Body (a ++ b) := by
  intro x hx
  rw [List.mem_append] at hx
  exact hx.elim (ha x) (hb x)

theorem body_good {n : List Nat} (h : GoodName n) : Body n := by
  intro b hb
  have := h.2.2 b hb
  refine ⟨?_, this.2⟩
  intro e; subst e
  have := this.1
  simp [isSpace] at this

theorem body_dec (n : Nat) : Body (dec n) := by
  intro b hb
  have := decF_digits 20 n b hb
  simp only [isDigit, Bool.and_eq_true, decide_eq_true_eq] at this
  omega

theorem body_sp : Body [32] := by intro b hb; simp at hb; subst hb; decide

theorem cstr_line {l : List Nat} (h : Body l) : cstr (l ++ [10]) = l ++ [10] := by
  unfold cstr
  apply takeWhile_all
  intro b hb
  rw [List.mem_append] at hb
  rcases hb with hb | hb
  · simpa using (h b hb).2
  · simp at hb; subst hb; decide

theorem fgets_line : ∀ (l r : List Nat) (n : Nat), Body l → l.length < n →
    fgets n (l ++ [10] ++ r) = (l ++ [10], r) := by
  intro l
  induction l with
  | nil =>
    intro r n _ hn
    cases n with
    | zero => simp at hn
    | succ n => simp [fgets]
  | cons x l ih =>
    intro r n hb hn
    cases n with
    | zero => simp at hn
    | succ n =>
      have hx : x ≠ 10 := (hb x (by simp)).1
      have := ih r n (fun b h => hb b (by simp [h])) (by simp at hn; omega)
      simp only [List.cons_append, fgets, if_neg hx]
      rw [this]

theorem dec_length (n : Nat) : (dec n).length ≤ 20 := decF_length 20 n

theorem factName_length (a : FAct) : (factName a).length ≤ 5 := by cases a <;> decide
theorem ddirName_length (d : Ddir) : (ddirName d).length ≤ 15 := by cases d <;> decide

/-- The line of an entry before its newline. -/
def lineBody (names : List (List Nat)) : Ev → List Nat
  | .file t f a => dec t ++ [32] ++ names.getD f [] ++ [32] ++ factName a
  | .io t f d off len =>
    dec t ++ [32] ++ names.getD f [] ++ [32] ++ ddirName d ++ [32] ++ dec off ++ [32] ++ dec len

theorem logLine_eq (names : List (List Nat)) (e : Ev) :
    logLine names e = lineBody names e ++ [10] := by
  cases e <;> rfl

/-- The file an entry is about. -/
def evFile : Ev → Nat
  | .file _ f _ => f
  | .io _ f _ _ _ => f

/-- The time of an entry. -/
def evTime : Ev → Nat
  | .file t _ _ => t
  | .io t _ _ _ _ => t

theorem body_line {names : List (List Nat)} {e : Ev} (h : GoodName (names.getD (evFile e) [])) :
    Body (lineBody names e) ∧ (lineBody names e).length < 4095 := by
  cases e with
  | file t f a =>
    refine ⟨((((body_dec t).append body_sp).append (body_good h)).append body_sp).append
      (body_good (good_fact a)), ?_⟩
    have := dec_length t
    have := factName_length a
    have := h.2.1
    simp only [evFile] at this
    simp only [lineBody, List.length_append, List.length_cons, List.length_nil]
    omega
  | io t f d off len =>
    refine ⟨((((((((body_dec t).append body_sp).append (body_good h)).append body_sp).append
      (body_good (good_ddir d))).append body_sp).append (body_dec off)).append body_sp).append
      (body_dec len), ?_⟩
    have := dec_length t
    have := dec_length off
    have := dec_length len
    have := ddirName_length d
    have := h.2.1
    simp only [evFile] at this
    simp only [lineBody, List.length_append, List.length_cons, List.length_nil]
    omega

end Fio.Replay
