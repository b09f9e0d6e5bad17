import Verif.WMode.Spec
/-!
# C111: the kinds of writes come in the shares asked for
-/

namespace Fio.WMode

/-- An entry as the loop stores it. -/
def stored (e : Entry) : Op × Nat := (e.op, match e.perc with | none => 2 ^ 32 - 1 | some p => p.toNat)

theorem given_cons (e : Entry) (es : List Entry) : given (e :: es) = (e.perc.getD 0).toNat + given es := by simp [given]

theorem loop_spec (es : List Entry) (i total : Nat) (hi : i + es.length ≤ 5) (hp : ∀ e ∈ es, ∀ p, e.perc = some p → 0 ≤ p)
    (ht : total + given es ≤ 100) : loop es i total = some (es.map stored, total + given es) := by
  induction es generalizing i total with
  | nil => simp [loop, given]
  | cons e es ih =>
    have hg := given_cons e es
    simp only [List.length_cons] at hi
    have hp' : ∀ e ∈ es, ∀ p, e.perc = some p → 0 ≤ p := fun x hx => hp x (List.mem_cons_of_mem _ hx)
    rw [loop, if_neg (by omega)]
    cases he : e.perc with
    | none =>
      rw [he] at hg
      simp only [Option.getD_none, Int.toNat_zero, Nat.zero_add] at hg
      simp only
      rw [ih (i + 1) total (by omega) hp' (by omega), hg]
      simp [stored, he]
    | some p =>
      rw [he] at hg
      simp only [Option.getD_some] at hg
      have h0 := hp e (by simp) p he
      simp only
      rw [if_neg (by omega), Nat.mod_eq_of_lt (by omega), ih (i + 1) _ (by omega) hp' (by omega), hg]
      simp [stored, he, Nat.add_assoc]

theorem stored_blank (e : Entry) (h : (e.perc.getD 0).toNat ≤ 100) : ((stored e).2 = 2 ^ 32 - 1) ↔ e.perc = none := by
  cases he : e.perc with
  | none => simp [stored, he]
  | some p => simp [stored, he] at h ⊢; omega

theorem given_mem (es : List Entry) (e : Entry) (he : e ∈ es) : (e.perc.getD 0).toNat ≤ given es := by
  induction es with
  | nil => cases he
  | cons a es ih =>
    rw [given_cons]
    rcases List.mem_cons.1 he with rfl | h
    · omega
    · have := ih h; omega

theorem missing_eq (es : List Entry) (h : given es ≤ 100) : ((es.map stored).countP fun e => e.2 == 2 ^ 32 - 1) = blanks es := by
  rw [List.countP_map, blanks]
  apply List.countP_congr
  intro e he
  have := stored_blank e (Nat.le_trans (given_mem es e he) h)
  simp only [Function.comp, beq_iff_eq, Option.isNone_iff_eq_none]
  exact this

/-- An option that makes sense is accepted, with the shares as asked for. -/
theorem C111_accepted (es : List Entry) (h : Sensible es) : parse es = some (es.map fun e => (e.op, share es e)) := by
  obtain ⟨h1, h2, h3, h4, h5⟩ := h
  unfold parse
  rw [loop_spec es 0 0 (by omega) h3 (by omega)]
  simp only [Nat.zero_add]
  rw [if_neg (by simp; omega), if_neg (by omega), missing_eq es h4]
  by_cases hb : blanks es = 0
  · rw [if_neg (by simp [hb]), if_neg (by simp [h5 hb])]
    congr 1
    apply List.map_congr_left
    intro e he
    have := List.countP_eq_zero.1 hb e he
    cases hp : e.perc with
    | none => simp [hp] at this
    | some p => simp [stored, share, hp]
  · rw [if_pos hb]
    congr 1
    rw [List.map_map]
    apply List.map_congr_left
    intro e he
    have hs := stored_blank e (Nat.le_trans (given_mem es e he) h4)
    simp only [Function.comp]
    cases hp : e.perc with
    | none =>
      rw [if_pos (hs.2 hp)]
      simp [stored, share, hp]
    | some p =>
      rw [if_neg (fun hc => by rw [hs.1 hc] at hp; cases hp)]
      simp [stored, share, hp]

/-- The percentages before entry `k`. -/
def before (split : List (Op × Nat)) (k : Nat) : Nat := ((split.take k).map (·.2)).sum

theorem choose_spec (split : List (Op × Nat)) (r i perc k : Nat) (hr : perc ≤ r) (hs : perc + (split.map (·.2)).sum < 2 ^ 32) :
    choose r split i perc = some (i + k) ↔ ∃ e, split[k]? = some e ∧ perc + before split k ≤ r ∧ r < perc + before split k + e.2 := by
  induction split generalizing i perc k with
  | nil => simp [choose]
  | cons a l ih =>
    simp only [List.map_cons, List.sum_cons] at hs
    have hm : (perc + a.2) % 2 ^ 32 = perc + a.2 := Nat.mod_eq_of_lt (by omega)
    rw [choose, hm]
    by_cases hc : r < perc + a.2
    · rw [if_pos hc]
      cases k with
      | zero => simp [before]; omega
      | succ k =>
        simp only [Option.some.injEq]
        constructor
        · intro h; omega
        · rintro ⟨e, _, h1, _⟩
          simp only [before, List.take_succ_cons, List.map_cons, List.sum_cons] at h1
          omega
    · rw [if_neg hc]
      cases k with
      | zero =>
        simp only [Nat.add_zero]
        constructor
        · intro h
          exfalso
          have : ∀ (l : List (Op × Nat)) (i perc : Nat), choose r l (i + 1) perc ≠ some i ∧ ∀ j, choose r l i perc = some j → i ≤ j := by
            intro l
            induction l with
            | nil => intro i perc; simp [choose]
            | cons b l ih2 =>
              intro i perc
              have g : ∀ i j, choose r (b :: l) i perc = some j → i ≤ j := by
                intro i j hj
                rw [choose] at hj
                split at hj
                · cases hj; omega
                · have := (ih2 (i + 1) _).2 j hj; omega
              exact ⟨fun h => by have := g _ _ h; omega, fun j => g i j⟩
          exact (this l i _).1 h
        · rintro ⟨e, h0, _, h2⟩
          simp only [List.getElem?_cons_zero, Option.some.injEq] at h0
          subst h0
          simp [before] at h2
          omega
      | succ k =>
        have e1 : i + (k + 1) = (i + 1) + k := by omega
        have e2 : before (a :: l) (k + 1) = a.2 + before l k := by simp [before]
        rw [e1, ih (i + 1) (perc + a.2) k (by omega) (by omega), e2]
        simp only [List.getElem?_cons_succ, Nat.add_assoc]

theorem count_between (n a p : Nat) (h : a + p ≤ n) : ((List.range n).countP fun r => decide (a ≤ r) && decide (r < a + p)) = p := by
  have : ∀ n, ((List.range n).countP fun r => decide (a ≤ r) && decide (r < a + p)) = min n (a + p) - a := by
    intro n
    induction n with
    | zero => simp
    | succ n ih =>
      rw [List.range_succ, List.countP_append, ih]
      simp only [List.countP_cons, List.countP_nil, Nat.zero_add, Bool.and_eq_true, decide_eq_true_eq]
      split <;> omega
  rw [this]
  omega

theorem before_le (split : List (Op × Nat)) (k : Nat) (e : Op × Nat) (he : split[k]? = some e) : before split k + e.2 ≤ (split.map (·.2)).sum := by
  induction split generalizing k with
  | nil => simp at he
  | cons a l ih =>
    cases k with
    | zero =>
      simp only [List.getElem?_cons_zero, Option.some.injEq] at he
      subst he
      simp [before]
    | succ k =>
      have := ih k (by simpa using he)
      simp only [before, List.take_succ_cons, List.map_cons, List.sum_cons] at this ⊢
      omega

theorem draws_eq (split : List (Op × Nat)) (hs : (split.map (·.2)).sum ≤ 100) (k : Nat) (e : Op × Nat) (he : split[k]? = some e) :
    draws split k = e.2 := by
  have hb := before_le split k e he
  have h1 := count_between 100 (before split k) e.2 (by omega)
  rw [← h1]
  unfold draws
  apply List.countP_congr
  intro r _
  have := choose_spec split r 0 0 k (by omega) (by omega)
  simp only [Nat.zero_add] at this
  rw [beq_iff_eq, this]
  simp [he]

theorem shares_sum (es l : List Entry) : ((l.map fun e => (e.op, share es e)).map (·.2)).sum = given l + blanks l * ((100 - given es) / blanks es) := by
  induction l with
  | nil => simp [given, blanks]
  | cons e l ih =>
    have hg := given_cons e l
    simp only [List.map_cons, List.sum_cons, ih]
    cases hp : e.perc with
    | none =>
      rw [hp] at hg
      have hb : blanks (e :: l) = blanks l + 1 := by simp [blanks, hp]
      rw [hb, Nat.add_mul, hg]
      simp [share, hp]
      omega
    | some p =>
      rw [hp] at hg
      have hb : blanks (e :: l) = blanks l := by simp [blanks, hp]
      rw [hb, hg]
      simp [share, hp]
      omega

theorem shares_le (es : List Entry) (h : given es ≤ 100) : ((es.map fun e => (e.op, share es e)).map (·.2)).sum ≤ 100 := by
  rw [shares_sum]
  have := Nat.mul_div_le (100 - given es) (blanks es)
  omega

/-- Of the 100 draws each entry gets its share. -/
theorem C111_shares (es : List Entry) (h : Sensible es) (split : List (Op × Nat)) (hs : parse es = some split) (k : Nat) (e : Entry)
    (he : es[k]? = some e) : draws split k = share es e := by
  rw [C111_accepted es h] at hs
  cases hs
  exact draws_eq _ (shares_le es h.2.2.2.1) k _ (by rw [List.getElem?_map, he]; rfl)

theorem choose_total (split : List (Op × Nat)) (r i perc : Nat) (hs : perc + (split.map (·.2)).sum < 2 ^ 32) (hr : perc ≤ r)
    (h : r < perc + (split.map (·.2)).sum) : ∃ k, choose r split i perc = some (i + k) ∧ k < split.length := by
  induction split generalizing i perc with
  | nil => simp at h; omega
  | cons a l ih =>
    simp only [List.map_cons, List.sum_cons] at hs h
    have hm : (perc + a.2) % 2 ^ 32 = perc + a.2 := Nat.mod_eq_of_lt (by omega)
    rw [choose, hm]
    by_cases hc : r < perc + a.2
    · rw [if_pos hc]
      exact ⟨0, rfl, by simp⟩
    · rw [if_neg hc]
      obtain ⟨k, h1, h2⟩ := ih (i + 1) (perc + a.2) (by omega) (by omega) (by omega)
      exact ⟨k + 1, by rw [h1]; congr 1; omega, by simp; omega⟩

/-- Every write gets an operation, and flags that say what the block then holds. Missing: options whose blank entries do not divide what is left
(see the counterexample). -/
theorem C111_every_partial (es : List Entry) (h : Sensible es) (hd : blanks es ∣ 100 - given es) (split : List (Op × Nat)) (hs : parse es = some split)
    (deac : Bool) (r : Nat) (hr : r < 100) (f : Flags) : ∃ op f', prepWrite deac split r f = some (op, f') ∧ (∃ e ∈ es, e.op = op) ∧
      (f'.trimmed = true ↔ op = .zeroes ∧ deac = true) ∧ (f'.zeroed = true ↔ op = .zeroes ∧ deac = false) ∧ (f'.errored = true ↔ op = .uncor) := by
  rw [C111_accepted es h] at hs
  cases hs
  have hsum : ((es.map fun e => (e.op, share es e)).map (·.2)).sum = 100 := by
    rw [shares_sum, Nat.mul_div_cancel' hd]
    have := h.2.2.2.1
    omega
  obtain ⟨k, h1, h2⟩ := choose_total (es.map fun e => (e.op, share es e)) r 0 0 (by omega) (by omega) (by omega)
  rw [List.length_map] at h2
  rw [Nat.zero_add] at h1
  have h3 : (es.map fun e => (e.op, share es e))[k]? = some (es[k].op, share es es[k]) := by
    rw [List.getElem?_map, List.getElem?_eq_getElem h2]; rfl
  unfold prepWrite
  rw [h1]
  simp only [h3]
  refine ⟨_, _, rfl, ⟨es[k], List.getElem_mem h2, rfl⟩, ?_⟩
  generalize es[k].op = op
  cases op <;> cases deac <;> simp

/-- Sixty, and two blank entries with twenty each. -/
def exEs : List Entry := [⟨.write, some 60⟩, ⟨.zeroes, none⟩, ⟨.uncor, none⟩]

theorem C111_example : Sensible exEs ∧ blanks exEs ∣ 100 - given exEs ∧ parse exEs = some [(.write, 60), (.zeroes, 20), (.uncor, 20)] ∧
    draws [(.write, 60), (.zeroes, 20), (.uncor, 20)] 1 = 20 ∧
    prepWrite true [(.write, 60), (.zeroes, 20), (.uncor, 20)] 79 ⟨false, true, true⟩ = some (.zeroes, ⟨true, false, false⟩) := by
  refine ⟨⟨by decide, by decide, ?_, by decide, by decide⟩, ⟨20, by decide⟩, by decide +kernel, by decide +kernel, by decide +kernel⟩
  intro e he p hp
  simp only [exEs, List.mem_cons, List.not_mem_nil, or_false] at he
  rcases he with rfl | rfl | rfl
  · cases hp; decide
  · cases hp
  · cases hp

/-- Three blank entries get 33 each: of 100 writes one is refused with `EINVAL`. -/
theorem C111_blank_counterexample : parse [⟨.write, none⟩, ⟨.zeroes, none⟩, ⟨.uncor, none⟩] = some [(.write, 33), (.zeroes, 33), (.uncor, 33)] ∧
    prepWrite false [(.write, 33), (.zeroes, 33), (.uncor, 33)] 99 ⟨false, false, false⟩ = none := by
  decide +kernel

/-- The sum has 32 bits: percentages that add up to 2^32 + 100 are accepted, and every write is of the first kind. -/
theorem C111_sum_counterexample : parse [⟨.write, some 2147483647⟩, ⟨.zeroes, some 2147483647⟩, ⟨.uncor, some 102⟩] =
      some [(.write, 2147483647), (.zeroes, 2147483647), (.uncor, 102)] ∧
    draws [(.write, 2147483647), (.zeroes, 2147483647), (.uncor, 102)] 0 = 100 := by
  decide +kernel

end Fio.WMode
