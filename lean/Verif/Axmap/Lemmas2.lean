import Verif.Axmap.Lemmas
import Verif.Axmap.Spec
/-
Refinement of the specification: axmap_set_nr, axmap_isset, searches.
-/
namespace Fio.Axmap

theorem freeRun_isRun (m : Spec.Marks) : ∀ (k b : Nat), IsRun m b k (Spec.freeRun m b k) := by
  intro k
  induction k with
  | zero => intro b; exact ⟨Nat.le_refl _, by intro j hj; simp [Spec.freeRun] at hj, by simp [Spec.freeRun]⟩
  | succ k ih =>
    intro b
    unfold Spec.freeRun
    by_cases h : m b = true
    · simp only [h, if_true]
      exact ⟨by omega, by intro j hj; omega, by intro _; simpa using h⟩
    · obtain ⟨h1, h2, h3⟩ := ih (b + 1)
      rw [if_neg h]
      refine ⟨by omega, ?_, ?_⟩
      · intro j hj
        cases j with
        | zero => simpa using h
        | succ j => rw [show b + (j + 1) = b + 1 + j by omega]; exact h2 j (by omega)
      · intro hlt
        rw [show b + (1 + Spec.freeRun m (b + 1) k) = b + 1 + Spec.freeRun m (b + 1) k by omega]
        exact h3 (by omega)

theorem freeRun_eq {m : Spec.Marks} {b k r : Nat} (h : IsRun m b k r) : Spec.freeRun m b k = r :=
  (freeRun_isRun m k b).unique h

/-- An axmap of `n` blocks representing the set `P`. -/
structure Rep (n : Nat) (a : Axmap) (P : Nat → Bool) : Prop where
  bits : a.nrBits = n
  ne : a.levels ≠ []
  tower : Tower a.levels n P

/-! ### creation and reset -/

theorem getBit_replicate (c i : Nat) : getBit (List.replicate c 0#64) i = false := by
  unfold getBit
  rw [List.getElem?_replicate]
  split <;> simp

theorem tower_mkLevels (c : Nat) : ∀ n, Tower (mkLevels c n) n (fun _ => false) := by
  induction c with
  | zero => intro n; trivial
  | succ c ih =>
    intro n
    refine ⟨by simp, fun i => getBit_replicate _ i, ?_⟩
    apply Tower.congr _ (by simpa using ih ((n + 63) / 64))
    intro w
    symm
    simp only [decide_eq_false_iff_not]
    rw [List.getElem?_replicate]
    split
    · rw [Option.some_inj, minusOne]; decide
    · simp

theorem countLevels_pos (i l : Nat) (h : 0 < l) : 0 < countLevels i l := by
  fun_induction countLevels i l <;> simp_all

theorem rep_new (n : Nat) : Rep n (axmapNew n) Spec.empty := by
  refine ⟨rfl, ?_, tower_mkLevels _ _⟩
  simp only [axmapNew]
  have := countLevels_pos ((n + 63) / 64 % 2 ^ 32) 1 (by omega)
  cases h : countLevels ((n + 63) / 64 % 2 ^ 32) 1 with
  | zero => omega
  | succ c => simp [mkLevels]

theorem tower_reset {ls : List (List Word)} : ∀ {n P}, Tower ls n P →
    Tower (ls.map fun l => List.replicate l.length 0#64) n (fun _ => false) := by
  induction ls with
  | nil => intro n P _; trivial
  | cons l rest ih =>
    intro n P ⟨h1, _, h3⟩
    refine ⟨by simp [h1], fun i => getBit_replicate _ i, ?_⟩
    apply Tower.congr _ (by simpa using ih h3)
    intro w
    symm
    simp only [decide_eq_false_iff_not]
    rw [List.getElem?_replicate]
    split
    · rw [Option.some_inj, minusOne]; decide
    · simp

theorem rep_reset {n a P} (h : Rep n a P) : Rep n (axmapReset a) Spec.empty :=
  ⟨h.bits, by simp [axmapReset, h.ne], tower_reset h.tower⟩

/-! ### setting -/

theorem set0_spec {n a P b k} (h : Rep n a P) (hb : b < n) (hk : k + b % 64 ≤ 64) :
    ∃ r a' c, IsRun P b k r ∧ axmapSet0 a b ⟨k, 0⟩ = some (a', ⟨c, r⟩) ∧
      Rep n a' (fun i => P i || decide (b ≤ i ∧ i < b + r)) := by
  obtain ⟨r, ls', c, h1, h2, h3, h4⟩ := handler_zero (k := k) h.ne h.tower (b := b) (by omega) hk
  refine ⟨r, { a with levels := ls' }, c, h1, ?_, h.bits, h3, h4⟩
  have hbits := h.bits
  have e1 : ¬ (b > a.nrBits) := by omega
  have e2 : (if b + k > a.nrBits then a.nrBits - b else k) ≤ 64 := by split <;> omega
  simp [axmapSet0, e1, e2, h2]

theorem rep_set {n a P b} (h : Rep n a P) (hb : b < n) :
    ∃ a', axmapSet a b = some a' ∧ Rep n a' (Spec.set P b) := by
  obtain ⟨r, a', c, h1, h2, h3⟩ := set0_spec (k := 1) h hb (by omega)
  refine ⟨a', by simp [axmapSet, h2], ⟨h3.bits, h3.ne, ?_⟩⟩
  apply Tower.congr _ h3.tower
  intro i
  obtain ⟨r1, r2, r3⟩ := h1
  simp only [Spec.set]
  by_cases hi : i = b
  · subst hi
    by_cases hr : r = 0
    · subst hr; have := r3 (by omega); simp at this; simp [this]
    · have : i < i + r := by omega
      simp [this]
  · have : ¬ (b ≤ i ∧ i < b + r) := by omega
    have h2 : (i == b) = false := by simpa using hi
    simp [h2]; omega

theorem isRun_append {P : Nat → Bool} {b c k r : Nat} (h1 : IsRun P b c c)
    (h2 : IsRun P (b + c) k r) : IsRun P b (c + k) (c + r) := by
  obtain ⟨_, a2, _⟩ := h1
  obtain ⟨b1, b2, b3⟩ := h2
  refine ⟨by omega, ?_, ?_⟩
  · intro j hj
    by_cases hjc : j < c
    · exact a2 j hjc
    · have := b2 (j - c) (by omega)
      rwa [show b + c + (j - c) = b + j by omega] at this
  · intro hlt
    rw [show b + (c + r) = b + c + r by omega]
    exact b3 (by omega)

theorem isRun_cut {P : Nat → Bool} {b c k r : Nat} (h : IsRun P b c r) (hc : c ≤ k) (hr : r ≠ c) :
    IsRun P b k r := by
  obtain ⟨a1, a2, a3⟩ := h
  exact ⟨by omega, a2, fun _ => a3 (by omega)⟩

theorem setNrLoop_spec {n : Nat} : ∀ (k b s : Nat) (a : Axmap) (P : Nat → Bool),
    Rep n a P → b < n → b + k ≤ n →
    ∃ a' r, axmapSetNrLoop a b k s = some (a', s + r) ∧ IsRun P b k r ∧
      Rep n a' (fun i => P i || decide (b ≤ i ∧ i < b + r)) := by
  intro k
  induction k using Nat.strongRecOn with
  | ind k ih =>
    intro b s a P h hb hbk
    have hc : chunk b k + b % 64 ≤ 64 ∧ chunk b k ≤ k ∧ (0 < k → 0 < chunk b k) := by
      unfold chunk; split <;> omega
    obtain ⟨hc1, hc2, hc3⟩ := hc
    obtain ⟨r, a', c, h1, h2, h3⟩ := set0_spec h hb hc1
    rw [axmapSetNrLoop, h2]
    by_cases e1 : r = chunk b k
    · by_cases e2 : k - r = 0
      · refine ⟨a', r, ?_, ?_, h3⟩
        · simp [e1]; intro hh; omega
        · have : chunk b k = k := by omega
          rw [this] at h1; exact h1
      · obtain ⟨a'', r', g1, g2, g3⟩ := ih (k - r) (by omega) (b + r) (s + r) a' _ h3
          (by omega) (by omega)
        refine ⟨a'', r + r', ?_, ?_, ?_⟩
        · simp only [e1, ne_eq, not_true_eq_false, if_false]
          rw [← e1, if_neg e2, g1, Nat.add_assoc]
        · have hP : IsRun P (b + r) (k - r) r' := by
            obtain ⟨q1, q2, q3⟩ := g2
            refine ⟨q1, ?_, ?_⟩
            · intro j hj
              have := q2 j hj
              simp only [Bool.or_eq_false_iff] at this
              exact this.1
            · intro hj
              have := q3 hj
              simp only [Bool.or_eq_true, decide_eq_true_eq] at this
              rcases this with h | h
              · exact h
              · omega
          have := isRun_append (by rw [← e1] at h1; exact h1) hP
          rwa [show r + (k - r) = k by omega] at this
        · refine ⟨g3.bits, g3.ne, Tower.congr ?_ g3.tower⟩
          intro i
          rw [Bool.or_assoc]
          congr 1
          rw [Bool.eq_iff_iff]
          simp only [Bool.or_eq_true, decide_eq_true_eq]
          omega
    · refine ⟨a', r, by simp [e1], isRun_cut h1 hc2 e1, h3⟩

theorem rep_setNr {n a P b k} (h : Rep n a P) (hb : b < n) (hk : b + k ≤ n) :
    ∃ a', axmapSetNr a b k = some (a', Spec.freeRun P b k) ∧ Rep n a' (Spec.setRun P b k) := by
  obtain ⟨a', r, h1, h2, h3⟩ := setNrLoop_spec k b 0 a P h hb hk
  have hr := freeRun_eq h2
  refine ⟨a', by rw [axmapSetNr, h1, hr]; simp, ⟨h3.bits, h3.ne, Tower.congr ?_ h3.tower⟩⟩
  intro i
  simp [Spec.setRun, hr]

/-! ### isset -/

theorem issetFrom_cons (l : List Word) (rest : List (List Word)) (b : Nat) : ∀ i,
    issetFrom (l :: rest) b (i + 1) =
      (issetFrom rest (b / 64) i).bind fun t =>
        if t then some true else (l[b / 64]?).bind fun w => some (w.getLsbD (b % 64)) := by
  intro i
  induction i with
  | zero =>
    cases h : l[b / 64]? with
    | none => simp [issetFrom, h]
    | some w =>
      cases h2 : w.getLsbD (b % 64) <;> simp [issetFrom, h, h2]
  | succ i ih =>
    rw [issetFrom]
    rw [issetFrom.eq_2 rest]
    have e : b / 64 ^ (i + 1) = b / 64 / 64 ^ i := by
      rw [Nat.pow_succ, Nat.mul_comm, Nat.div_div_eq_div_mul]
    simp only [List.getElem?_cons_succ, e]
    cases h : rest[i]? with
    | none => simp
    | some m =>
      cases h2 : m[b / 64 / 64 ^ i / 64]? with
      | none => simp [h2]
      | some w =>
        simp only [h2, Option.bind_eq_bind, Option.bind_some]
        split
        · simp
        · exact ih

theorem issetFrom_tower {ls : List (List Word)} : ∀ {n P b}, Tower ls n P →
    b < 64 * ((n + 63) / 64) →
    ∃ t, issetFrom ls b ls.length = some t ∧ (ls ≠ [] → t = P b) ∧ (ls = [] → t = false) := by
  induction ls with
  | nil => intro n P b _ _; exact ⟨false, by simp [issetFrom], by simp, by simp⟩
  | cons l rest ih =>
    intro n P b ⟨h1, h2, h3⟩ hb
    have hoff : b / 64 < l.length := by omega
    have hb2 : b / 64 < 64 * ((l.length + 63) / 64) := by omega
    obtain ⟨t, ht, ht1, ht2⟩ := ih h3 hb2
    have hw : l[b / 64]? = some l[b / 64] := List.getElem?_eq_getElem hoff
    have hbit := getBit_of_word hw
    rw [h2] at hbit
    rw [List.length_cons, issetFrom_cons, ht]
    cases t with
    | false => exact ⟨P b, by simp [hw, hbit], fun _ => rfl, by simp⟩
    | true =>
      refine ⟨true, by simp, fun _ => ?_, by simp⟩
      cases rest with
      | nil => simp at ht2
      | cons m ms =>
        have := ht1 (by simp)
        have hfull := of_decide_eq_true this.symm
        rw [full_iff_bits hoff] at hfull
        have := hfull (b % 64) (by omega)
        rw [h2, show 64 * (b / 64) + b % 64 = b by omega] at this
        exact this.symm

theorem rep_isset {n a P b} (h : Rep n a P) (hb : b < n) : axmapIsset a b = some (P b) := by
  obtain ⟨t, h1, h2, _⟩ := issetFrom_tower h.tower (b := b) (by omega)
  have : b ≤ a.nrBits := by rw [h.bits]; omega
  rw [axmapIsset, if_pos this, h1, h2 h.ne]

theorem rep_isset_ge {n a P b} (h : Rep n a P) (hb : n < b) : axmapIsset a b = some false := by
  have : ¬ b ≤ a.nrBits := by rw [h.bits]; omega
  rw [axmapIsset, if_neg this]

/-! ### searching -/

theorem not_ffz (w : Word) : ffz (~~~ w) = ffs64 w := by simp [ffz]

theorem scanWords_spec {ws : List Word} : ∀ {o : Nat},
    match scanWords ws o with
    | none => ∀ i, (h : i < ws.length) → ws[i] = minusOne
    | some (p, t) => ∃ i, ∃ h : i < ws.length, p = o + i ∧ t = ~~~ ws[i] ∧ t ≠ 0#64 ∧
        ∀ j, (h : j < i) → ws[j] = minusOne := by
  induction ws with
  | nil => intro o; simp [scanWords]
  | cons w ws ih =>
    intro o
    rw [scanWords]
    by_cases h : ~~~ w ≠ 0#64
    · rw [if_pos h]
      exact ⟨0, by simp, by simp, by simp, h, by intro j hj; omega⟩
    · rw [if_neg h]
      have hw : w = minusOne := by
        have h' : ~~~ w = 0#64 := Decidable.byContradiction h
        have := congrArg (fun x => ~~~ x) h'
        simpa [minusOne] using this
      have := ih (o := o + 1)
      cases hs : scanWords ws (o + 1) with
      | none =>
        rw [hs] at this
        intro i hi
        cases i with
        | zero => simpa using hw
        | succ i => simpa using this i (by simpa using hi)
      | some q =>
        rw [hs] at this
        obtain ⟨i, h1, h2, h3, h4, h5⟩ := this
        refine ⟨i + 1, by simpa using h1, by omega, by simpa using h3, h4, ?_⟩
        intro j hj
        cases j with
        | zero => simpa using hw
        | succ j => simpa using h5 j (by omega)

theorem firstWord_get {l : List Word} {off bit j : Nat} (hbit : bit < 64) :
    (~~~ (bitMasks[bit]?.getD 0) &&& ~~~ (l[off]?.getD 0#64)).getLsbD j =
      (decide (bit ≤ j ∧ j < 64) && !(l[off]?.getD 0#64).getLsbD j) := by
  have hm := bitMasks_getD (k := bit) (by omega) j
  simp only [BitVec.getLsbD_and, BitVec.getLsbD_not]
  have e : (bitMasks[bit]?.getD 0) = bitMasks[bit]?.getD 0#64 := rfl
  rw [e, hm]
  by_cases h1 : j < 64 <;> by_cases h2 : bit ≤ j <;> simp [h1, h2]

theorem findLevel_spec (l : List Word) (index : Nat) :
    match findLevel l index with
    | none => ∀ i, index ≤ i → i < 64 * l.length → getBit l i = true
    | some j => index ≤ j ∧ j < 64 * l.length ∧ getBit l j = false ∧
        ∀ i, index ≤ i → i < j → getBit l i = true := by
  unfold findLevel
  by_cases h0 : index / 64 ≥ l.length
  · simp only [h0, if_true]
    intro i h1 h2; omega
  · simp only [h0, if_false]
    have hbit : index % 64 < 64 := by omega
    have hfw := fun j => firstWord_get (l := l) (off := index / 64) (j := j) hbit
    have e0 : (l[index / 64]?.getD 0) = l[index / 64]?.getD 0#64 := rfl
    rw [e0]
    generalize ~~~ (bitMasks[index % 64]?.getD 0) &&& ~~~ (l[index / 64]?.getD 0#64) = temp at hfw
    have hword : ∀ i, i / 64 = index / 64 →
        getBit l i = (l[index / 64]?.getD 0#64).getLsbD (i % 64) := by
      intro i hi; rw [getBit, hi]
    by_cases h1 : temp ≠ 0#64
    · rw [if_pos h1, not_ffz]
      obtain ⟨p1, p2, p3⟩ := ffs64_spec h1
      generalize ffs64 temp = p at p1 p2 p3
      rw [hfw] at p2
      simp only [Bool.and_eq_true, decide_eq_true_eq, Bool.not_eq_true'] at p2
      refine ⟨by omega, by omega, ?_, ?_⟩
      · rw [hword _ (by omega), show (index / 64 * 64 + p) % 64 = p by omega]; exact p2.2
      · intro i hi1 hi2
        have := p3 (i % 64) (by omega)
        rw [hfw] at this
        rw [hword _ (by omega)]
        have hd : decide (index % 64 ≤ i % 64 ∧ i % 64 < 64) = true := by
          rw [decide_eq_true_eq]; omega
        simpa [hd] using this
    · rw [if_neg h1]
      have hz : temp = 0#64 := Decidable.byContradiction h1
      have hrest : ∀ i, index ≤ i → i / 64 = index / 64 → getBit l i = true := by
        intro i hi1 hi2
        have := hfw (i % 64)
        rw [hz] at this
        rw [hword _ hi2]
        have hd : decide (index % 64 ≤ i % 64 ∧ i % 64 < 64) = true := by
          rw [decide_eq_true_eq]; omega
        simpa [hd] using this
      have hs := scanWords_spec (ws := l.drop (index / 64 + 1)) (o := index / 64 + 1)
      have hfullw : ∀ v, (∃ (i : Nat) (h : i < (l.drop (index / 64 + 1)).length),
          v = index / 64 + 1 + i ∧ (l.drop (index / 64 + 1))[i] = minusOne) →
          ∀ i, i / 64 = v → getBit l i = true := by
        rintro v ⟨i, h, rfl, hi⟩ x hx
        rw [List.getElem_drop] at hi
        rw [List.length_drop] at h
        have hg : l[x / 64]? = some minusOne := by
          rw [hx, List.getElem?_eq_getElem (by omega), hi]
        rw [getBit_of_word hg, minusOne_get, decide_eq_true_eq]; omega
      cases hsc : scanWords (l.drop (index / 64 + 1)) (index / 64 + 1) with
      | none =>
        rw [hsc] at hs
        intro i hi1 hi2
        by_cases hi : i / 64 = index / 64
        · exact hrest i hi1 hi
        · apply hfullw (i / 64) ⟨i / 64 - (index / 64 + 1), ?_, by omega, ?_⟩ i rfl
          · rw [List.length_drop]; omega
          · exact hs _ _
      | some q =>
        obtain ⟨p, t⟩ := q
        rw [hsc] at hs
        obtain ⟨i, h2, h3, h4, h5, h6⟩ := hs
        simp only [not_ffz]
        obtain ⟨p1, p2, p3⟩ := ffs64_spec h5
        generalize ffs64 t = f at p1 p2 p3
        have hlen : p < l.length := by rw [List.length_drop] at h2; omega
        have ht : t = ~~~ l[p] := by
          rw [h4, List.getElem_drop]; simp only [h3]
        have hget : ∀ x, x / 64 = p → getBit l x = !t.getLsbD (x % 64) := by
          intro x hx
          rw [getBit_of_word (w := l[p]) (by rw [hx]; exact List.getElem?_eq_getElem hlen), ht]
          have : x % 64 < 64 := by omega
          simp [this]
        refine ⟨by omega, by omega, ?_, ?_⟩
        · rw [hget _ (by omega), show (p * 64 + f) % 64 = f by omega, p2]; rfl
        · intro x hx1 hx2
          by_cases hxp : x / 64 = p
          · rw [hget _ hxp, p3 _ (by omega)]; rfl
          · by_cases hx : x / 64 = index / 64
            · exact hrest x hx1 hx
            · apply hfullw (x / 64) ⟨x / 64 - (index / 64 + 1), ?_, by omega, ?_⟩ x rfl
              · rw [List.length_drop]; omega
              · exact h6 _ (by omega)

/-- The last step of `findFrom`, on level zero. -/
def lastStep (l : List Word) (b idx : Nat) : Option Nat :=
  findLevel l (if idx * 64 < b then b else idx * 64)

theorem findFrom_cons (l : List Word) (rest : List (List Word)) (b : Nat) : ∀ i idx,
    findFrom (l :: rest) b (i + 1) idx = (findFrom rest (b / 64) i idx).bind (lastStep l b) := by
  intro i
  induction i with
  | zero =>
    intro idx
    simp only [findFrom, lastStep, Nat.pow_zero, Nat.div_one, List.getElem?_cons_zero,
      Option.getD_some, Option.bind_some]
    cases findLevel l (if idx * 64 < b then b else idx * 64) <;> rfl
  | succ i ih =>
    intro idx
    rw [findFrom, findFrom.eq_2 rest]
    have e : b / 64 ^ (i + 1) = b / 64 / 64 ^ i := by
      rw [Nat.pow_succ, Nat.mul_comm, Nat.div_div_eq_div_mul]
    simp only [List.getElem?_cons_succ, e]
    cases findLevel (rest[i]?.getD [])
        (if idx * 64 < b / 64 / 64 ^ i then b / 64 / 64 ^ i else idx * 64) with
    | none => rfl
    | some j => exact ih j

theorem findFrom_tower {ls : List (List Word)} : ∀ {n P b}, Tower ls n P →
    match findFrom ls b ls.length 0 with
    | none => ls ≠ [] ∧ ∀ i, b ≤ i → i < n → P i = true
    | some j => (∀ i, b ≤ i → i < j → P i = true) ∧
        (ls ≠ [] → b ≤ j ∧ j < 64 * ((n + 63) / 64) ∧ P j = false) := by
  induction ls with
  | nil =>
    intro n P b _
    simp only [List.length_nil, findFrom]
    exact ⟨by intro i _ h; omega, by simp⟩
  | cons l rest ih =>
    intro n P b ⟨h1, h2, h3⟩
    have hrec := ih (b := b / 64) h3
    rw [List.length_cons, findFrom_cons]
    have hfw : ∀ w, decide (l[w]? = some minusOne) = true → ∀ i, i / 64 = w → P i = true := by
      intro w hw i hi
      have hw' := of_decide_eq_true hw
      rw [← h2, getBit_of_word (by rw [hi]; exact hw'), minusOne_get, decide_eq_true_eq]
      omega
    cases hf : findFrom rest (b / 64) rest.length 0 with
    | none =>
      rw [hf] at hrec
      refine ⟨by simp, ?_⟩
      intro i hi1 hi2
      exact hfw _ (hrec.2 (i / 64) (by omega) (by omega)) i rfl
    | some w =>
      rw [hf] at hrec
      obtain ⟨g1, g2⟩ := hrec
      simp only [Option.bind_some, lastStep]
      have hs := findLevel_spec l (if w * 64 < b then b else w * 64)
      have hidx : b ≤ (if w * 64 < b then b else w * 64) := by split <;> omega
      have hbefore : ∀ i, b ≤ i → i < (if w * 64 < b then b else w * 64) → P i = true := by
        intro i hi1 hi2
        split at hi2
        · omega
        · exact hfw _ (g1 (i / 64) (by omega) (by omega)) i rfl
      cases hfl : findLevel l (if w * 64 < b then b else w * 64) with
      | none =>
        rw [hfl] at hs
        refine ⟨by simp, ?_⟩
        intro i hi1 hi2
        by_cases hi : i < (if w * 64 < b then b else w * 64)
        · exact hbefore i hi1 hi
        · rw [← h2]; exact hs i (by omega) (by omega)
      | some j =>
        rw [hfl] at hs
        obtain ⟨s1, s2, s3, s4⟩ := hs
        refine ⟨?_, fun _ => ⟨by omega, by omega, by rw [← h2]; exact s3⟩⟩
        intro i hi1 hi2
        by_cases hi : i < (if w * 64 < b then b else w * 64)
        · exact hbefore i hi1 hi
        · rw [← h2]; exact s4 i (by omega) hi2

theorem findFirstFree_spec {n a P} (h : Rep n a P) (b : Nat) :
    match axmapFindFirstFree a b with
    | none => ∀ i, b ≤ i → i < n → P i = true
    | some j => b ≤ j ∧ j < n ∧ P j = false ∧ ∀ i, b ≤ i → i < j → P i = true := by
  have hs := findFrom_tower (b := b) h.tower
  unfold axmapFindFirstFree
  cases hf : findFrom a.levels b a.levels.length 0 with
  | none => rw [hf] at hs; exact hs.2
  | some j =>
    rw [hf] at hs
    obtain ⟨h1, h2⟩ := hs
    obtain ⟨h3, h4, h5⟩ := h2 h.ne
    by_cases hj : j ≥ a.nrBits
    · simp only [hj, if_true]
      intro i hi1 hi2
      rw [h.bits] at hj
      exact h1 i hi1 (by omega)
    · simp only [hj, if_false]
      rw [h.bits] at hj
      exact ⟨h3, by omega, h5, h1⟩

theorem find?_cyclic_some {m : Spec.Marks} {n b j : Nat} (hj : j < n)
    (h1 : m ((b + 1 + j) % n) = false) (h2 : ∀ i, i < j → m ((b + 1 + i) % n) = true) :
    Spec.nextFree m n b = some ((b + 1 + j) % n) := by
  unfold Spec.nextFree
  rw [List.find?_eq_some_iff_append]
  refine ⟨by simp [h1], (List.range j).map (fun j => (b + 1 + j) % n),
    (List.range' (j + 1) (n - j - 1)).map (fun j => (b + 1 + j) % n), ?_, ?_⟩
  · have e : List.range n = List.range j ++ j :: List.range' (j + 1) (n - j - 1) := by
      rw [List.range_eq_range', List.range_eq_range']
      have := List.range'_append_1 (s := 0) (m := j) (n := n - j)
      rw [show j + (n - j) = n by omega] at this
      rw [← this, show n - j = (n - j - 1) + 1 by omega, List.range'_succ]
      simp
    rw [e, List.map_append, List.map_cons]
  · intro x hx
    simp only [List.mem_map, List.mem_range] at hx
    obtain ⟨i, hi, rfl⟩ := hx
    simp [h2 i hi]

theorem find?_cyclic_none {m : Spec.Marks} {n b : Nat}
    (h : ∀ i, i < n → m i = true) : Spec.nextFree m n b = none := by
  unfold Spec.nextFree
  rw [List.find?_eq_none]
  intro x hx
  simp only [List.mem_map, List.mem_range] at hx
  obtain ⟨i, hi, rfl⟩ := hx
  simp [h _ (Nat.mod_lt _ (by omega))]

/-- The linear search result from `next` to `n`, and if that fails from 0. -/
theorem nextFree_linear {m : Spec.Marks} {n b j : Nat} (hb : b < n) (hj : j < n)
    (hfree : m j = false)
    (h : (b < j ∧ ∀ i, b < i → i < j → m i = true) ∨
         (j ≤ b ∧ (∀ i, b < i → i < n → m i = true) ∧ ∀ i, i < j → m i = true)) :
    Spec.nextFree m n b = some j := by
  rcases h with ⟨h1, h2⟩ | ⟨h1, h2, h3⟩
  · have e : (b + 1 + (j - b - 1)) % n = j := by
      rw [show b + 1 + (j - b - 1) = j by omega, Nat.mod_eq_of_lt hj]
    have := find?_cyclic_some (m := m) (n := n) (b := b) (j := j - b - 1) (by omega)
      (by rw [e]; exact hfree) (by
        intro i hi
        rw [Nat.mod_eq_of_lt (by omega)]
        exact h2 _ (by omega) (by omega))
    rwa [e] at this
  · have hmod : ∀ i, n ≤ b + 1 + i → i < n → (b + 1 + i) % n = b + 1 + i - n := by
      intro i hi1 hi2
      rw [Nat.mod_eq_sub_mod hi1, Nat.mod_eq_of_lt (by omega)]
    have e : (b + 1 + (n - b - 1 + j)) % n = j := by
      rw [hmod _ (by omega) (by omega)]; omega
    have := find?_cyclic_some (m := m) (n := n) (b := b) (j := n - b - 1 + j) (by omega)
      (by rw [e]; exact hfree) (by
        intro i hi
        by_cases hin : b + 1 + i < n
        · rw [Nat.mod_eq_of_lt hin]; exact h2 _ (by omega) hin
        · rw [hmod _ (by omega) (by omega)]; exact h3 _ (by omega))
    rwa [e] at this

theorem nextFree_from_zero {n a P b} (h : Rep n a P) (hb : b < n)
    (hup : ∀ i, b < i → i < n → P i = true) :
    Found.ofOption (axmapFindFirstFree a 0) = Found.ofOption (Spec.nextFree P n b) := by
  have hs := findFirstFree_spec h 0
  cases hf : axmapFindFirstFree a 0 with
  | none =>
    rw [hf] at hs
    rw [find?_cyclic_none (fun i hi => hs i (by omega) hi)]
  | some j =>
    rw [hf] at hs
    obtain ⟨_, h2, h3, h4⟩ := hs
    rw [nextFree_linear (j := j) hb h2 h3]
    right
    refine ⟨?_, hup, fun i hi => h4 i (by omega) hi⟩
    apply Classical.byContradiction
    intro hlt
    rw [hup j (by omega) h2] at h3; cases h3

theorem rep_nextFree {n a P b} (h : Rep n a P) (hb : b < n) :
    axmapNextFree a b = Found.ofOption (Spec.nextFree P n b) := by
  have hbits := h.bits
  have ht := h.tower
  unfold axmapNextFree
  rw [if_neg (by omega)]
  cases hl : a.levels with
  | nil => exact absurd hl h.ne
  | cons l rest =>
    rw [hl] at ht
    obtain ⟨h1, h2, _⟩ := ht
    simp only [List.getElem?_cons_zero]
    generalize hnext : (if b + 1 = a.nrBits then 0 else b + 1) = next
    have hn : (next = 0 ∧ b + 1 = n) ∨ (next = b + 1 ∧ b + 1 < n) := by
      rw [hbits] at hnext; split at hnext <;> omega
    have hoff : next / 64 < l.length := by omega
    have hw : l[next / 64]? = some l[next / 64] := List.getElem?_eq_getElem hoff
    generalize l[next / 64] = w at hw
    simp only [hw]
    -- common tail: `ret` is a correct answer of the search from `next`
    have tail : ∀ ret : Option Nat,
        (match ret with
          | none => ∀ i, next ≤ i → i < n → P i = true
          | some j => next ≤ j ∧ j < n ∧ P j = false ∧ ∀ i, next ≤ i → i < j → P i = true) →
        (if ret = none ∧ next ≠ 0 then Found.ofOption (axmapFindFirstFree a 0)
          else Found.ofOption ret) = Found.ofOption (Spec.nextFree P n b) := by
      intro ret hret
      cases ret with
      | none =>
        simp only at hret
        rcases hn with ⟨hn0, hn1⟩ | ⟨hn0, hn1⟩
        · rw [if_neg (by simp [hn0]),
            find?_cyclic_none (m := P) (n := n) (b := b) (fun i hi => hret i (by omega) hi)]
        · rw [if_pos ⟨rfl, by omega⟩]
          exact nextFree_from_zero h hb (fun i hi1 hi2 => hret i (by omega) hi2)
      | some j =>
        obtain ⟨r1, r2, r3, r4⟩ := hret
        rw [if_neg (by simp), nextFree_linear (j := j) hb r2 r3]
        rcases hn with ⟨hn0, hn1⟩ | ⟨hn0, hn1⟩
        · right; exact ⟨by omega, by intro i hi1 hi2; omega, fun i hi => r4 i (by omega) hi⟩
        · left; exact ⟨by omega, fun i hi1 hi2 => r4 i (by omega) hi2⟩
    apply tail
    have hfw := fun j => firstWord_get (l := l) (off := next / 64) (bit := next % 64) (j := j)
      (by omega)
    rw [hw, Option.getD_some] at hfw
    have e0 : (bitMasks[next % 64]?.getD 0) = bitMasks[next % 64]?.getD 0#64 := rfl
    generalize ~~~ (bitMasks[next % 64]?.getD 0) &&& ~~~ w = temp at hfw
    have hword : ∀ i, i / 64 = next / 64 → P i = w.getLsbD (i % 64) := by
      intro i hi; rw [← h2, getBit_of_word (by rw [hi]; exact hw)]
    by_cases htemp : temp ≠ 0#64
    · rw [if_pos htemp, not_ffz]
      obtain ⟨p1, p2, p3⟩ := ffs64_spec htemp
      generalize ffs64 temp = p at p1 p2 p3
      rw [hfw] at p2
      simp only [Bool.and_eq_true, decide_eq_true_eq, Bool.not_eq_true'] at p2
      have hbefore : ∀ i, next ≤ i → i < next / 64 * 64 + p → P i = true := by
        intro i hi1 hi2
        have := p3 (i % 64) (by omega)
        rw [hfw] at this
        rw [hword _ (by omega)]
        have hd : decide (next % 64 ≤ i % 64 ∧ i % 64 < 64) = true := by
          rw [decide_eq_true_eq]; omega
        simpa [hd] using this
      by_cases hge : next / 64 * 64 + p ≥ a.nrBits
      · rw [if_pos hge]
        intro i hi1 hi2
        exact hbefore i hi1 (by omega)
      · rw [if_neg hge]
        refine ⟨by omega, by omega, ?_, hbefore⟩
        rw [hword _ (by omega), show (next / 64 * 64 + p) % 64 = p by omega]; exact p2.2
    · rw [if_neg htemp]
      exact findFirstFree_spec h next

end Fio.Axmap
