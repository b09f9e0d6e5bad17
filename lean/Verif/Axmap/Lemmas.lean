import Verif.Axmap.Model
/-
Invariant of the axmap levels and its preservation.
-/
namespace Fio.Axmap


/-- Bit `i` of a level. -/
def getBit (l : List Word) (i : Nat) : Bool := (l[i / 64]?.getD 0#64).getLsbD (i % 64)

/-- `Tower ls n P`: the levels `ls` represent a set of numbers with membership `P`; the first
level covers `n` bits, and each further level has a bit set exactly for the full words of the
level below. -/
def Tower : List (List Word) → Nat → (Nat → Bool) → Prop
  | [], _, _ => True
  | l :: rest, n, P =>
    l.length = (n + 63) / 64 ∧ (∀ i, getBit l i = P i) ∧
      Tower rest l.length (fun w => decide (l[w]? = some (minusOne)))

theorem Tower.congr {ls n P Q} (h : ∀ i, P i = Q i) (t : Tower ls n P) : Tower ls n Q := by
  have : P = Q := funext h
  subst this; exact t

/-! ### bit masks -/

theorem bitMasks_eq : ∀ k : Fin 65, bitMasks[k.1]? = some (minusOne >>> (64 - k.1)) := by
  decide

theorem minusOne_get (j : Nat) : minusOne.getLsbD j = decide (j < 64) := by
  rw [minusOne, BitVec.getLsbD_allOnes]

theorem bitMasks_get {k : Nat} (hk : k ≤ 64) :
    ∃ m, bitMasks[k]? = some m ∧ ∀ j, m.getLsbD j = decide (j < k) := by
  refine ⟨_, bitMasks_eq ⟨k, by omega⟩, ?_⟩
  intro j
  simp only [BitVec.getLsbD_ushiftRight, minusOne_get, decide_eq_decide]
  omega

theorem bitMasks_getD {k : Nat} (hk : k ≤ 64) (j : Nat) :
    (bitMasks[k]?.getD 0#64).getLsbD j = decide (j < k) := by
  obtain ⟨m, h1, h2⟩ := bitMasks_get hk
  simp [h1, h2]

theorem maskShift {m : Word} {k b j : Nat} (h : ∀ j, m.getLsbD j = decide (j < k)) (hk : k + b ≤ 64) :
    (m <<< b).getLsbD j = decide (b ≤ j ∧ j < b + k) := by
  simp only [BitVec.getLsbD_shiftLeft, h]
  rw [Bool.eq_iff_iff]
  simp only [Bool.and_eq_true, decide_eq_true_eq, Bool.not_eq_true', decide_eq_false_iff_not]
  omega

theorem word_ext {w v : Word} (h : ∀ j, j < 64 → w.getLsbD j = v.getLsbD j) : w = v :=
  BitVec.eq_of_getLsbD_eq (fun i hi => h i hi)

theorem word_eq_zero_iff {w : Word} : w = 0#64 ↔ ∀ j, j < 64 → w.getLsbD j = false := by
  constructor
  · rintro rfl j _; simp
  · intro h; apply word_ext; intro j hj; simp [h j hj]

theorem word_full_iff {w : Word} : w = minusOne ↔ ∀ j, j < 64 → w.getLsbD j = true := by
  constructor
  · rintro rfl j hj; rw [minusOne_get]; simp [hj]
  · intro h; apply word_ext; intro j hj; rw [h j hj, minusOne_get]; simp [hj]

/-! ### axmap_set_fn -/

/-- `IsRun f b k r`: `r` is the length of the longest prefix of `b, b+1, ..., b+k-1` on which `f`
is false. -/
def IsRun (f : Nat → Bool) (b k r : Nat) : Prop :=
  r ≤ k ∧ (∀ j, j < r → f (b + j) = false) ∧ (r < k → f (b + r) = true)

theorem IsRun.unique {f b k r r'} (h : IsRun f b k r) (h' : IsRun f b k r') : r = r' := by
  obtain ⟨a1, a2, a3⟩ := h
  obtain ⟨b1, b2, b3⟩ := h'
  apply Classical.byContradiction
  intro hne
  rcases Nat.lt_or_gt_of_ne hne with hlt | hlt
  · have := a3 (by omega); rw [b2 r hlt] at this; cases this
  · have := b3 (by omega); rw [a2 r' hlt] at this; cases this

theorem setFn_spec {level : Nat} {l : List Word} {w : Word} {off bit k s : Nat}
    (hw : l[off]? = some w) (hbit : bit < 64) (hk : k + bit ≤ 64) :
    ∃ r, IsRun (fun j => w.getLsbD j) bit k r ∧
      ((r = 0 ∧ ∃ s', axmapSetFn level l off bit ⟨k, s⟩ = some (true, l, ⟨k, s'⟩) ∧
          (s' = 0 ∨ s' = s)) ∨
       (0 < r ∧ ∃ w', (∀ j, j < 64 → w'.getLsbD j = (w.getLsbD j || decide (bit ≤ j ∧ j < bit + r))) ∧
          axmapSetFn level l off bit ⟨k, s⟩ =
            some (decide (w' ≠ minusOne), l.set off w',
              ⟨1, if level = 0 then r else s⟩))) := by
  obtain ⟨m, hm, hmb⟩ := bitMasks_get (k := k) (by omega)
  have hmask := fun j => maskShift (j := j) hmb (b := bit) (by omega)
  have hmin : min k (64 - bit) = k := by omega
  by_cases h1 : w &&& (m <<< bit) = m <<< bit
  · -- everything already set (or k = 0)
    refine ⟨0, ⟨by omega, by intro j hj; omega, ?_⟩, Or.inl ⟨rfl, 0, ?_, Or.inl rfl⟩⟩
    · intro hk0
      have := congrArg (fun x => x.getLsbD bit) h1
      simp only [BitVec.getLsbD_and, hmask] at this
      simpa [hk0] using this
    · simp [axmapSetFn, hw, hmin, hm, h1]
  · have hkpos : 0 < k := by
      apply Nat.pos_of_ne_zero
      rintro rfl
      apply h1
      have : m <<< bit = 0#64 := by
        rw [word_eq_zero_iff]; intro j hj; rw [hmask, decide_eq_false_iff_not]; omega
      rw [this]; simp
    by_cases h2 : w &&& (m <<< bit) = 0#64
    · -- completely free
      have hfree : ∀ j, bit ≤ j → j < bit + k → w.getLsbD j = false := by
        intro j hj1 hj2
        have := (word_eq_zero_iff.1 h2) j (by omega)
        rw [BitVec.getLsbD_and, hmask] at this
        simpa [hj1, hj2] using this
      have hmne : m <<< bit ≠ 0#64 := by
        intro hc
        have := (word_eq_zero_iff.1 hc) bit (by omega)
        rw [hmask] at this
        simp at this; omega
      refine ⟨k, ⟨by omega, ?_, by omega⟩, Or.inr ⟨hkpos, w ||| (m <<< bit), ?_, ?_⟩⟩
      · intro j hj; exact hfree _ (by omega) (by omega)
      · intro j hj; rw [BitVec.getLsbD_or, hmask]
      · simp [axmapSetFn, hw, hmin, hm, h2, hmne, hmne.symm]
    · -- partial overlap
      obtain ⟨p1, p2, p3⟩ := ffs64_spec h2
      have hp : ffz (~~~ (w &&& (m <<< bit))) = ffs64 (w &&& (m <<< bit)) := by simp [ffz]
      generalize hpdef : ffs64 (w &&& (m <<< bit)) = p at p1 p2 p3 hp
      rw [BitVec.getLsbD_and, hmask] at p2
      simp at p2
      have hfree : ∀ j, bit ≤ j → j < p → w.getLsbD j = false := by
        intro j hj1 hj2
        have := p3 j hj2
        rw [BitVec.getLsbD_and, hmask] at this
        simp at this
        cases hb : w.getLsbD j with
        | false => rfl
        | true => have := this hb hj1; omega
      have hrun : IsRun (fun j => w.getLsbD j) bit k (p - bit) := by
        refine ⟨by omega, ?_, ?_⟩
        · intro j hj; exact hfree _ (by omega) (by omega)
        · intro _; show w.getLsbD (bit + (p - bit)) = true
          rw [show bit + (p - bit) = p by omega]; exact p2.1
      refine ⟨p - bit, hrun, ?_⟩
      by_cases h3 : p - bit = 0
      · left
        refine ⟨h3, s, ?_, Or.inr rfl⟩
        simp [axmapSetFn, hw, hmin, hm, h1, h2, hp, h3]
      · right
        obtain ⟨m', hm', hmb'⟩ := bitMasks_get (k := p - bit) (by omega)
        have hmask' := fun j => maskShift (j := j) hmb' (b := bit) (by omega)
        have hmne : m' <<< bit ≠ 0#64 := by
          intro hc
          have := (word_eq_zero_iff.1 hc) bit (by omega)
          rw [hmask'] at this
          simp at this; omega
        have hclear : w &&& (m' <<< bit) = 0#64 := by
          rw [word_eq_zero_iff]
          intro j hj
          rw [BitVec.getLsbD_and, hmask']
          by_cases hjj : bit ≤ j ∧ j < bit + (p - bit)
          · simp [hfree j hjj.1 (by omega)]
          · simp [hjj]
        refine ⟨by omega, w ||| (m' <<< bit), ?_, ?_⟩
        · intro j hj; rw [BitVec.getLsbD_or, hmask']
        · simp [axmapSetFn, hw, hmin, hm, h1, h2, hp, h3, hm', hmne, hclear]

/-! ### words and bits of a level -/

theorem getBit_of_word {l : List Word} {i : Nat} {w : Word} (h : l[i / 64]? = some w) :
    getBit l i = w.getLsbD (i % 64) := by simp [getBit, h]

theorem getBit_set {l : List Word} {off i : Nat} {w' : Word} (h : off < l.length) :
    getBit (l.set off w') i = if i / 64 = off then w'.getLsbD (i % 64) else getBit l i := by
  unfold getBit
  rw [List.getElem?_set]
  by_cases hi : i / 64 = off
  · simp [hi, h]
  · have : ¬ off = i / 64 := fun e => hi e.symm
    simp [hi, this]

theorem full_iff_bits {l : List Word} {w : Nat} (h : w < l.length) :
    l[w]? = some (minusOne) ↔ ∀ j, j < 64 → getBit l (64 * w + j) = true := by
  rw [List.getElem?_eq_getElem h, Option.some_inj, word_full_iff]
  constructor
  · intro hh j hj
    have e : (64 * w + j) / 64 = w := by omega
    have e2 : (64 * w + j) % 64 = j := by omega
    rw [getBit, e, e2, List.getElem?_eq_getElem h]
    exact hh j hj
  · intro hh j hj
    have e : (64 * w + j) / 64 = w := by omega
    have e2 : (64 * w + j) % 64 = j := by omega
    have := hh j hj
    rw [getBit, e, e2, List.getElem?_eq_getElem h] at this
    exact this

theorem getBit_ge {l : List Word} {i : Nat} (h : 64 * l.length ≤ i) : getBit l i = false := by
  have : l.length ≤ i / 64 := by omega
  simp [getBit, List.getElem?_eq_none this]

/-! ### axmap_handler -/

/-- What the first level looks like after `axmap_set_fn` stored `w'` at `off`, as far as the
level above is concerned. -/
theorem full_set {l : List Word} {off v : Nat} {w' : Word} (h : off < l.length) :
    decide ((l.set off w')[v]? = some (minusOne)) =
      if v = off then decide (w' = minusOne)
      else decide (l[v]? = some (minusOne)) := by
  rw [List.getElem?_set]
  by_cases hv : v = off
  · subst hv; simp [h]
  · have : ¬ off = v := fun e => hv e.symm
    simp [hv, this]

/-- Setting one bit at a level above zero, whose bit is still clear. -/
theorem handler_upper {ls : List (List Word)} : ∀ {level n idx s : Nat} {P : Nat → Bool},
    level ≠ 0 → Tower ls n P → idx < 64 * ((n + 63) / 64) → P idx = false →
    ∃ ls', axmapHandlerSet level ls idx ⟨1, s⟩ = some (ls', ⟨1, s⟩) ∧
      Tower ls' n (fun i => P i || decide (i = idx)) := by
  induction ls with
  | nil => intro level n idx s P _ _ _ _; exact ⟨[], by simp [axmapHandlerSet], trivial⟩
  | cons l rest ih =>
    intro level n idx s P hl ht hidx hP
    obtain ⟨h1, h2, h3⟩ := ht
    have hoff : idx / 64 < l.length := by omega
    have hw : l[idx / 64]? = some l[idx / 64] := List.getElem?_eq_getElem hoff
    generalize l[idx / 64] = w at hw
    have hbf : w.getLsbD (idx % 64) = false := by
      rw [← getBit_of_word hw, h2, hP]
    obtain ⟨r, hr, hcase⟩ := setFn_spec (level := level) (k := 1) (s := s) hw
      (bit := idx % 64) (by omega) (by omega)
    have hr1 : r = 1 := by
      obtain ⟨a, b, c⟩ := hr
      apply Classical.byContradiction
      intro hne
      have hr0 : r = 0 := by omega
      have := c (by omega)
      simp [hr0, hbf] at this
    subst hr1
    rcases hcase with ⟨hh, _⟩ | ⟨_, w', hw', hset⟩
    · omega
    · have hbits : ∀ i, getBit (l.set (idx / 64) w') i = (P i || decide (i = idx)) := by
        intro i
        rw [getBit_set hoff]
        by_cases hi : i / 64 = idx / 64
        · rw [if_pos hi, hw' _ (by omega), ← h2 i, getBit_of_word (w := w) (by rw [hi]; exact hw)]
          congr 1
          simp only [decide_eq_decide]
          omega
        · rw [if_neg hi, h2 i]
          have : ¬ i = idx := fun e => hi (by rw [e])
          simp [this]
      have hlen : (l.set (idx / 64) w').length = (n + 63) / 64 := by simp [h1]
      have hwf : (l[idx / 64]? = some (minusOne)) ↔ False := by
        rw [hw, Option.some_inj, word_full_iff]
        constructor
        · intro hh; rw [hh _ (by omega)] at hbf; cases hbf
        · exact False.elim
      by_cases hfull : w' = minusOne
      · have hidx2 : idx / 64 < 64 * ((l.length + 63) / 64) := by omega
        obtain ⟨ls', hls', ht'⟩ := ih (level := level + 1) (idx := idx / 64) (s := s)
          (by omega) h3 hidx2 (by simp [hwf])
        refine ⟨l.set (idx / 64) w' :: ls', ?_, hlen, hbits, ?_⟩
        · simp [axmapHandlerSet, hset, hfull, hl, hls']
        · rw [List.length_set]
          apply Tower.congr _ ht'
          intro v
          rw [full_set hoff]
          by_cases hv : v = idx / 64
          · simp [hv, hfull]
          · simp [hv]
      · refine ⟨l.set (idx / 64) w' :: rest, ?_, hlen, hbits, ?_⟩
        · simp [axmapHandlerSet, hset, hfull, hl]
        · rw [List.length_set]
          apply Tower.congr _ h3
          intro v
          rw [full_set hoff]
          by_cases hv : v = idx / 64
          · subst hv; simp only [hwf, hfull]; simp
          · simp [hv]

/-- Setting up to `k` bits at level zero, all inside one word. -/
theorem handler_zero {ls : List (List Word)} {n b k : Nat} {P : Nat → Bool}
    (hne : ls ≠ []) (ht : Tower ls n P) (hb : b < 64 * ((n + 63) / 64)) (hk : k + b % 64 ≤ 64) :
    ∃ r ls' c, IsRun P b k r ∧ axmapHandlerSet 0 ls b ⟨k, 0⟩ = some (ls', ⟨c, r⟩) ∧ ls' ≠ [] ∧
      Tower ls' n (fun i => P i || decide (b ≤ i ∧ i < b + r)) := by
  cases ls with
  | nil => exact absurd rfl hne
  | cons l rest =>
    obtain ⟨h1, h2, h3⟩ := ht
    have hoff : b / 64 < l.length := by omega
    have hw : l[b / 64]? = some l[b / 64] := List.getElem?_eq_getElem hoff
    generalize l[b / 64] = w at hw
    have hPw : ∀ j, b % 64 + j < 64 → w.getLsbD (b % 64 + j) = P (b + j) := by
      intro j hj
      rw [← h2]
      have e : (b + j) / 64 = b / 64 := by omega
      have e2 : (b + j) % 64 = b % 64 + j := by omega
      rw [getBit_of_word (w := w) (by rw [e]; exact hw), e2]
    obtain ⟨r, hr, hcase⟩ := setFn_spec (level := 0) (k := k) (s := 0) hw
      (bit := b % 64) (by omega) (by omega)
    have hrun : IsRun P b k r := by
      obtain ⟨a, b1, c⟩ := hr
      refine ⟨a, ?_, ?_⟩
      · intro j hj; rw [← hPw j (by omega)]; exact b1 j hj
      · intro hlt; rw [← hPw r (by omega)]; exact c hlt
    rcases hcase with ⟨hr0, s', hset, hs'⟩ | ⟨hrpos, w', hw', hset⟩
    · have hs0 : s' = 0 := by omega
      subst hs0 hr0
      refine ⟨0, l :: rest, k, hrun, by simp [axmapHandlerSet, hset], by simp, h1, ?_, h3⟩
      intro i; rw [h2 i]; simp; omega
    · have hbits : ∀ i, getBit (l.set (b / 64) w') i = (P i || decide (b ≤ i ∧ i < b + r)) := by
        intro i
        have hrk := hrun.1
        rw [getBit_set hoff]
        by_cases hi : i / 64 = b / 64
        · rw [if_pos hi, hw' _ (by omega), ← h2 i, getBit_of_word (w := w) (by rw [hi]; exact hw)]
          congr 1
          simp only [decide_eq_decide]
          omega
        · rw [if_neg hi, h2 i]
          have : ¬ (b ≤ i ∧ i < b + r) := by omega
          simp [this]
      have hlen : (l.set (b / 64) w').length = (n + 63) / 64 := by simp [h1]
      have hwf : (l[b / 64]? = some (minusOne)) ↔ False := by
        rw [hw, Option.some_inj, word_full_iff]
        constructor
        · intro hh
          have hrk := hrun.1
          have hb0 := hr.2.1 0 hrpos
          have hb1 := hh (b % 64 + 0) (by omega)
          simp only [hb1] at hb0
          cases hb0
        · exact False.elim
      by_cases hfull : w' = minusOne
      · have hidx2 : b / 64 < 64 * ((l.length + 63) / 64) := by omega
        obtain ⟨ls', hls', ht'⟩ := handler_upper (level := 1) (idx := b / 64) (s := r)
          (by omega) h3 hidx2 (by simp [hwf])
        refine ⟨r, l.set (b / 64) w' :: ls', 1, hrun, ?_, by simp, hlen, hbits, ?_⟩
        · simp [axmapHandlerSet, hset, hfull, hls']
        · rw [List.length_set]
          apply Tower.congr _ ht'
          intro v
          rw [full_set hoff]
          by_cases hv : v = b / 64
          · simp [hv, hfull]
          · simp [hv]
      · refine ⟨r, l.set (b / 64) w' :: rest, 1, hrun, ?_, by simp, hlen, hbits, ?_⟩
        · simp [axmapHandlerSet, hset, hfull]
        · rw [List.length_set]
          apply Tower.congr _ h3
          intro v
          rw [full_set hoff]
          by_cases hv : v = b / 64
          · subst hv; simp only [hwf, hfull]; simp
          · simp [hv]

end Fio.Axmap
