/-
The block map as a function from block numbers to bits.
-/
import Verif.Smalloc.Model
namespace Fio.Smalloc

/-- Block `k` is in use. -/
def bit (bm : List (BitVec 32)) (k : Nat) : Bool := (bm[k / 32]?.getD 0#32).getLsbD (k % 32)

theorem bit_of {bm : List (BitVec 32)} {i j : Nat} {w : BitVec 32} (hw : bm[i]? = some w)
    (hj : j < 32) : bit bm (32 * i + j) = w.getLsbD j := by
  unfold bit
  rw [show (32 * i + j) / 32 = i by omega, show (32 * i + j) % 32 = j by omega, hw]
  rfl

theorem bit_out {bm : List (BitVec 32)} {k : Nat} (h : 32 * bm.length ≤ k) : bit bm k = false := by
  unfold bit
  rw [List.getElem?_eq_none (by omega)]
  simp

theorem bit_set {bm : List (BitVec 32)} {i : Nat} {w : BitVec 32} (hi : i < bm.length) (k : Nat) :
    bit (bm.set i w) k = if k / 32 = i then w.getLsbD (k % 32) else bit bm k := by
  unfold bit
  rw [List.getElem?_set]
  by_cases h : i = k / 32
  · subst h; simp [hi]
  · simp [h, Ne.symm h]

theorem low_mask {t j : Nat} (ht : t < 32) (hj : j < 32) :
    ((1#32 <<< t) - 1#32).getLsbD j = decide (j < t) := by
  have h2 : 2 ^ t < 2 ^ 32 := Nat.pow_lt_pow_right (by omega) ht
  have h1 := Nat.two_pow_pos t
  have e : ((1#32 <<< t) - 1#32) = BitVec.ofNat 32 (2 ^ t - 1) := by
    apply BitVec.eq_of_toNat_eq
    simp only [BitVec.toNat_sub, BitVec.toNat_shiftLeft, BitVec.toNat_ofNat]
    rw [Nat.shiftLeft_eq]
    generalize 2 ^ t = x at *
    omega
  rw [e, BitVec.getLsbD_ofNat, Nat.testBit_two_pow_sub_one]
  simp [hj]

theorem thisBlocks_eq {idx nr : Nat} (hi : idx < 32) (hn : nr < 2 ^ 32) :
    thisBlocks idx nr = min nr (32 - idx) := by
  unfold thisBlocks
  split <;> omega

theorem mask_spec (e : Env) {idx nr : Nat} (hi : idx < 32) (hn : nr < 2 ^ 32) :
    ∃ m, mask e (thisBlocks idx nr) idx = some m ∧
      ∀ j, j < 32 → m.getLsbD j = decide (idx ≤ j ∧ j < idx + min nr (32 - idx)) := by
  rw [thisBlocks_eq hi hn]
  unfold mask
  by_cases ht : min nr (32 - idx) = 32
  · rw [if_pos ht]
    refine ⟨_, rfl, fun j hj => ?_⟩
    simp only [BitVec.getLsbD_allOnes, hj, decide_true]
    symm
    simp only [decide_eq_true_eq]
    omega
  · rw [if_neg ht, if_pos ⟨by omega, hi⟩]
    refine ⟨_, rfl, fun j hj => ?_⟩
    rw [BitVec.getLsbD_shiftLeft]
    by_cases hij : j < idx
    · simp [hij, show ¬ idx ≤ j by omega]
    · rw [low_mask (by omega) (by omega)]
      simp only [hj, hij, decide_true, decide_false, Bool.not_false, Bool.and_true, Bool.true_and]
      rw [decide_eq_decide]
      omega

theorem and_eq_zero_iff {w m : BitVec 32} :
    w &&& m = 0#32 ↔ ∀ j, j < 32 → m.getLsbD j = true → w.getLsbD j = false := by
  constructor
  · intro h j hj hm
    have := congrArg (fun x => BitVec.getLsbD x j) h
    simp only [BitVec.getLsbD_and, hm, Bool.and_true] at this
    simpa using this
  · intro h
    apply BitVec.eq_of_getLsbD_eq
    intro j hj
    rw [BitVec.getLsbD_and]
    cases hm : m.getLsbD j with
    | false => simp
    | true => simp [h j hj hm]

theorem and_eq_self_iff {w m : BitVec 32} :
    w &&& m = m ↔ ∀ j, j < 32 → m.getLsbD j = true → w.getLsbD j = true := by
  constructor
  · intro h j hj hm
    have := congrArg (fun x => BitVec.getLsbD x j) h
    simpa only [BitVec.getLsbD_and, hm, Bool.and_true] using this
  · intro h
    apply BitVec.eq_of_getLsbD_eq
    intro j hj
    rw [BitVec.getLsbD_and]
    cases hm : m.getLsbD j with
    | false => simp
    | true => simp [h j hj hm]

theorem iter_cmp (e : Env) {fuel i idx nr : Nat} {bm : List (BitVec 32)} (hi : idx < 32)
    (hn : nr < 2 ^ 32) (hf : bm.length ≤ fuel + i) :
    ∃ b, blocksIter e maskCmp fuel i idx nr bm = some (b, bm) ∧
      (b = true ↔ (nr = 0 ∨ 32 * i + idx + nr ≤ 32 * bm.length) ∧
        ∀ k, 32 * i + idx ≤ k → k < 32 * i + idx + nr → bit bm k = false) := by
  induction fuel generalizing i idx nr with
  | zero =>
    unfold blocksIter
    by_cases h0 : nr = 0
    · rw [if_pos h0]
      exact ⟨true, rfl, ⟨fun _ => ⟨Or.inl h0, fun k => by omega⟩, fun _ => rfl⟩⟩
    · rw [if_neg h0, List.getElem?_eq_none (by omega)]
      exact ⟨false, rfl, by simp; omega⟩
  | succ fuel ih =>
    unfold blocksIter
    by_cases h0 : nr = 0
    · rw [if_pos h0]
      exact ⟨true, rfl, ⟨fun _ => ⟨Or.inl h0, fun k => by omega⟩, fun _ => rfl⟩⟩
    · rw [if_neg h0]
      cases hw : bm[i]? with
      | none =>
        rw [List.getElem?_eq_none_iff] at hw
        exact ⟨false, rfl, by simp; omega⟩
      | some w =>
        have hlt : i < bm.length := by
          rcases Nat.lt_or_ge i bm.length with h | h
          · exact h
          · rw [List.getElem?_eq_none h] at hw
            cases hw
        obtain ⟨m, hm1, hm2⟩ := mask_spec e hi hn
        have hset : bm.set i w = bm := by
          rw [List.getElem?_eq_getElem hlt] at hw
          cases hw
          simp
        have hz : w &&& m = 0#32 ↔
            ∀ k, 32 * i + idx ≤ k → k < 32 * i + idx + min nr (32 - idx) → bit bm k = false := by
          rw [and_eq_zero_iff]
          constructor
          · intro h k hk1 hk2
            have := h (k - 32 * i) (by omega) (by rw [hm2 _ (by omega)]; simp; omega)
            rw [← bit_of hw (by omega), show 32 * i + (k - 32 * i) = k by omega] at this
            exact this
          · intro h j hj hmj
            rw [hm2 j hj] at hmj
            simp only [decide_eq_true_eq] at hmj
            rw [← bit_of hw hj]
            exact h _ (by omega) (by omega)
        simp only [hm1, maskCmp]
        by_cases hc : w &&& m = 0#32
        · simp only [hc, decide_true, hset]
          rw [thisBlocks_eq hi hn]
          obtain ⟨b, e1, e2⟩ := ih (i := i + 1) (idx := 0) (nr := nr - min nr (32 - idx)) (by omega)
            (by omega) (by omega)
          refine ⟨b, e1, e2.trans ?_⟩
          rw [hz] at hc
          constructor
          · rintro ⟨h1, h2⟩
            refine ⟨Or.inr (by omega), fun k hk1 hk2 => ?_⟩
            by_cases hk : k < 32 * i + idx + min nr (32 - idx)
            · exact hc k hk1 hk
            · exact h2 k (by omega) (by omega)
          · rintro ⟨h1, h2⟩
            exact ⟨by omega, fun k hk1 hk2 => h2 k (by omega) (by omega)⟩
        · simp only [hc, decide_false, hset]
          refine ⟨false, rfl, ?_⟩
          simp only [Bool.false_eq_true, false_iff]
          rintro ⟨h1, h2⟩
          exact hc (hz.2 (fun k hk1 hk2 => h2 k hk1 (by omega)))

theorem iter_flip (e : Env) {func : BitVec 32 → BitVec 32 → Option (Bool × BitVec 32)} {b0 : Bool}
    (hfunc : ∀ w m : BitVec 32, (∀ j, j < 32 → m.getLsbD j = true → w.getLsbD j = b0) →
      ∃ w', func w m = some (true, w') ∧
        ∀ j, j < 32 → w'.getLsbD j = if m.getLsbD j then !b0 else w.getLsbD j)
    {fuel i idx nr : Nat} {bm : List (BitVec 32)} (hi : idx < 32)
    (hn : nr < 2 ^ 32) (hf : bm.length ≤ fuel + i)
    (hr : nr = 0 ∨ 32 * i + idx + nr ≤ 32 * bm.length)
    (hb : ∀ k, 32 * i + idx ≤ k → k < 32 * i + idx + nr → bit bm k = b0) :
    ∃ bm', blocksIter e func fuel i idx nr bm = some (true, bm') ∧ bm'.length = bm.length ∧
      ∀ k, bit bm' k = if 32 * i + idx ≤ k ∧ k < 32 * i + idx + nr then !b0 else bit bm k := by
  induction fuel generalizing i idx nr bm with
  | zero =>
    have h0 : nr = 0 := by omega
    unfold blocksIter
    rw [if_pos h0]
    refine ⟨bm, rfl, rfl, fun k => ?_⟩
    rw [if_neg (by omega)]
  | succ fuel ih =>
    unfold blocksIter
    by_cases h0 : nr = 0
    · rw [if_pos h0]
      refine ⟨bm, rfl, rfl, fun k => ?_⟩
      rw [if_neg (by omega)]
    · rw [if_neg h0]
      have hlt : i < bm.length := by omega
      have hw : bm[i]? = some bm[i] := List.getElem?_eq_getElem hlt
      generalize bm[i] = w at hw
      obtain ⟨m, hm1, hm2⟩ := mask_spec e hi hn
      obtain ⟨w', f1, f2⟩ := hfunc w m (by
        intro j hj hmj
        rw [hm2 j hj] at hmj
        simp only [decide_eq_true_eq] at hmj
        rw [← bit_of hw hj]
        exact hb _ (by omega) (by omega))
      have hbit : ∀ k, bit (bm.set i w') k =
          if 32 * i + idx ≤ k ∧ k < 32 * i + idx + min nr (32 - idx) then !b0 else bit bm k := by
        intro k
        rw [bit_set hlt]
        by_cases hk : k / 32 = i
        · rw [if_pos hk, f2 _ (by omega), hm2 _ (by omega), ← bit_of hw (by omega),
            show 32 * i + k % 32 = k by omega]
          simp only [decide_eq_true_eq]
          by_cases hc : idx ≤ k % 32 ∧ k % 32 < idx + min nr (32 - idx)
          · rw [if_pos hc, if_pos (by omega)]
          · rw [if_neg hc, if_neg (by omega)]
        · rw [if_neg hk, if_neg (by omega)]
      simp only [hw, hm1, f1]
      rw [thisBlocks_eq hi hn]
      obtain ⟨bm', e1, e2, e3⟩ := ih (i := i + 1) (idx := 0) (nr := nr - min nr (32 - idx))
        (bm := bm.set i w') (by omega) (by omega) (by simp; omega) (by simp; omega)
        (by
          intro k hk1 hk2
          rw [hbit, if_neg (by omega)]
          exact hb k (by omega) (by omega))
      refine ⟨bm', e1, by simpa using e2, fun k => ?_⟩
      rw [e3, hbit]
      by_cases hc : 32 * i + idx ≤ k ∧ k < 32 * i + idx + nr
      · rw [if_pos hc]
        by_cases hc1 : 32 * (i + 1) + 0 ≤ k ∧ k < 32 * (i + 1) + 0 + (nr - min nr (32 - idx))
        · rw [if_pos hc1]
        · rw [if_neg hc1, if_pos (by omega)]
      · rw [if_neg hc, if_neg (by omega), if_neg (by omega)]

theorem blocksFree_spec (e : Env) {i idx nr : Nat} {bm : List (BitVec 32)} (hi : idx < 32)
    (hn : nr < 2 ^ 32) :
    ∃ b, blocksFree e i idx nr bm = some b ∧
      (b = true ↔ (nr = 0 ∨ 32 * i + idx + nr ≤ 32 * bm.length) ∧
        ∀ k, 32 * i + idx ≤ k → k < 32 * i + idx + nr → bit bm k = false) := by
  obtain ⟨b, e1, e2⟩ := iter_cmp e (fuel := bm.length) (i := i) (bm := bm) hi hn (by omega)
  exact ⟨b, by simp [blocksFree, e1], e2⟩

theorem setBlocks_spec (e : Env) {i idx nr : Nat} {bm : List (BitVec 32)} (hi : idx < 32)
    (hn : nr < 2 ^ 32) (hr : 32 * i + idx + nr ≤ 32 * bm.length)
    (hb : ∀ k, 32 * i + idx ≤ k → k < 32 * i + idx + nr → bit bm k = false) :
    ∃ bm', setBlocks e i idx nr bm = some bm' ∧ bm'.length = bm.length ∧
      ∀ k, bit bm' k = if 32 * i + idx ≤ k ∧ k < 32 * i + idx + nr then true else bit bm k := by
  obtain ⟨bm', e1, e2, e3⟩ := iter_flip e (func := maskSet) (b0 := false)
    (by
      intro w m h
      refine ⟨w ||| m, by rw [maskSet, if_pos (and_eq_zero_iff.2 h)], fun j hj => ?_⟩
      rw [BitVec.getLsbD_or]
      cases m.getLsbD j <;> simp)
    (fuel := bm.length) hi hn (by omega) (Or.inr hr) hb
  exact ⟨bm', by simp [setBlocks, e1], e2, by simpa using e3⟩

theorem clearBlocks_spec (e : Env) {i idx nr : Nat} {bm : List (BitVec 32)} (hi : idx < 32)
    (hn : nr < 2 ^ 32) (hr : 32 * i + idx + nr ≤ 32 * bm.length)
    (hb : ∀ k, 32 * i + idx ≤ k → k < 32 * i + idx + nr → bit bm k = true) :
    ∃ bm', clearBlocks e i idx nr bm = some bm' ∧ bm'.length = bm.length ∧
      ∀ k, bit bm' k = if 32 * i + idx ≤ k ∧ k < 32 * i + idx + nr then false else bit bm k := by
  obtain ⟨bm', e1, e2, e3⟩ := iter_flip e (func := maskClear) (b0 := true)
    (by
      intro w m h
      refine ⟨w &&& ~~~ m, by rw [maskClear, if_pos (and_eq_self_iff.2 h)], fun j hj => ?_⟩
      rw [BitVec.getLsbD_and, BitVec.getLsbD_not]
      cases m.getLsbD j <;> simp [hj])
    (fuel := bm.length) hi hn (by omega) (Or.inr hr) hb
  exact ⟨bm', by simp [clearBlocks, e1], e2, by simpa using e3⟩

/-! ### Counting free blocks -/

/-- The number of clear bits. -/
def clear (bm : List (BitVec 32)) : Nat :=
  ((List.range (32 * bm.length)).filter (fun k => !bit bm k)).length

theorem count_range {f g : Nat → Bool} {a n : Nat}
    (hf : ∀ k, a ≤ k → k < a + n → f k = true)
    (hg : ∀ k, g k = if a ≤ k ∧ k < a + n then false else f k) (N : Nat) :
    ((List.range N).filter g).length + (min N (a + n) - min N a) =
      ((List.range N).filter f).length := by
  induction N with
  | zero => simp
  | succ N ih =>
    rw [List.range_succ, List.filter_append, List.filter_append, List.length_append,
      List.length_append]
    by_cases hN : a ≤ N ∧ N < a + n
    · have h1 : g N = false := by rw [hg, if_pos hN]
      have h2 := hf N hN.1 hN.2
      simp only [List.filter_cons, h1, h2, List.filter_nil]
      simp
      omega
    · have h1 : g N = f N := by rw [hg, if_neg hN]
      simp only [List.filter_cons, h1, List.filter_nil]
      omega

theorem clear_set {bm bm' : List (BitVec 32)} {a n : Nat} (hl : bm'.length = bm.length)
    (hr : a + n ≤ 32 * bm.length) (hb : ∀ k, a ≤ k → k < a + n → bit bm k = false)
    (hb' : ∀ k, bit bm' k = if a ≤ k ∧ k < a + n then true else bit bm k) :
    clear bm' + n = clear bm := by
  have := count_range (f := fun k => !bit bm k) (g := fun k => !bit bm' k) (a := a) (n := n)
    (fun k h1 h2 => by simp [hb k h1 h2])
    (fun k => by rw [hb' k]; split <;> simp) (32 * bm.length)
  unfold clear
  rw [hl]
  omega

theorem clear_clear {bm bm' : List (BitVec 32)} {a n : Nat} (hl : bm'.length = bm.length)
    (hr : a + n ≤ 32 * bm.length) (hb : ∀ k, a ≤ k → k < a + n → bit bm k = true)
    (hb' : ∀ k, bit bm' k = if a ≤ k ∧ k < a + n then false else bit bm k) :
    clear bm' = clear bm + n := by
  have := clear_set (bm := bm') (bm' := bm) (a := a) (n := n) hl.symm (by omega)
    (fun k h1 h2 => by rw [hb' k, if_pos ⟨h1, h2⟩])
    (fun k => by
      rw [hb' k]
      by_cases h : a ≤ k ∧ k < a + n
      · rw [if_pos h, hb k h.1 h.2]
      · rw [if_neg h, if_neg h])
  omega

theorem allOnes_iff {w : BitVec 32} : w = BitVec.allOnes 32 ↔ ∀ j, j < 32 → w.getLsbD j = true := by
  constructor
  · rintro rfl j hj
    rw [BitVec.getLsbD_allOnes, decide_eq_true hj]
  · intro h
    apply BitVec.eq_of_getLsbD_eq
    intro j hj
    rw [h j hj, BitVec.getLsbD_allOnes, decide_eq_true hj]

/-- With a clear bit, some word is not full. -/
theorem nonfull_of_clear {bm : List (BitVec 32)} (h : 0 < clear bm) :
    ∃ (i : Nat) (w : BitVec 32), bm[i]? = some w ∧ w ≠ BitVec.allOnes 32 := by
  unfold clear at h
  obtain ⟨k, hk⟩ := List.exists_mem_of_length_pos h
  simp only [List.mem_filter, List.mem_range, Bool.not_eq_true'] at hk
  have hlt : k / 32 < bm.length := by omega
  have hw : bm[k / 32]? = some bm[k / 32] := List.getElem?_eq_getElem hlt
  refine ⟨k / 32, _, hw, fun hc => ?_⟩
  rw [allOnes_iff] at hc
  have := hc (k % 32) (by omega)
  rw [← bit_of hw (by omega), show 32 * (k / 32) + k % 32 = k by omega, hk.2] at this
  cases this

theorem firstNonFull_lt {bm : List (BitVec 32)} {i j : Nat} (h : firstNonFull bm i = some j) :
    i ≤ j ∧ j < bm.length := by
  unfold firstNonFull at h
  simp only [Option.map_eq_some_iff] at h
  obtain ⟨a, h1, rfl⟩ := h
  rw [List.findIdx?_eq_some_iff_findIdx_eq] at h1
  have := h1.1
  simp only [List.length_drop] at this
  omega

theorem firstNonFull_none {bm : List (BitVec 32)} (h : firstNonFull bm 0 = none) :
    ∀ w ∈ bm, w = BitVec.allOnes 32 := by
  unfold firstNonFull at h
  simp only [Option.map_eq_none_iff, List.drop_zero, List.findIdx?_eq_none_iff] at h
  intro w hw
  simpa using h w hw

theorem findBestIndex_spec {p : Pool} (hc : p.free = clear p.bitmap) (h0 : 0 < p.free)
    (hn : p.next < p.bitmap.length) : ∃ b, findBestIndex p = some b ∧ b < p.bitmap.length := by
  unfold findBestIndex
  rw [if_neg (by omega), if_pos hn]
  cases h1 : firstNonFull p.bitmap p.next with
  | some i => exact ⟨i, rfl, (firstNonFull_lt h1).2⟩
  | none =>
    cases h2 : firstNonFull p.bitmap 0 with
    | some i => exact ⟨i, rfl, (firstNonFull_lt h2).2⟩
    | none =>
      obtain ⟨i, w, hw, hne⟩ := nonfull_of_clear (hc ▸ h0)
      exact absurd (firstNonFull_none h2 w (List.mem_of_getElem? hw)) hne

/-! ### Finding room -/

/-- The bits of the widened word. -/
theorem widen_bit {w : BitVec 32} {s j : Nat} (hs : s < 32) (hj : j < 64) :
    ((w.sshiftRight s).signExtend 64).getLsbD j = w.getLsbD (min (s + j) 31) := by
  rw [BitVec.getLsbD_signExtend]
  simp only [hj, decide_true, Bool.true_and]
  by_cases h : j < 32
  · rw [if_pos h, BitVec.getLsbD_sshiftRight]
    by_cases h2 : s + j < 32
    · rw [Nat.min_eq_left (by omega)]
      simp [h2, show ¬ 32 ≤ j by omega]
    · rw [Nat.min_eq_right (by omega)]
      simp [h2, show ¬ 32 ≤ j by omega, BitVec.msb_eq_getLsbD_last]
  · rw [if_neg h, BitVec.msb_sshiftRight, BitVec.msb_eq_getLsbD_last, Nat.min_eq_right (by omega)]

/-- `find_next_zero` finds the first clear bit from `start` on, if there is one. -/
theorem findNextZero_spec (e : Env) {w : BitVec 32} {s : Nat} (hs : s < 32)
    (hw : w ≠ BitVec.allOnes 32) :
    (∃ j, findNextZero e w s = some j ∧ s ≤ j ∧ j < 32 ∧ w.getLsbD j = false) ∨
    (findNextZero e w s = some (e.z + s) ∧ 0 < s ∧
      ∀ j, s ≤ j → j < 32 → w.getLsbD j = true) := by
  unfold findNextZero
  rw [if_neg hw]
  by_cases hv : (w.sshiftRight s).signExtend 64 = BitVec.allOnes 64
  · right
    have hb : ∀ j, s ≤ j → j < 32 → w.getLsbD j = true := by
      intro j h1 h2
      have := congrArg (fun x => BitVec.getLsbD x (j - s)) hv
      rw [widen_bit hs (by omega), Nat.min_eq_left (by omega), show s + (j - s) = j by omega,
        BitVec.getLsbD_allOnes, decide_eq_true (by omega)] at this
      exact this
    refine ⟨by simp only [hv, if_true], ?_, hb⟩
    rcases Nat.eq_zero_or_pos s with h0 | h0
    · exact absurd (allOnes_iff.2 (fun j hj => hb j (by omega) hj)) hw
    · exact h0
  · left
    have hne : ~~~ ((w.sshiftRight s).signExtend 64) ≠ 0#64 := by
      intro hc
      apply hv
      have := congrArg (fun x => ~~~ x) hc
      simpa using this
    obtain ⟨h1, h2, h3⟩ := ffs64_spec hne
    change ffz _ < 64 at h1
    change BitVec.getLsbD _ (ffz _) = true at h2
    change ∀ j, j < ffz _ → _ at h3
    rw [if_neg hv]
    have hz : w.getLsbD (min (s + ffz ((w.sshiftRight s).signExtend 64)) 31) = false := by
      rw [← widen_bit hs h1]
      rw [BitVec.getLsbD_not] at h2
      simp only [Bool.and_eq_true, Bool.not_eq_true'] at h2
      exact h2.2
    have hlt : s + ffz ((w.sshiftRight s).signExtend 64) < 32 := by
      apply Classical.byContradiction
      intro hc
      have hz31 := hz
      rw [Nat.min_eq_right (by omega)] at hz31
      have h4 := h3 (31 - s) (by omega)
      rw [BitVec.getLsbD_not, widen_bit hs (by omega), Nat.min_eq_left (by omega),
        show s + (31 - s) = 31 by omega, hz31] at h4
      simp at h4
      omega
    rw [Nat.min_eq_left (by omega)] at hz
    refine ⟨_, rfl, by omega, by omega, ?_⟩
    rw [Nat.add_comm]
    exact hz

/-! ### Where C leaves the result open -/

/-- The C standard: a shift by 32 or more may do anything.  `ffz(-1)` of lib/ffz.h is 63. -/
def strict : Env := ⟨63, fun _ _ => none⟩

/-- Shift counts are taken modulo 32, as x86 does. -/
def wrapping : Env :=
  ⟨63, fun this idx => some (((1#32 <<< (this % 32)) - 1#32) <<< (idx % 32))⟩

/-- `ffz(-1)` is 0: `bsf` with a zero source leaves its destination alone, which is the register of
the source (arch/arch-x86_64.h:23-27). -/
def bsfSame : Env := ⟨0, fun _ _ => none⟩

/-- The block after the last clear bit of a word is not taken for free. -/
def Env.Rejects (e : Env) : Prop :=
  ∀ (bm : List (BitVec 32)) (i s nr : Nat) (w : BitVec 32), bm[i]? = some w → 2 ≤ s → s < 32 →
    (∀ j, s ≤ j → j < 32 → w.getLsbD j = true) → 0 < nr → nr < 2 ^ 32 →
    blocksFree e i (e.z + s) nr bm = none ∨ blocksFree e i (e.z + s) nr bm = some false

/-- And the check for it has a result. -/
def Env.Defined (e : Env) : Prop :=
  ∀ (bm : List (BitVec 32)) (i s nr : Nat) (w : BitVec 32), bm[i]? = some w → 2 ≤ s → s < 32 →
    (∀ j, s ≤ j → j < 32 → w.getLsbD j = true) → 0 < nr → nr < 2 ^ 32 →
    blocksFree e i (e.z + s) nr bm ≠ none

theorem thisBlocks_over {s nr : Nat} (hs : s < 32) (h0 : 0 < nr) :
    thisBlocks (63 + s) nr = 2 ^ 32 - 31 - s := by
  unfold thisBlocks
  rw [if_pos (by omega)]
  omega

theorem strict_undefined {bm : List (BitVec 32)} {i s nr : Nat} {w : BitVec 32}
    (hw : bm[i]? = some w) (hs : s < 32) (h0 : 0 < nr) :
    blocksFree strict i (63 + s) nr bm = none := by
  unfold blocksFree blocksIter
  rw [if_neg (by omega), hw]
  have : mask strict (thisBlocks (63 + s) nr) (63 + s) = none := by
    unfold mask
    rw [thisBlocks_over hs h0, if_neg (by omega), if_neg (by omega)]
    rfl
  simp only [this, Option.map_none]

theorem strict_rejects : strict.Rejects :=
  fun _ _ _ _ _ hw _ hs _ h0 _ => Or.inl (strict_undefined hw hs h0)

theorem wrapping_false {bm : List (BitVec 32)} {i s nr : Nat} {w : BitVec 32}
    (hw : bm[i]? = some w) (hs2 : 2 ≤ s) (hs : s < 32)
    (hb : ∀ j, s ≤ j → j < 32 → w.getLsbD j = true) (h0 : 0 < nr) :
    blocksFree wrapping i (63 + s) nr bm = some false := by
  unfold blocksFree blocksIter
  rw [if_neg (by omega), hw]
  have hm : mask wrapping (thisBlocks (63 + s) nr) (63 + s) =
      some (((1#32 <<< (33 - s)) - 1#32) <<< (s - 1)) := by
    unfold mask
    rw [thisBlocks_over hs h0, if_neg (by omega), if_neg (by omega)]
    simp only [wrapping]
    rw [show (2 ^ 32 - 31 - s) % 32 = 33 - s by omega, show (63 + s) % 32 = s - 1 by omega]
  have hne : ¬ w &&& (((1#32 <<< (33 - s)) - 1#32) <<< (s - 1)) = 0#32 := by
    intro hc
    have := and_eq_zero_iff.1 hc 31 (by omega) (by
      rw [BitVec.getLsbD_shiftLeft, low_mask (by omega) (by omega)]
      simp
      omega)
    rw [hb 31 (by omega) (by omega)] at this
    cases this
  simp only [hm, maskCmp, hne, decide_false, Option.map_some]

theorem wrapping_rejects : wrapping.Rejects :=
  fun _ _ _ _ _ hw h2 hs hb h0 _ => Or.inr (wrapping_false hw h2 hs hb h0)

theorem wrapping_defined : wrapping.Defined :=
  fun _ _ _ _ _ hw h2 hs hb h0 _ h => by
    have := wrapping_false hw h2 hs hb h0
    change blocksFree wrapping _ (63 + _) _ _ = none at h
    rw [this] at h
    cases h

theorem bsfSame_false {bm : List (BitVec 32)} {i s nr : Nat} {w : BitVec 32}
    (hw : bm[i]? = some w) (hs : s < 32)
    (hb : ∀ j, s ≤ j → j < 32 → w.getLsbD j = true) (h0 : 0 < nr) (hn : nr < 2 ^ 32) :
    blocksFree bsfSame i (0 + s) nr bm = some false := by
  rw [Nat.zero_add]
  obtain ⟨b, e1, e2⟩ := blocksFree_spec bsfSame (i := i) (bm := bm) hs hn
  cases b with
  | false => exact e1
  | true =>
    have := (e2.1 rfl).2 (32 * i + s) (by omega) (by omega)
    rw [bit_of hw hs, hb s (by omega) hs] at this
    cases this

theorem bsfSame_rejects : bsfSame.Rejects :=
  fun _ _ _ _ _ hw _ hs hb h0 hn => Or.inr (bsfSame_false hw hs hb h0 hn)

theorem bsfSame_defined : bsfSame.Defined :=
  fun _ _ _ _ _ hw _ hs hb h0 hn h => by
    have := bsfSame_false hw hs hb h0 hn
    change blocksFree bsfSame _ (0 + _) _ _ = none at h
    rw [this] at h
    cases h

/-- What the search may deliver. -/
def RunOk (nr : Nat) (bm : List (BitVec 32)) : Option (Nat × Nat × List (BitVec 32)) → Prop
  | none => True
  | some (i, idx, bm') => idx < 32 ∧ 32 * i + idx + nr ≤ 32 * bm.length ∧
      (∀ k, 32 * i + idx ≤ k → k < 32 * i + idx + nr → bit bm k = false) ∧
      bm'.length = bm.length ∧
      ∀ k, bit bm' k = if 32 * i + idx ≤ k ∧ k < 32 * i + idx + nr then true else bit bm k

theorem findRun_spec {e : Env} (hrej : e.Rejects) {nr : Nat} {bm : List (BitVec 32)} (h0 : 0 < nr)
    (hn : nr < 2 ^ 32) {fuel i last : Nat} (hl : last < 32) (hl2 : last = 0 ∨ 2 ≤ last)
    (hf : 32 * bm.length < fuel + (32 * i + last)) :
    (¬ e.Defined ∧ findRun e nr bm fuel i last = none) ∨
    ∃ r, findRun e nr bm fuel i last = some r ∧ RunOk nr bm r := by
  induction fuel generalizing i last with
  | zero =>
    right
    unfold findRun
    rw [List.getElem?_eq_none (by omega)]
    exact ⟨none, rfl, trivial⟩
  | succ fuel ih =>
    unfold findRun
    cases hw : bm[i]? with
    | none => exact Or.inr ⟨none, rfl, trivial⟩
    | some w =>
      have hi : i < bm.length := by
        rcases Nat.lt_or_ge i bm.length with h | h
        · exact h
        · rw [List.getElem?_eq_none h] at hw
          cases hw
      simp only
      by_cases hfull : w = BitVec.allOnes 32
      · rw [if_pos hfull]
        exact ih (by omega) (Or.inl rfl) (by omega)
      · rw [if_neg hfull]
        rcases findNextZero_spec e hl hfull with ⟨j, e1, j1, j2, j3⟩ | ⟨e1, s0, hones⟩
        · simp only [e1]
          obtain ⟨b, f1, f2⟩ := blocksFree_spec e (i := i) (bm := bm) j2 hn
          cases b with
          | true =>
            obtain ⟨g1, g2⟩ := f2.1 rfl
            obtain ⟨bm', s1, s2, s3⟩ := setBlocks_spec e j2 hn (by omega) g2
            right
            simp only [f1, s1, Option.map_some]
            exact ⟨_, rfl, j2, by omega, g2, s2, s3⟩
          | false =>
            have hnr : 2 ≤ nr := by
              apply Classical.byContradiction
              intro hc
              have : (false = true) := f2.2 ⟨Or.inr (by omega), fun k k1 k2 => by
                rw [show k = 32 * i + j by omega, bit_of hw j2, j3]⟩
              cases this
            simp only [f1]
            by_cases hidx : j + nr < 32
            · rw [if_pos hidx]
              exact ih hidx (Or.inr (by omega)) (by omega)
            · rw [if_neg hidx]
              exact ih (by omega) (Or.inl rfl) (by omega)
        · simp only [e1]
          have hs2 : 2 ≤ last := by omega
          rcases hrej bm i last nr w hw hs2 hl hones h0 hn with hu | hu
          · left
            simp only [hu]
            exact ⟨fun hd => hd bm i last nr w hw hs2 hl hones h0 hn hu, trivial⟩
          · simp only [hu]
            by_cases hidx : e.z + last + nr < 32
            · rw [if_pos hidx]
              exact ih hidx (Or.inr (by omega)) (by omega)
            · rw [if_neg hidx]
              exact ih (by omega) (Or.inl rfl) (by omega)

end Fio.Smalloc
