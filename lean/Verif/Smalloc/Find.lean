/-
When the search of one pool succeeds: a run of free blocks long enough is always found, although the
search skips blocks behind a run that was too short.
-/
import Verif.Smalloc.Props
namespace Fio.Smalloc

theorem findNextZero_le (e : Env) {w : BitVec 32} {s a : Nat} (hs : s ≤ a) (ha : a < 32)
    (hw : w.getLsbD a = false) :
    ∃ j, findNextZero e w s = some j ∧ s ≤ j ∧ j ≤ a ∧ w.getLsbD j = false := by
  have hne : w ≠ BitVec.allOnes 32 := by
    intro h
    rw [h, BitVec.getLsbD_allOnes, decide_eq_true ha] at hw
    cases hw
  rcases findNextZero_spec e (s := s) (by omega) hne with ⟨j, e1, h1, h2, h3⟩ | ⟨_, _, h⟩
  · refine ⟨j, e1, h1, ?_, h3⟩
    unfold findNextZero at e1
    rw [if_neg hne] at e1
    dsimp only at e1
    by_cases hv : (w.sshiftRight s).signExtend 64 = BitVec.allOnes 64
    · have := congrArg (fun x => BitVec.getLsbD x (a - s)) hv
      rw [widen_bit (by omega) (by omega), Nat.min_eq_left (by omega),
        show s + (a - s) = a by omega, BitVec.getLsbD_allOnes, decide_eq_true (by omega), hw] at this
      cases this
    · rw [if_neg hv] at e1
      cases e1
      have hne : ~~~ ((w.sshiftRight s).signExtend 64) ≠ 0#64 := by
        intro hc
        apply hv
        have := congrArg (fun x => ~~~ x) hc
        simpa using this
      obtain ⟨g1, g2, g3⟩ := ffs64_spec hne
      change ∀ j, j < ffz _ → _ at g3
      apply Classical.byContradiction
      intro hc
      have h4 := g3 (a - s) (by omega)
      rw [BitVec.getLsbD_not, widen_bit (by omega) (by omega), Nat.min_eq_left (by omega),
        show s + (a - s) = a by omega, hw] at h4
      simp at h4
      omega
  · rw [h a hs ha] at hw
    cases hw

/-- A search standing on `nr` free blocks takes them. -/
theorem findRun_here {e : Env} {nr : Nat} {bm : List (BitVec 32)} {i last fuel : Nat}
    (hn : 0 < nr) (hN : nr < 2 ^ 32) (hl : last < 32)
    (hr : 32 * i + last + nr ≤ 32 * bm.length)
    (hb : ∀ k, 32 * i + last ≤ k → k < 32 * i + last + nr → bit bm k = false) :
    ∃ bm', findRun e nr bm (fuel + 1) i last = some (some (i, last, bm')) := by
  have hi : i < bm.length := by omega
  have hw : bm[i]? = some bm[i] := List.getElem?_eq_getElem hi
  generalize hwe : bm[i] = w at hw
  have h0 : w.getLsbD last = false := by
    rw [← bit_of hw hl]
    exact hb _ (by omega) (by omega)
  have hne : w ≠ BitVec.allOnes 32 := by
    intro h
    rw [h, BitVec.getLsbD_allOnes, decide_eq_true hl] at h0
    cases h0
  obtain ⟨j, e1, j1, j2, j3⟩ := findNextZero_le e (Nat.le_refl last) hl h0
  have : j = last := by omega
  subst this
  obtain ⟨b, e2, e3⟩ := blocksFree_spec e (i := i) (bm := bm) hl hN
  have hbt : b = true := e3.2 ⟨Or.inr hr, hb⟩
  subst hbt
  obtain ⟨bm', e4, _, _⟩ := setBlocks_spec e (i := i) (bm := bm) hl hN hr hb
  refine ⟨bm', ?_⟩
  unfold findRun
  simp only [hw, if_neg hne, e1, e2, e4, Option.map_some]

/-- A search standing before a run of `e.z + 2 * nr` free blocks finds room. -/
theorem findRun_finds {e : Env} (hrej : e.Rejects) (hdef : e.Defined) {nr a L : Nat}
    {bm : List (BitVec 32)}
    (hn : 0 < nr) (hN : nr < 2 ^ 32) (hL : e.z + 2 * nr ≤ L) (hr : a + L ≤ 32 * bm.length)
    (hb : ∀ k, a ≤ k → k < a + L → bit bm k = false)
    {fuel i last : Nat} (hl : last < 32) (hl0 : last = 0 ∨ 2 ≤ last) (hp : 32 * i + last ≤ a)
    (hn2 : last = 0 ∨ nr ≤ last)
    (hf : 32 * bm.length < 32 * i + last + fuel) :
    ∃ r, findRun e nr bm fuel i last = some (some r) := by
  induction fuel generalizing i last with
  | zero => omega
  | succ fuel ih =>
    have hi : i < bm.length := by omega
    have hw : bm[i]? = some bm[i] := List.getElem?_eq_getElem hi
    generalize hwe : bm[i] = w at hw
    /- standing at `q` after a skip: before the run or on it -/
    have step : ∀ i' last', last' < 32 → (last' = 0 ∨ 2 ≤ last') → (last' = 0 ∨ nr ≤ last') →
        32 * i + last < 32 * i' + last' → 32 * i' + last' ≤ a + e.z + nr →
        ∃ r, findRun e nr bm fuel i' last' = some (some r) := by
      intro i' last' h1 h2 h3 h4 h5
      by_cases hle : 32 * i' + last' ≤ a
      · exact ih h1 h2 hle h3 (by omega)
      · cases fuel with
        | zero => omega
        | succ fuel =>
          obtain ⟨bm', h⟩ := findRun_here (e := e) (fuel := fuel) hn hN h1 (i := i') (bm := bm)
            (by omega) (fun k k1 k2 => hb k (by omega) (by omega))
          exact ⟨_, h⟩
    unfold findRun
    simp only [hw]
    by_cases hfull : w = BitVec.allOnes 32
    · rw [if_pos hfull]
      have hge : 32 * (i + 1) ≤ a := by
        apply Classical.byContradiction
        intro hc
        have h1 := hb a (by omega) (by omega)
        rw [show a = 32 * i + (a - 32 * i) by omega, bit_of hw (by omega), hfull,
          BitVec.getLsbD_allOnes, decide_eq_true (by omega)] at h1
        cases h1
      exact step (i + 1) 0 (by omega) (Or.inl rfl) (Or.inl rfl) (by omega) (by omega)
    · rw [if_neg hfull]
      rcases findNextZero_spec e hl hfull with ⟨j, e1, j1, j2, j3⟩ | ⟨e1, h1, h2⟩
      · simp only [e1]
        have hja : 32 * i + j ≤ a := by
          apply Classical.byContradiction
          intro hc
          have h1 := hb a (by omega) (by omega)
          rw [show a = 32 * i + (a - 32 * i) by omega, bit_of hw (by omega)] at h1
          obtain ⟨j', e2, g1, g2, g3⟩ := findNextZero_le e (s := last) (a := a - 32 * i) (by omega)
            (by omega) h1
          rw [e1] at e2
          cases e2
          omega
        obtain ⟨b, e2, e3⟩ := blocksFree_spec e (i := i) (bm := bm) j2 hN
        simp only [e2]
        cases b with
        | true =>
          obtain ⟨r1, r2⟩ := e3.1 rfl
          obtain ⟨bm', e4, _, _⟩ := setBlocks_spec e (i := i) (bm := bm) j2 hN
            (by rcases r1 with h | h <;> omega) r2
          simp [e4]
        | false =>
          simp only
          by_cases hs : j + nr < 32
          · rw [if_pos hs]
            have hj1 : j + nr ≠ 1 ∨ (j = 0 ∧ nr = 1) := by omega
            rcases hj1 with hj1 | ⟨rfl, rfl⟩
            · exact step i (j + nr) hs (by omega) (by omega) (by omega) (by omega)
            · -- a free block is enough for one block
              exfalso
              have := e3.2 ⟨Or.inr (by omega), fun k k1 k2 => by
                have hk : k = 32 * i + 0 := by omega
                rw [hk, bit_of hw (by omega)]; exact j3⟩
              cases this
          · rw [if_neg hs]
            exact step (i + (j + nr) / 32) 0 (by omega) (Or.inl rfl) (Or.inl rfl) (by omega)
              (by omega)
      · simp only [e1]
        have hl2 : 2 ≤ last := by omega
        have hb2 : blocksFree e i (e.z + last) nr bm = some false := by
          rcases hrej bm i last nr w hw hl2 hl h2 hn hN with h | h
          · exact absurd h (hdef bm i last nr w hw hl2 hl h2 hn hN)
          · exact h
        simp only [hb2]
        by_cases hs : e.z + last + nr < 32
        · rw [if_pos hs]
          exact step i (e.z + last + nr) hs (by omega) (by omega) (by omega) (by omega)
        · rw [if_neg hs]
          have : 32 * i + last < 32 * (i + (e.z + last + nr) / 32) := by omega
          exact step (i + (e.z + last + nr) / 32) 0 (by omega) (Or.inl rfl) (Or.inl rfl) (by omega)
            (by omega)

/-! ### Everything before `next_non_full` is full -/

/-- The words before `next_non_full` are full. -/
def NextOk (p : Pool) : Prop := ∀ k, k < 32 * p.next → bit p.bitmap k = true

theorem firstNonFull_before {bm : List (BitVec 32)} {i j : Nat} (h : firstNonFull bm i = some j)
    {k : Nat} (h1 : 32 * i ≤ k) (h2 : k < 32 * j) : bit bm k = true := by
  have hlt := firstNonFull_lt h
  unfold firstNonFull at h
  simp only [Option.map_eq_some_iff] at h
  obtain ⟨a, h3, h4⟩ := h
  rw [List.findIdx?_eq_some_iff_getElem] at h3
  obtain ⟨h5, _, h6⟩ := h3
  have h7 := h6 (k / 32 - i) (by omega)
  simp only [List.getElem_drop, bne_iff_ne, ne_eq, Decidable.not_not] at h7
  have hw : bm[k / 32]? = some (BitVec.allOnes 32) := by
    rw [List.getElem?_eq_getElem (by omega), ← h7]
    congr 2
    omega
  rw [show k = 32 * (k / 32) + k % 32 by omega, bit_of hw (by omega), BitVec.getLsbD_allOnes,
    decide_eq_true (by omega)]

theorem findBestIndex_before {p : Pool} (hn : NextOk p) {b : Nat} (h : findBestIndex p = some b)
    {k : Nat} (h2 : k < 32 * b) : bit p.bitmap k = true := by
  unfold findBestIndex at h
  split at h
  · cases h
  · split at h
    · split at h
      · next i hi =>
        cases h
        by_cases hk : k < 32 * p.next
        · exact hn k hk
        · exact firstNonFull_before hi (by omega) h2
      · exact firstNonFull_before h (by omega) h2
    · cases h

theorem allocBlocks_next {e : Env} {p p' : Pool} (hn : NextOk p) {s : Nat} {o : Option Nat}
    (h : allocBlocks e s p = some (o, p'))
    (hbit : ∀ k, bit p.bitmap k = true → bit p'.bitmap k = true) : NextOk p' := by
  unfold allocBlocks at h
  dsimp only at h
  split at h
  · cases h; exact hn
  · split at h
    · cases h
    · next b hb =>
      split at h
      · cases h
      · cases h
        exact fun k hk => findBestIndex_before hn hb hk
      · cases h
        exact fun k hk => hbit k (findBestIndex_before hn hb hk)

theorem alloc_next {e : Env} (hrej : e.Rejects) {p p' : Pool} {live : List Chunk} (hi : Inv p live)
    (hn : NextOk p) {s : Nat} (hs : s < 2 ^ 32) {o : Option Nat}
    (h : alloc e s p = some (o, p')) : NextOk p' := by
  unfold alloc at h
  rcases allocBlocks_spec hrej hi hs with ⟨_, e1⟩ | ⟨b, e1, hb⟩ |
    ⟨b, bm, k, e1, hb, hl, hfr, hr, hclr, hbit⟩
  · rw [e1] at h; cases h
  · have h1 := allocBlocks_next hn e1 (fun _ h => h)
    rw [e1] at h
    cases h
    exact h1
  · have h1 := allocBlocks_next hn e1 (fun k h => by
      simp only [hbit k, h]
      split <;> rfl)
    rw [e1] at h
    dsimp only at h
    split at h
    · cases h
    · split at h
      · cases h
      · split at h
        · cases h
        · split at h
          · cases h
          · cases h
            exact h1

theorem free_next {e : Env} {p p' : Pool} {live : List Chunk} (hi : Inv p live) (hn : NextOk p)
    {c : Chunk} (hc : c ∈ live) (h : free e c.ptr p = some p') : NextOk p' := by
  obtain ⟨p'', e1, h1, _⟩ := free_spec e hi hc
  rw [h] at e1
  cases e1
  have hnx : p'.next ≤ p.next ∧ p'.next ≤ (c.ptr - 16) / 1024 := by
    unfold free at h
    dsimp only at h
    split at h
    · cases h
    · split at h
      · cases h
      · split at h
        · split at h
          · cases h
          · split at h
            · cases h
            · split at h
              · cases h
              · split at h
                · cases h
                · cases h
                  dsimp only
                  split <;> omega
        · cases h
  intro k hk
  obtain ⟨c', h2, h3, h4⟩ := (hi.bits k).1 (hn k (by omega))
  have hne : c' ≠ c := by
    rintro rfl
    omega
  exact (h1.bits k).2 ⟨c', (List.mem_erase_of_ne hne).2 h2, h3, h4⟩

/-- A pool with `e.z + 2 * nr` free blocks in a row serves a request that needs `nr` blocks. -/
theorem alloc_finds {e : Env} (hrej : e.Rejects) (hdef : e.Defined) {p : Pool} {live : List Chunk}
    (h : Inv p live) (hn : NextOk p) {s : Nat} (hs : s < 2 ^ 32) {a L : Nat}
    (hL : e.z + 2 * ((s + 20 + 31) / 32) ≤ L) (hr : a + L ≤ 32 * p.bitmap.length)
    (hb : ∀ k, a ≤ k → k < a + L → bit p.bitmap k = false) :
    ∃ o p', alloc e s p = some (some o, p') := by
  have hfree : ¬ (s + 20 + 31) / 32 > p.free := by
    rw [h.free]
    have h1 : clear p.bitmap ≥ L := by
      unfold clear
      have h2 : (List.range' a L).Sublist
          ((List.range (32 * p.bitmap.length)).filter (fun k => !bit p.bitmap k)) := by
        have h3 : (List.range' a L).filter (fun k => !bit p.bitmap k) = List.range' a L := by
          rw [List.filter_eq_self]
          intro k hk
          rw [List.mem_range'_1] at hk
          simp [hb k hk.1 hk.2]
        rw [← h3]
        apply List.Sublist.filter
        have h4 : List.range (32 * p.bitmap.length) =
            List.range' 0 a ++ (List.range' a L ++
              List.range' (a + L) (32 * p.bitmap.length - (a + L))) := by
          rw [List.range'_append_1, List.range_eq_range']
          have h5 := List.range'_append_1 (s := 0) (m := a)
            (n := L + (32 * p.bitmap.length - (a + L)))
          rw [Nat.zero_add] at h5
          rw [h5]
          congr 1
          omega
        rw [h4]
        exact (List.sublist_append_left _ _).trans (List.sublist_append_right _ _)
      have := h2.length_le
      rwa [List.length_range'] at this
    omega
  have hsome : ∃ k p', allocBlocks e (allocSize s) p = some (some k, p') := by
    unfold allocBlocks
    simp only [blocks_eq hs]
    rw [if_neg hfree]
    obtain ⟨b, e1, e2⟩ := findBestIndex_spec h.free (by omega) h.next
    simp only [e1]
    have hba : 32 * b ≤ a := by
      apply Classical.byContradiction
      intro hc
      have h1 := findBestIndex_before hn e1 (k := a) (by omega)
      rw [hb a (by omega) (by omega)] at h1
      cases h1
    obtain ⟨r, hf⟩ := findRun_finds hrej hdef (nr := (s + 20 + 31) / 32) (by omega) (by omega) hL hr
      hb (fuel := 32 * p.bitmap.length + 1) (i := b) (last := 0) (by omega) (Or.inl rfl)
      (by omega) (Or.inl rfl) (by omega)
    obtain ⟨i, idx, bm⟩ := r
    simp only [hf]
    exact ⟨_, _, rfl⟩
  obtain ⟨k, p', e1⟩ := hsome
  rcases alloc_spec hrej h hs with ⟨hd, _⟩ | ⟨p2, e2, _⟩ | ⟨p2, o, e2, _⟩
  · exact absurd hdef hd
  · exfalso
    unfold alloc at e2
    rw [e1] at e2
    dsimp only at e2
    split at e2
    · cases e2
    · split at e2
      · cases e2
      · split at e2
        · cases e2
        · split at e2 <;> cases e2
  · exact ⟨o, p2, e2⟩

end Fio.Smalloc
