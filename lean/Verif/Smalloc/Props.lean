/-
C16, C17: live allocations never overlap, and the count of free blocks is exact.
-/
import Verif.Smalloc.Lemmas
import Verif.Common.Total
namespace Fio.Smalloc

/-! ### Reading and writing memory -/

theorem memWrite_length {m m' d : List Byte} {off : Nat} (h : memWrite m off d = some m') :
    m'.length = m.length := by
  unfold memWrite at h
  split at h
  · cases h
    simp
    omega
  · cases h

theorem memWrite_ok {m d : List Byte} {off : Nat} (h : off + d.length ≤ m.length) :
    ∃ m', memWrite m off d = some m' := ⟨_, if_pos h⟩

theorem read_write_ne {m m' d : List Byte} {off o len : Nat} (h : memWrite m off d = some m')
    (hd : o + len ≤ off ∨ off + d.length ≤ o) : memRead m' o len = memRead m o len := by
  have hlen := memWrite_length h
  have hb : off + d.length ≤ m.length := by
    unfold memWrite at h
    split at h
    · assumption
    · cases h
  obtain ⟨b, e1, _, e3⟩ := memWrite_some hb
  rw [h] at e1
  cases e1
  unfold memRead
  rw [hlen]
  split
  · congr 1
    apply List.ext_getElem?
    intro i
    by_cases hi : i < len
    · rw [List.getElem?_take_of_lt hi, List.getElem?_take_of_lt hi, List.getElem?_drop,
        List.getElem?_drop, e3, if_neg (by omega)]
    · rw [List.getElem?_eq_none (by simp; omega), List.getElem?_eq_none (by simp; omega)]
  · rfl

theorem read_write_same {m m' d : List Byte} {off : Nat} (h : memWrite m off d = some m') :
    memRead m' off d.length = some d := by
  have hlen := memWrite_length h
  have hb : off + d.length ≤ m.length := by
    unfold memWrite at h
    split at h
    · assumption
    · cases h
  obtain ⟨b, e1, _, e3⟩ := memWrite_some hb
  rw [h] at e1
  cases e1
  unfold memRead
  rw [if_pos (by omega)]
  congr 1
  apply List.ext_getElem?
  intro i
  by_cases hi : i < d.length
  · rw [List.getElem?_take_of_lt hi, List.getElem?_drop, e3, if_pos (by omega)]
    congr 1
    omega
  · rw [List.getElem?_eq_none (by simp; omega), List.getElem?_eq_none (by omega)]

/-! ### Specification -/

/-- A live allocation: the pointer handed out (its offset in the pool) and the size asked for. -/
structure Chunk where
  ptr : Nat
  size : Nat
deriving DecidableEq

/-- Blocks of 32 bytes the allocation takes: header of 16 bytes, the bytes, guard word of 4. -/
def Chunk.blocks (c : Chunk) : Nat := (c.size + 20 + 31) / 32

/-- The two allocations, each with its header and guard word, share no byte. -/
def Apart (c d : Chunk) : Prop :=
  c.ptr + c.size + 4 ≤ d.ptr - 16 ∨ d.ptr + d.size + 4 ≤ c.ptr - 16

/-- The header and the guard words of an allocation are intact. -/
def Guarded (m : List Byte) (c : Chunk) : Prop :=
  memRead m (c.ptr - 16) 8 = some (le 8 (allocSize c.size)) ∧
  memRead m (c.ptr - 8) 4 = some (le 4 preRed) ∧
  memRead m (postOff (c.ptr - 16) (allocSize c.size)) 4 = some (le 4 postRed)

theorem allocSize_eq {s : Nat} (h : s < 2 ^ 32) : allocSize s = (s + 23) / 4 * 4 := by
  unfold allocSize
  omega

theorem blocks_eq {s : Nat} (h : s < 2 ^ 32) : sizeToBlocks (allocSize s) = (s + 20 + 31) / 32 := by
  rw [allocSize_eq h]
  unfold sizeToBlocks
  omega

theorem postOff_eq {h s : Nat} (hh : h % 32 = 0) (hs : s < 2 ^ 32) :
    postOff h (allocSize s) = h + allocSize s - 4 := by
  rw [allocSize_eq hs]
  unfold postOff
  omega

/-- What always holds of a pool and its live allocations. -/
structure Inv (p : Pool) (live : List Chunk) : Prop where
  mem : p.mem.length = 1024 * p.bitmap.length
  small : 1028 * p.bitmap.length < 2 ^ 32
  next : p.next < p.bitmap.length
  at_ : ∀ c ∈ live, 16 ≤ c.ptr ∧ c.ptr % 32 = 16 ∧ c.size < 2 ^ 32 ∧
    (c.ptr - 16) / 32 + c.blocks ≤ 32 * p.bitmap.length
  guarded : ∀ c ∈ live, Guarded p.mem c
  bits : ∀ k, bit p.bitmap k = true ↔
    ∃ c ∈ live, (c.ptr - 16) / 32 ≤ k ∧ k < (c.ptr - 16) / 32 + c.blocks
  apart : live.Pairwise (fun c d => (c.ptr - 16) / 32 + c.blocks ≤ (d.ptr - 16) / 32 ∨
    (d.ptr - 16) / 32 + d.blocks ≤ (c.ptr - 16) / 32)
  free : p.free = clear p.bitmap
  sum : p.free + total Chunk.blocks live = 32 * p.bitmap.length

/-! ### Allocation -/

theorem allocBlocks_spec {e : Env} (hrej : e.Rejects) {p : Pool} {live : List Chunk}
    (h : Inv p live) {s : Nat} (hs : s < 2 ^ 32) :
    (¬ e.Defined ∧ allocBlocks e (allocSize s) p = none) ∨
    (∃ b, allocBlocks e (allocSize s) p = some (none, { p with next := b }) ∧
      b < p.bitmap.length) ∨
    (∃ b bm k, allocBlocks e (allocSize s) p = some (some (32 * k),
        { p with next := b, bitmap := bm, free := p.free - (s + 20 + 31) / 32 }) ∧
      b < p.bitmap.length ∧ bm.length = p.bitmap.length ∧ (s + 20 + 31) / 32 ≤ p.free ∧
      k + (s + 20 + 31) / 32 ≤ 32 * p.bitmap.length ∧
      (∀ j, k ≤ j → j < k + (s + 20 + 31) / 32 → bit p.bitmap j = false) ∧
      (∀ j, bit bm j = if k ≤ j ∧ j < k + (s + 20 + 31) / 32 then true else bit p.bitmap j)) := by
  unfold allocBlocks
  simp only [blocks_eq hs]
  by_cases hfree : (s + 20 + 31) / 32 > p.free
  · right; left
    rw [if_pos hfree]
    exact ⟨p.next, rfl, h.next⟩
  · rw [if_neg hfree]
    obtain ⟨b, e1, e2⟩ := findBestIndex_spec h.free (by omega) h.next
    simp only [e1]
    have hlen := h.small
    rcases findRun_spec hrej (nr := (s + 20 + 31) / 32) (bm := p.bitmap) (i := b) (last := 0)
      (fuel := 32 * p.bitmap.length + 1) (by omega) (by omega) (by omega) (Or.inl rfl) (by omega)
      with ⟨hd, hf⟩ | ⟨r, hf, hr⟩
    · left
      simp only [hf]
      exact ⟨hd, trivial⟩
    · right
      cases r with
      | none =>
        left
        simp only [hf]
        exact ⟨b, rfl, e2⟩
      | some r =>
        right
        obtain ⟨i, idx, bm⟩ := r
        obtain ⟨r1, r2, r3, r4, r5⟩ := hr
        simp only [hf]
        refine ⟨b, bm, 32 * i + idx, ?_, e2, r4, by omega, r2, r3, r5⟩
        rw [Nat.mod_eq_of_lt (by omega), show i * 1024 + idx * 32 = 32 * (32 * i + idx) by omega]

/-- One allocation. -/
theorem alloc_spec {e : Env} (hrej : e.Rejects) {p : Pool} {live : List Chunk}
    (h : Inv p live) {s : Nat} (hs : s < 2 ^ 32) :
    (¬ e.Defined ∧ alloc e s p = none) ∨
    (∃ p', alloc e s p = some (none, p') ∧ Inv p' live ∧ p'.mem = p.mem ∧
      p'.bitmap = p.bitmap) ∨
    (∃ p' o, alloc e s p = some (some o, p') ∧ Inv p' (⟨o, s⟩ :: live) ∧
      p'.bitmap.length = p.bitmap.length ∧
      memRead p'.mem o s = some (List.replicate s 0) ∧
      ∀ c ∈ live, memRead p'.mem c.ptr c.size = memRead p.mem c.ptr c.size) := by
  unfold alloc
  rcases allocBlocks_spec hrej h hs with ⟨hd, e1⟩ | ⟨b, e1, hb⟩ |
    ⟨b, bm, k, e1, hb, hl, hfr, hr, hclr, hbit⟩
  · left
    simp only [e1]
    exact ⟨hd, trivial⟩
  · right; left
    simp only [e1]
    exact ⟨_, rfl, ⟨h.mem, h.small, hb, h.at_, h.guarded, h.bits, h.apart, h.free, h.sum⟩, rfl, rfl⟩
  · right; right
    simp only [e1]
    have hmem := h.mem
    have hsz := allocSize_eq hs
    have hpo := postOff_eq (h := 32 * k) (by omega) hs
    have hapart : ∀ c ∈ live, (c.ptr - 16) / 32 + c.blocks ≤ k ∨
        k + (s + 20 + 31) / 32 ≤ (c.ptr - 16) / 32 := by
      intro c hc
      apply Classical.byContradiction
      intro hcon
      have hbl : 0 < c.blocks := by unfold Chunk.blocks; omega
      have := hclr (max k ((c.ptr - 16) / 32)) (by omega) (by omega)
      rw [(h.bits _).2 ⟨c, hc, by omega, by omega⟩] at this
      cases this
    obtain ⟨m1, w1⟩ := memWrite_ok (m := p.mem) (off := 32 * k) (d := le 8 (allocSize s))
      (by simp; omega)
    have l1 := memWrite_length w1
    obtain ⟨m2, w2⟩ := memWrite_ok (m := m1) (off := 32 * k + 8) (d := le 4 preRed)
      (by simp; omega)
    have l2 := memWrite_length w2
    obtain ⟨m3, w3⟩ := memWrite_ok (m := m2) (off := postOff (32 * k) (allocSize s))
      (d := le 4 postRed) (by simp; omega)
    have l3 := memWrite_length w3
    obtain ⟨m4, w4⟩ := memWrite_ok (m := m3) (off := 32 * k + 16) (d := List.replicate s 0)
      (by simp; omega)
    have l4 := memWrite_length w4
    simp only [w1, w2, w3, w4]
    have keep : ∀ o len, o + len ≤ 32 * k ∨ 32 * (k + (s + 20 + 31) / 32) ≤ o →
        memRead m4 o len = memRead p.mem o len := by
      intro o len ho
      rw [read_write_ne w4 (by simp; omega), read_write_ne w3 (by simp; omega),
        read_write_ne w2 (by simp; omega), read_write_ne w1 (by simp; omega)]
    refine ⟨_, _, rfl, ?_, hl, ?_, ?_⟩
    · refine ⟨by simp only; omega, by simp only [hl]; exact h.small, by simp only [hl]; exact hb,
        ?_, ?_, ?_, ?_, ?_, ?_⟩
      · intro c hc
        simp only [hl]
        rcases List.mem_cons.1 hc with rfl | hc
        · exact ⟨by simp, by simp only; omega, hs, by simp only [Chunk.blocks]; omega⟩
        · exact h.at_ c hc
      · intro c hc
        simp only
        rcases List.mem_cons.1 hc with rfl | hc
        · refine ⟨?_, ?_, ?_⟩
          · simp only [Nat.add_sub_cancel]
            rw [read_write_ne w4 (by simp), read_write_ne w3 (by simp; omega),
              read_write_ne w2 (by simp)]
            exact read_write_same w1
          · simp only [show 32 * k + 16 - 8 = 32 * k + 8 by omega]
            rw [read_write_ne w4 (by simp), read_write_ne w3 (by simp; omega)]
            exact read_write_same w2
          · simp only [Nat.add_sub_cancel]
            rw [read_write_ne w4 (by simp; omega)]
            exact read_write_same w3
        · obtain ⟨a1, a2, a3, a4⟩ := h.at_ c hc
          obtain ⟨g1, g2, g3⟩ := h.guarded c hc
          have hz := allocSize_eq a3
          have hp := postOff_eq (h := c.ptr - 16) (by omega) a3
          have hap := hapart c hc
          unfold Chunk.blocks at hap
          refine ⟨?_, ?_, ?_⟩
          · rw [keep _ _ (by omega)]; exact g1
          · rw [keep _ _ (by omega)]; exact g2
          · rw [keep _ _ (by omega)]; exact g3
      · intro j
        simp only
        rw [hbit j]
        simp only [List.mem_cons, exists_eq_or_imp]
        rw [← h.bits j]
        simp only [Nat.add_sub_cancel, Chunk.blocks]
        rw [show 32 * k / 32 = k by omega]
        by_cases hj : k ≤ j ∧ j < k + (s + 20 + 31) / 32
        · simp [hj]
        · rw [if_neg hj]
          simp [hj]
      · refine List.pairwise_cons.2 ⟨fun c hc => ?_, h.apart⟩
        have := hapart c hc
        simp only [Nat.add_sub_cancel, Chunk.blocks] at this ⊢
        omega
      · simp only
        have := clear_set hl hr hclr hbit
        have := h.free
        omega
      · have hsum := h.sum
        simp only [hl]
        simp only [total, List.map_cons, List.sum_cons] at hsum ⊢
        simp only [Chunk.blocks] at hsum ⊢
        omega
    · have := read_write_same w4
      rwa [List.length_replicate] at this
    · intro c hc
      obtain ⟨a1, a2, a3, a4⟩ := h.at_ c hc
      have hap := hapart c hc
      unfold Chunk.blocks at hap
      simp only
      exact keep _ _ (by omega)

/-! ### Freeing -/

theorem readLe_of {m : List Byte} {o n v : Nat} (h : memRead m o n = some (le n v))
    (hv : v < 256 ^ n) : readLe m o n = some v := by
  simp [readLe, h, fromLe_le, Nat.mod_eq_of_lt hv]

theorem free_spec (e : Env) {p : Pool} {live : List Chunk} (h : Inv p live) {c : Chunk}
    (hc : c ∈ live) :
    ∃ p', free e c.ptr p = some p' ∧ Inv p' (live.erase c) ∧ p'.mem = p.mem ∧
      p'.bitmap.length = p.bitmap.length := by
  obtain ⟨a1, a2, a3, a4⟩ := h.at_ c hc
  obtain ⟨g1, g2, g3⟩ := h.guarded c hc
  have hsm := h.small
  have hz := allocSize_eq a3
  have hbl : sizeToBlocks (allocSize c.size) = c.blocks := blocks_eq a3
  have hpos : 0 < c.blocks := by unfold Chunk.blocks; omega
  have hidx : 32 * ((c.ptr - 16) / 1024) + (c.ptr - 16) % 1024 / 32 = (c.ptr - 16) / 32 := by omega
  obtain ⟨bm, e1, e2, e3⟩ := clearBlocks_spec e (i := (c.ptr - 16) / 1024)
    (idx := (c.ptr - 16) % 1024 / 32) (nr := c.blocks) (bm := p.bitmap) (by omega) (by omega)
    (by omega) (by
      rw [hidx]
      intro k k1 k2
      exact (h.bits k).2 ⟨c, hc, k1, k2⟩)
  rw [hidx] at e3
  have hr1 : readLe p.mem (c.ptr - 16) 8 = some (allocSize c.size) := readLe_of g1 (by omega)
  have hr2 : readLe p.mem (c.ptr - 16 + 8) 4 = some preRed := by
    rw [show c.ptr - 16 + 8 = c.ptr - 8 by omega]
    exact readLe_of g2 (by decide)
  have hr3 : readLe p.mem (postOff (c.ptr - 16) (allocSize c.size)) 4 = some postRed :=
    readLe_of g3 (by decide)
  have hnd : live.Nodup := by
    refine h.apart.imp_of_mem ?_
    intro a b ha hb hab he
    subst he
    have : 0 < a.blocks := by unfold Chunk.blocks; omega
    omega
  have hmem : ∀ d, d ∈ live.erase c ↔ d ≠ c ∧ d ∈ live := fun d => hnd.mem_erase_iff
  have hapart : ∀ d ∈ live, d ≠ c → (d.ptr - 16) / 32 + d.blocks ≤ (c.ptr - 16) / 32 ∨
      (c.ptr - 16) / 32 + c.blocks ≤ (d.ptr - 16) / 32 := by
    intro d hd hne
    obtain ⟨A, B, hAB⟩ := List.append_of_mem hc
    have hap := h.apart
    rw [hAB, List.pairwise_append, List.pairwise_cons] at hap
    rw [hAB] at hd
    rcases List.mem_append.1 hd with hd | hd
    · exact hap.2.2 d hd c (by simp)
    · rcases List.mem_cons.1 hd with hd | hd
      · exact absurd hd hne
      · exact (hap.2.1.1 d hd).symm
  refine ⟨{ p with bitmap := bm, next := if (c.ptr - 16) / 1024 < p.next then (c.ptr - 16) / 1024
                                         else p.next, free := p.free + c.blocks }, ?_, ?_, rfl, e2⟩
  · unfold free
    rw [if_neg (by omega)]
    simp only
    rw [if_neg (by omega)]
    simp only [hr1, hr2, hr3, hbl, e1, ne_eq, not_true_eq_false, if_false]
  · refine ⟨by simp only [e2]; exact h.mem, by simp only [e2]; exact hsm, ?_, ?_, ?_, ?_, ?_, ?_, ?_⟩
    · simp only [e2]
      have := h.next
      split <;> omega
    · intro d hd
      simp only [e2]
      exact h.at_ d ((hmem d).1 hd).2
    · intro d hd
      exact h.guarded d ((hmem d).1 hd).2
    · intro k
      simp only
      rw [e3 k]
      by_cases hk : (c.ptr - 16) / 32 ≤ k ∧ k < (c.ptr - 16) / 32 + c.blocks
      · rw [if_pos hk]
        simp only [Bool.false_eq_true, false_iff]
        rintro ⟨d, hd, k1, k2⟩
        obtain ⟨hne, hd⟩ := (hmem d).1 hd
        have := hapart d hd hne
        omega
      · rw [if_neg hk, h.bits k]
        constructor
        · rintro ⟨d, hd, k1, k2⟩
          refine ⟨d, (hmem d).2 ⟨fun he => hk (he ▸ ⟨k1, k2⟩), hd⟩, k1, k2⟩
        · rintro ⟨d, hd, k1, k2⟩
          exact ⟨d, ((hmem d).1 hd).2, k1, k2⟩
    · exact h.apart.sublist List.erase_sublist
    · simp only
      have := clear_clear (a := (c.ptr - 16) / 32) (n := c.blocks) e2 (by omega)
        (fun k k1 k2 => (h.bits k).2 ⟨c, hc, k1, k2⟩) e3
      have := h.free
      omega
    · have hsum := h.sum
      simp only [e2]
      have hp := (List.perm_cons_erase hc).map Chunk.blocks
      have := hp.sum_nat
      simp only [total, List.map_cons, List.sum_cons] at this hsum ⊢
      omega

/-! ### Use of the memory by its owner -/

theorem write_spec {p : Pool} {live : List Chunk} (h : Inv p live) {c : Chunk} (hc : c ∈ live)
    {off : Nat} {d : List Byte} (hd : off + d.length ≤ c.size) :
    ∃ m, memWrite p.mem (c.ptr + off) d = some m ∧ Inv { p with mem := m } live ∧
      ∀ c' ∈ live, c' ≠ c → memRead m c'.ptr c'.size = memRead p.mem c'.ptr c'.size := by
  obtain ⟨a1, a2, a3, a4⟩ := h.at_ c hc
  have hm := h.mem
  have hz := allocSize_eq a3
  have hp := postOff_eq (h := c.ptr - 16) (by omega) a3
  unfold Chunk.blocks at a4
  obtain ⟨m, e1⟩ := memWrite_ok (m := p.mem) (off := c.ptr + off) (d := d) (by omega)
  have hl := memWrite_length e1
  have hapart : ∀ x ∈ live, x ≠ c → (x.ptr - 16) / 32 + x.blocks ≤ (c.ptr - 16) / 32 ∨
      (c.ptr - 16) / 32 + c.blocks ≤ (x.ptr - 16) / 32 := by
    intro x hx hne
    obtain ⟨A, B, hAB⟩ := List.append_of_mem hc
    have hap := h.apart
    rw [hAB, List.pairwise_append, List.pairwise_cons] at hap
    rw [hAB] at hx
    rcases List.mem_append.1 hx with hx | hx
    · exact hap.2.2 x hx c (by simp)
    · rcases List.mem_cons.1 hx with hx | hx
      · exact absurd hx hne
      · exact (hap.2.1.1 x hx).symm
  refine ⟨m, e1, ⟨by simp only [hl]; exact hm, h.small, h.next, h.at_, ?_, h.bits, h.apart, h.free,
    h.sum⟩, ?_⟩
  · intro x hx
    obtain ⟨g1, g2, g3⟩ := h.guarded x hx
    obtain ⟨b1, b2, b3, b4⟩ := h.at_ x hx
    have hzx := allocSize_eq b3
    have hpx := postOff_eq (h := x.ptr - 16) (by omega) b3
    by_cases hxc : x = c
    · subst hxc
      refine ⟨?_, ?_, ?_⟩
      · simp only; rw [read_write_ne e1 (by omega)]; exact g1
      · simp only; rw [read_write_ne e1 (by omega)]; exact g2
      · simp only; rw [read_write_ne e1 (by omega)]; exact g3
    · have hap := hapart x hx hxc
      unfold Chunk.blocks at hap
      refine ⟨?_, ?_, ?_⟩
      · simp only; rw [read_write_ne e1 (by omega)]; exact g1
      · simp only; rw [read_write_ne e1 (by omega)]; exact g2
      · simp only; rw [read_write_ne e1 (by omega)]; exact g3
  · intro x hx hxc
    obtain ⟨b1, b2, b3, b4⟩ := h.at_ x hx
    have hap := hapart x hx hxc
    unfold Chunk.blocks at hap
    exact read_write_ne e1 (by omega)

/-! ### C16 and C17 -/

/-- What the users of the pool do: ask for memory, give back the `i`-th live allocation, write
inside the `i`-th live allocation.  Giving back or writing something else is not done. -/
inductive Act
  | alloc (size : Nat)
  | free (i : Nat)
  | write (i off : Nat) (d : List Byte)

/-- One action of a user; sizes above 32 bits are refused (smalloc.c:522-523). -/
def act (e : Env) (a : Act) (s : Pool × List Chunk) : Option (Pool × List Chunk) :=
  match a with
  | .alloc size =>
    if size < 2 ^ 32 then
      match alloc e size s.1 with
      | none => none
      | some (none, p) => some (p, s.2)
      | some (some o, p) => some (p, ⟨o, size⟩ :: s.2)
    else some s
  | .free i =>
    match s.2[i]? with
    | none => some s
    | some c => (free e c.ptr s.1).map (fun p => (p, s.2.erase c))
  | .write i off d =>
    match s.2[i]? with
    | none => some s
    | some c =>
      if off + d.length ≤ c.size then
        (memWrite s.1.mem (c.ptr + off) d).map (fun m => ({ s.1 with mem := m }, s.2))
      else some s

/-- A sequence of actions. -/
def run (e : Env) : List Act → Pool × List Chunk → Option (Pool × List Chunk)
  | [], s => some s
  | a :: as, s => (act e a s).bind (run e as)

theorem act_inv {e : Env} (hrej : e.Rejects) (a : Act) {s : Pool × List Chunk} (h : Inv s.1 s.2) :
    (¬ e.Defined ∧ act e a s = none) ∨
    ∃ s', act e a s = some s' ∧ Inv s'.1 s'.2 ∧ s'.1.bitmap.length = s.1.bitmap.length := by
  cases a with
  | alloc size =>
    unfold act
    by_cases hs : size < 2 ^ 32
    · simp only [hs, if_true]
      rcases alloc_spec hrej h hs with ⟨hd, e1⟩ | ⟨p', e1, h1, _, h2⟩ | ⟨p', o, e1, h1, h2, _⟩
      · left
        simp only [e1]
        exact ⟨hd, trivial⟩
      · right
        simp only [e1]
        exact ⟨_, rfl, h1, by simp only [h2]⟩
      · right
        simp only [e1]
        exact ⟨_, rfl, h1, h2⟩
    · right
      simp only [hs, if_false]
      exact ⟨s, rfl, h, rfl⟩
  | free i =>
    right
    cases hc : s.2[i]? with
    | none => exact ⟨s, by simp only [act, hc], h, rfl⟩
    | some c =>
      obtain ⟨p', e1, h1, _, h2⟩ := free_spec e h (List.mem_of_getElem? hc)
      exact ⟨(p', s.2.erase c), by simp only [act, hc, e1, Option.map_some], h1, h2⟩
  | write i off d =>
    right
    cases hc : s.2[i]? with
    | none => exact ⟨s, by simp only [act, hc], h, rfl⟩
    | some c =>
      by_cases hd : off + d.length ≤ c.size
      · obtain ⟨m, e1, h1, _⟩ := write_spec h (List.mem_of_getElem? hc) hd
        exact ⟨({ s.1 with mem := m }, s.2), by simp only [act, hc, hd, if_true, e1,
          Option.map_some], h1, rfl⟩
      · exact ⟨s, by simp only [act, hc, hd, if_false], h, rfl⟩

theorem run_inv {e : Env} (hrej : e.Rejects) (as : List Act) {s : Pool × List Chunk}
    (h : Inv s.1 s.2) :
    (¬ e.Defined ∧ run e as s = none) ∨
    ∃ s', run e as s = some s' ∧ Inv s'.1 s'.2 ∧ s'.1.bitmap.length = s.1.bitmap.length := by
  induction as generalizing s with
  | nil => exact Or.inr ⟨s, rfl, h, rfl⟩
  | cons a as ih =>
    unfold run
    rcases act_inv hrej a h with ⟨hd, e1⟩ | ⟨s', e1, h1, h2⟩
    · left
      simp only [e1, Option.bind_none]
      exact ⟨hd, trivial⟩
    · rw [e1, Option.bind_some]
      rcases ih h1 with hc | ⟨s2, e2, h3, h4⟩
      · exact Or.inl hc
      · exact Or.inr ⟨s2, e2, h3, h4.trans h2⟩

theorem bit_zero (n k : Nat) : bit (List.replicate n 0#32) k = false := by
  unfold bit
  rw [List.getElem?_replicate]
  split <;> simp

theorem fresh_inv {n : Nat} {mem : List Byte} (h0 : 0 < n) (hn : 1028 * n < 2 ^ 32)
    (hm : mem.length = 1024 * n) : Inv (fresh n mem) [] := by
  have hc : clear (List.replicate n 0#32) = 32 * n := by
    unfold clear
    rw [List.filter_eq_self.2 (fun k _ => by simp [bit_zero])]
    simp
  refine ⟨by simpa [fresh] using hm, by simpa [fresh] using hn, by simpa [fresh] using h0, by simp,
    by simp, ?_, List.Pairwise.nil, ?_, ?_⟩
  · intro k
    simp [fresh, bit_zero]
  · simp [fresh, hc]
  · simp [fresh, total]

/-- C16: whatever the users of a pool do, every live allocation lies inside the pool with room for
its header before it and its guard word behind it, no two live allocations (with header and guard
word) share a byte, and header and guard words are intact.  An execution without a result is one
that C leaves undefined, and it exists only where the result of `ffz(-1)` and of a shift by 32 or
more does not lead to a refusal. -/
theorem C16 {e : Env} (hrej : e.Rejects) (n : Nat) (mem : List Byte) (h0 : 0 < n)
    (hn : 1028 * n < 2 ^ 32) (hm : mem.length = 1024 * n) (as : List Act) :
    (¬ e.Defined ∧ run e as (fresh n mem, []) = none) ∨
    ∃ p live, run e as (fresh n mem, []) = some (p, live) ∧
      (∀ c ∈ live, 16 ≤ c.ptr ∧ c.ptr + c.size + 4 ≤ 1024 * n) ∧
      live.Pairwise Apart ∧
      (∀ c ∈ live, Guarded p.mem c) := by
  rcases run_inv hrej as (s := (fresh n mem, [])) (fresh_inv h0 hn hm) with hu | ⟨s', e1, h1, h2⟩
  · exact Or.inl hu
  · right
    have hlen : s'.1.bitmap.length = n := by rw [h2]; simp [fresh]
    refine ⟨s'.1, s'.2, e1, fun c hc => ?_, ?_, h1.guarded⟩
    · obtain ⟨a1, a2, a3, a4⟩ := h1.at_ c hc
      unfold Chunk.blocks at a4
      exact ⟨a1, by omega⟩
    · refine h1.apart.imp_of_mem (fun {a b} ha hb hab => ?_)
      have := h1.at_ a ha
      have := h1.at_ b hb
      unfold Apart
      unfold Chunk.blocks at hab
      omega

/-- C16, where shift counts are taken modulo 32 and where `ffz(-1)` is 0: there is always a
result. -/
theorem C16_defined {e : Env} (he : e = wrapping ∨ e = bsfSame) (n : Nat) (mem : List Byte)
    (h0 : 0 < n) (hn : 1028 * n < 2 ^ 32) (hm : mem.length = 1024 * n) (as : List Act) :
    e.Rejects ∧ run e as (fresh n mem, []) ≠ none := by
  rcases he with rfl | rfl
  · refine ⟨wrapping_rejects, ?_⟩
    rcases run_inv wrapping_rejects as (s := (fresh n mem, [])) (fresh_inv h0 hn hm) with
      ⟨hd, _⟩ | ⟨s', e1, _⟩
    · exact absurd wrapping_defined hd
    · rw [e1]; simp
  · refine ⟨bsfSame_rejects, ?_⟩
    rcases run_inv bsfSame_rejects as (s := (fresh n mem, [])) (fresh_inv h0 hn hm) with
      ⟨hd, _⟩ | ⟨s', e1, _⟩
    · exact absurd bsfSame_defined hd
    · rw [e1]; simp

/-- C16, contents: from any state the pool can be in, the bytes handed out are zero and those of the
other live allocations are left alone. -/
theorem C16_zero {e : Env} (hrej : e.Rejects) (n : Nat) (mem : List Byte) (h0 : 0 < n)
    (hn : 1028 * n < 2 ^ 32) (hm : mem.length = 1024 * n) (as : List Act) {p p' : Pool}
    {live : List Chunk} (hr : run e as (fresh n mem, []) = some (p, live)) {size o : Nat}
    (hs : size < 2 ^ 32) (ha : alloc e size p = some (some o, p')) :
    memRead p'.mem o size = some (List.replicate size 0) ∧
      ∀ c ∈ live, memRead p'.mem c.ptr c.size = memRead p.mem c.ptr c.size := by
  rcases run_inv hrej as (s := (fresh n mem, [])) (fresh_inv h0 hn hm) with
    ⟨_, e1⟩ | ⟨s', e1, h1, h2⟩
  · rw [hr] at e1; cases e1
  · rw [hr] at e1
    cases e1
    rcases alloc_spec hrej h1 hs with ⟨hd, e1⟩ | ⟨p', e1, _⟩ | ⟨p', o, e1, _, _, h3, h4⟩
    · rw [ha] at e1; cases e1
    · rw [ha] at e1; cases e1
    · rw [ha] at e1
      cases e1
      exact ⟨h3, h4⟩

/-- C16, contents: giving back an allocation leaves all bytes alone; writing inside one leaves the
bytes of the others alone. -/
theorem C16_others {e : Env} (hrej : e.Rejects) (n : Nat) (mem : List Byte) (h0 : 0 < n)
    (hn : 1028 * n < 2 ^ 32) (hm : mem.length = 1024 * n) (as : List Act) {p : Pool}
    {live : List Chunk} (hr : run e as (fresh n mem, []) = some (p, live)) {c : Chunk}
    (hc : c ∈ live) :
    (∃ p', free e c.ptr p = some p' ∧ p'.mem = p.mem) ∧
    ∀ off d, off + d.length ≤ c.size → ∃ m, memWrite p.mem (c.ptr + off) d = some m ∧
      ∀ c' ∈ live, c' ≠ c → memRead m c'.ptr c'.size = memRead p.mem c'.ptr c'.size := by
  rcases run_inv hrej as (s := (fresh n mem, [])) (fresh_inv h0 hn hm) with
    ⟨_, e1⟩ | ⟨s', e1, h1, h2⟩
  · rw [hr] at e1; cases e1
  · rw [hr] at e1
    cases e1
    obtain ⟨p', f1, _, f2, _⟩ := free_spec e h1 hc
    refine ⟨⟨p', f1, f2⟩, fun off d hd => ?_⟩
    obtain ⟨m, w1, _, w2⟩ := write_spec h1 hc hd
    exact ⟨m, w1, w2⟩

/-- C17: the count of free blocks is the number of clear bits, and the blocks of the live
allocations are exactly the rest of the pool. -/
theorem C17 {e : Env} (hrej : e.Rejects) (n : Nat) (mem : List Byte) (h0 : 0 < n)
    (hn : 1028 * n < 2 ^ 32) (hm : mem.length = 1024 * n) (as : List Act) {p : Pool}
    {live : List Chunk} (hr : run e as (fresh n mem, []) = some (p, live)) :
    p.free = ((List.range (32 * n)).filter (fun k => !bit p.bitmap k)).length ∧
    p.free + (live.map (fun c => (c.size + 20 + 31) / 32)).sum = 32 * n ∧
    ∀ k, bit p.bitmap k = true ↔
      ∃ c ∈ live, (c.ptr - 16) / 32 ≤ k ∧ k < (c.ptr - 16) / 32 + (c.size + 20 + 31) / 32 := by
  rcases run_inv hrej as (s := (fresh n mem, [])) (fresh_inv h0 hn hm) with
    ⟨_, e1⟩ | ⟨s', e1, h1, h2⟩
  · rw [hr] at e1; cases e1
  · rw [hr] at e1
    cases e1
    have hlen : p.bitmap.length = n := by rw [h2]; simp [fresh]
    refine ⟨?_, ?_, h1.bits⟩
    · have := h1.free
      unfold clear at this
      rwa [hlen] at this
    · have := h1.sum
      rwa [hlen] at this

/-- C17: when everything was given back the block map is as it was at the start. -/
theorem C17_restored {e : Env} (hrej : e.Rejects) (n : Nat) (mem : List Byte) (h0 : 0 < n)
    (hn : 1028 * n < 2 ^ 32) (hm : mem.length = 1024 * n) (as : List Act) {p : Pool}
    (hr : run e as (fresh n mem, []) = some (p, [])) :
    p.bitmap = (fresh n mem).bitmap ∧ p.free = 32 * n := by
  rcases run_inv hrej as (s := (fresh n mem, [])) (fresh_inv h0 hn hm) with
    ⟨_, e1⟩ | ⟨s', e1, h1, h2⟩
  · rw [hr] at e1; cases e1
  · rw [hr] at e1
    cases e1
    have hlen : p.bitmap.length = n := by rw [h2]; simp [fresh]
    refine ⟨?_, by have := h1.sum; rw [hlen] at this; simpa [total] using this⟩
    apply List.ext_getElem?
    intro i
    simp only [fresh]
    rw [List.getElem?_replicate]
    by_cases hi : i < n
    · rw [if_pos hi]
      have hw : p.bitmap[i]? = some (p.bitmap[i]'(by omega)) := List.getElem?_eq_getElem (by omega)
      rw [hw]
      congr 1
      apply BitVec.eq_of_getLsbD_eq
      intro j hj
      rw [← bit_of hw hj]
      have := h1.bits (32 * i + j)
      simp only [List.not_mem_nil, false_and, exists_false, iff_false, Bool.not_eq_true] at this
      rw [this]
      simp
    · rw [if_neg hi, List.getElem?_eq_none (by omega)]

/-- The hypotheses of the theorems above are met: a pool of two words, three allocations, the first
one given back and its space used again. -/
example : strict.Rejects ∧ wrapping.Rejects ∧ bsfSame.Rejects ∧
    ((run strict [.alloc 8, .alloc 100, .free 1, .alloc 12] (fresh 2 (List.replicate 2048 0xff), [])).map
      (fun s => (s.1.bitmap, s.1.free, s.2))) =
      some ([0x1f#32, 0#32], 59, [⟨16, 12⟩, ⟨48, 100⟩]) :=
  ⟨strict_rejects, wrapping_rejects, bsfSame_rejects, by decide +kernel⟩

/-- C16, undefined behaviour: in any pool whose first word has only its first block free, asking
for two blocks makes `find_next_zero` shift a negative `int` to -1, and `blocks_iter` shifts by
more than 31 (smalloc.c:144-149 and 92-95). -/
theorem C16_undefined (p : Pool) (hw : p.bitmap[0]? = some 0xfffffffe#32) (hnext : p.next = 0)
    (hfree : 2 ≤ p.free) (size : Nat) (h1 : 12 < size) (h2 : size ≤ 44) :
    alloc strict size p = none := by
  have hnr : sizeToBlocks (allocSize size) = 2 := by
    rw [blocks_eq (by omega)]
    omega
  have hlen : 0 < p.bitmap.length := by
    rcases Nat.eq_zero_or_pos p.bitmap.length with h | h
    · rw [List.getElem?_eq_none (by omega)] at hw
      cases hw
    · exact h
  have hcons : ∃ bs, p.bitmap = 0xfffffffe#32 :: bs := by
    cases hb : p.bitmap with
    | nil => rw [hb] at hlen; simp at hlen
    | cons w bs =>
      rw [hb] at hw
      simp only [List.getElem?_cons_zero, Option.some.injEq] at hw
      exact ⟨bs, by rw [hw]⟩
  obtain ⟨bs, hbs⟩ := hcons
  have hbest : findBestIndex p = some 0 := by
    unfold findBestIndex
    rw [if_neg (by omega), if_pos (by omega), hnext]
    have : firstNonFull p.bitmap 0 = some 0 := by
      rw [hbs]
      simp [firstNonFull, List.findIdx?_cons]
    simp only [this]
  have hz0 : findNextZero strict 0xfffffffe#32 0 = some 0 := by decide +kernel
  have hz2 : findNextZero strict 0xfffffffe#32 2 = some (63 + 2) := by decide +kernel
  have hf0 : blocksFree strict 0 0 2 p.bitmap = some false := by
    obtain ⟨b, e1, e2⟩ := blocksFree_spec strict (i := 0) (idx := 0) (nr := 2) (bm := p.bitmap)
      (by omega) (by omega)
    cases b with
    | false => exact e1
    | true =>
      have := (e2.1 rfl).2 1 (by omega) (by omega)
      rw [show (1 : Nat) = 32 * 0 + 1 by omega, bit_of hw (by omega)] at this
      have hb : (0xfffffffe#32).getLsbD 1 = true := by decide
      rw [hb] at this
      cases this
  have hf2 : blocksFree strict 0 (63 + 2) 2 p.bitmap = none :=
    strict_undefined hw (by omega) (by omega)
  have hnf : ¬ (0xfffffffe#32 = BitVec.allOnes 32) := by decide
  obtain ⟨fuel, hfu⟩ : ∃ fuel, 32 * p.bitmap.length + 1 = fuel + 2 := ⟨32 * p.bitmap.length - 1,
    by omega⟩
  have hrun : findRun strict 2 p.bitmap (32 * p.bitmap.length + 1) 0 0 = none := by
    rw [hfu]
    unfold findRun
    simp only [hw, hnf, if_false, hz0, hf0]
    rw [if_pos (by omega)]
    unfold findRun
    simp only [hw, hnf, if_false, Nat.zero_add, hz2, hf2]
  unfold alloc allocBlocks
  simp only [hnr, hbest, hrun]
  rw [if_neg (by omega)]

/-- Such a pool is reached: one block, the other 31 blocks of the word, and the first given back.
There the next allocation of two blocks is undefined. -/
theorem C16_undefined_reached :
    ∃ p live, run strict [.alloc 8, .alloc 972, .free 1] (fresh 2 (List.replicate 2048 0), []) =
        some (p, live) ∧
      p.bitmap[0]? = some 0xfffffffe#32 ∧ p.next = 0 ∧ 2 ≤ p.free ∧
      alloc strict 40 p = none := by
  have h : ((run strict [.alloc 8, .alloc 972, .free 1] (fresh 2 (List.replicate 2048 0), [])).any
      fun s => decide (s.1.bitmap[0]? = some 0xfffffffe#32) && decide (s.1.next = 0) &&
        decide (2 ≤ s.1.free)) = true := by
    decide +kernel
  rw [Option.any_eq_true] at h
  obtain ⟨⟨p, live⟩, e1, h⟩ := h
  simp only [Bool.and_eq_true, decide_eq_true_eq] at h
  exact ⟨p, live, e1, h.1.1, h.1.2, h.2, C16_undefined p h.1.1 h.1.2 h.2 40 (by omega) (by omega)⟩

end Fio.Smalloc
