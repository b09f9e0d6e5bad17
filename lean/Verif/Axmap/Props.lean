import Verif.Axmap.Lemmas2
import Verif.Axmap.RandMap
/-
C01-C04: the random map is a set, and a pass with it covers every block once.
-/
namespace Fio.Axmap

/-- One operation of the interface on the modelled axmap, and the number it returns. -/
def stepOp (a : Axmap) : Spec.Op → Option (Axmap × Nat)
  | .set b => (axmapSet a b).map (·, 0)
  | .setNr b k => axmapSetNr a b k
  | .reset => some (axmapReset a, 0)

/-- A sequence of operations; `none` as soon as one fails. -/
def runOps (a : Axmap) : List Spec.Op → Option (Axmap × List Nat)
  | [] => some (a, [])
  | o :: os => do
    let (a', r) ← stepOp a o
    let (a'', rs) ← runOps a' os
    return (a'', r :: rs)

theorem runOps_rep {n : Nat} : ∀ (ops : List Spec.Op) (a : Axmap) (P : Spec.Marks),
    Rep n a P → (∀ o ∈ ops, o.Valid n) →
    ∃ a', runOps a ops = some (a', (Spec.run P ops).2) ∧ Rep n a' (Spec.run P ops).1 := by
  intro ops
  induction ops with
  | nil => intro a P h _; exact ⟨a, rfl, h⟩
  | cons o os ih =>
    intro a P h hv
    have hstep : ∃ a', stepOp a o = some (a', (Spec.step P o).2) ∧ Rep n a' (Spec.step P o).1 := by
      have ho := hv o (by simp)
      cases o with
      | set b =>
        obtain ⟨a', h1, h2⟩ := rep_set h ho
        exact ⟨a', by simp [stepOp, h1, Spec.step], h2⟩
      | setNr b k => exact rep_setNr h ho.1 ho.2
      | reset => exact ⟨_, rfl, rep_reset h⟩
    obtain ⟨a', h1, h2⟩ := hstep
    obtain ⟨a'', h3, h4⟩ := ih a' _ h2 (fun o ho => hv o (by simp [ho]))
    exact ⟨a'', by simp [runOps, h1, h3, Spec.run], h4⟩

/-- **C01.** After any valid operations on a map of `n` blocks, no access was out of bounds, no
assertion failed, and `axmap_isset` answers exactly the set kept by the specification; blocks
past the end are reported unmarked. -/
theorem C01_isset (n : Nat) (ops : List Spec.Op) (hv : ∀ o ∈ ops, o.Valid n) :
    ∃ a rs, runOps (axmapNew n) ops = some (a, rs) ∧
      (∀ b, b < n → axmapIsset a b = some ((Spec.run Spec.empty ops).1 b)) ∧
      (∀ b, n < b → axmapIsset a b = some false) := by
  obtain ⟨a, h1, h2⟩ := runOps_rep ops _ _ (rep_new n) hv
  exact ⟨a, _, h1, fun b hb => rep_isset h2 hb, fun b hb => rep_isset_ge h2 hb⟩

/-- A concrete non-trivial case: 5000 blocks need three levels. -/
example : (axmapNew 5000).levels.length = 3 ∧
    (∀ o ∈ [Spec.Op.setNr 60 200, .set 4999, .setNr 0 100], o.Valid 5000) := by
  constructor
  · simp only [axmapNew]
    have : countLevels ((5000 + 63) / 64 % 2 ^ 32) 1 = 3 := by
      unfold countLevels; simp; unfold countLevels; simp; unfold countLevels; simp
    rw [this]; simp [mkLevels]
  · intro o ho
    simp only [List.mem_cons, List.not_mem_nil, or_false] at ho
    rcases ho with rfl | rfl | rfl <;> simp [Spec.Op.Valid]

/-- **C02.** In any state reached by valid operations, `axmap_set_nr b k` succeeds, returns the
length `r` of the longest unmarked prefix of the run, marks exactly those `r` blocks and changes
nothing else. -/
theorem C02_set_nr (n : Nat) (ops : List Spec.Op) (hv : ∀ o ∈ ops, o.Valid n)
    (b k : Nat) (hb : b < n) (hk : b + k ≤ n) :
    ∃ a rs a' r, runOps (axmapNew n) ops = some (a, rs) ∧ axmapSetNr a b k = some (a', r) ∧
      r ≤ k ∧
      (∀ j, j < r → axmapIsset a (b + j) = some false) ∧
      (r < k → axmapIsset a (b + r) = some true) ∧
      (∀ i, i < n → axmapIsset a' i =
        if b ≤ i ∧ i < b + r then some true else axmapIsset a i) := by
  obtain ⟨a, h1, h2⟩ := runOps_rep ops _ _ (rep_new n) hv
  obtain ⟨a', h3, h4⟩ := rep_setNr h2 hb hk
  obtain ⟨g1, g2, g3⟩ := freeRun_isRun (Spec.run Spec.empty ops).1 k b
  refine ⟨a, _, a', _, h1, h3, g1, ?_, ?_, ?_⟩
  · intro j hj; rw [rep_isset h2 (by omega), g2 j hj]
  · intro hlt; rw [rep_isset h2 (by omega), g3 hlt]
  · intro i hi
    rw [rep_isset h4 hi, rep_isset h2 hi]
    split
    · rename_i hh; simp [Spec.setRun, hh]
    · rename_i hh
      have : (decide (b ≤ i) && decide (i < b + Spec.freeRun (Spec.run Spec.empty ops).1 b k)) = false := by
        simp; omega
      simp [Spec.setRun, this]

/-- C02 is not vacuous: with block 70 marked, a run of 20 from 60 gets 10 blocks, crossing a word
boundary. -/
example : (runOps (axmapNew 200) [.set 70, .setNr 60 20, .setNr 60 5, .setNr 71 100]).map (·.2) =
    some [0, 10, 0, 100] := by decide +kernel

/-- **C03.** In any state reached by valid operations `axmap_next_free b` is the first unmarked
block in cyclic order after `b`; -1 exactly if the map is full. -/
theorem C03_next_free (n : Nat) (ops : List Spec.Op) (hv : ∀ o ∈ ops, o.Valid n)
    (b : Nat) (hb : b < n) :
    ∃ a rs, runOps (axmapNew n) ops = some (a, rs) ∧
      axmapNextFree a b = Found.ofOption (Spec.nextFree (Spec.run Spec.empty ops).1 n b) ∧
      (axmapNextFree a b = .none ↔ ∀ i, i < n → axmapIsset a i = some true) := by
  obtain ⟨a, h1, h2⟩ := runOps_rep ops _ _ (rep_new n) hv
  have hnf := rep_nextFree h2 hb
  refine ⟨a, _, h1, hnf, ?_⟩
  rw [hnf]
  have hof : ∀ o : Option Nat, Found.ofOption o = .none ↔ o = none := by
    intro o; cases o <;> simp [Found.ofOption]
  rw [hof]
  constructor
  · intro hnone i hi
    rw [rep_isset h2 hi]
    unfold Spec.nextFree at hnone
    rw [List.find?_eq_none] at hnone
    by_cases hib : b < i
    · have := hnone i (by
        simp only [List.mem_map, List.mem_range]
        exact ⟨i - b - 1, by omega, by rw [show b + 1 + (i - b - 1) = i by omega, Nat.mod_eq_of_lt hi]⟩)
      simpa using this
    · have := hnone i (by
        simp only [List.mem_map, List.mem_range]
        refine ⟨n - b - 1 + i, by omega, ?_⟩
        rw [show b + 1 + (n - b - 1 + i) = i + n by omega, Nat.add_mod_right, Nat.mod_eq_of_lt hi])
      simpa using this
  · intro hall
    apply find?_cyclic_none
    intro i hi
    have := hall i hi
    rw [rep_isset h2 hi] at this
    simpa using this

/-- C03 on a concrete map: the search wraps to the start and skips the marked blocks 0..2. -/
example : (runOps (axmapNew 130) [.setNr 100 30, .setNr 0 3]).map (fun x => axmapNextFree x.1 100) =
    some (.some 3) := by decide +kernel

/-! ### What the interface does at its edge

`__axmap_set` and `axmap_isset` test `bit_nr > nr_bits` resp. `bit_nr <= nr_bits`, so they let
`bit_nr == nr_bits` through.  If the number of blocks is a multiple of 64 this accesses one word
past the level-0 array. -/

/-- Setting block `n` itself is an out-of-bounds access whenever 64 divides `n`. -/
theorem C01_off_by_one (n : Nat) (hn : 64 ∣ n) (ops : List Spec.Op) (hv : ∀ o ∈ ops, o.Valid n) :
    ∃ a rs, runOps (axmapNew n) ops = some (a, rs) ∧ axmapSet a n = none := by
  obtain ⟨a, h1, h⟩ := runOps_rep ops _ _ (rep_new n) hv
  refine ⟨a, _, h1, ?_⟩
  obtain ⟨m, rfl⟩ := hn
  have ht := h.tower
  have hb := h.bits
  cases hl : a.levels with
  | nil => exact absurd hl h.ne
  | cons l rest =>
    rw [hl] at ht
    have hm : l[m]? = none := by
      rw [List.getElem?_eq_none]; have := ht.1; omega
    simp [axmapSet, axmapSet0, hb, hl, axmapHandlerSet, axmapSetFn, hm]

example : axmapSet (axmapNew 64) 64 = none ∧ axmapIsset (axmapNew 64) 64 = none := by
  decide +kernel

/-! ### C04 -/

/-- The blocks touched by a list of I/Os, in order, for block size `minBs`. -/
def touched (minBs : Nat) (ios : List Io) : List Nat :=
  ios.flatMap fun io => List.range' io.block ((io.len + minBs - 1) / minBs)

theorem mark_spec {n a P minBs fo b len} (h : Rep n a P) (hbs : 0 < minBs) (hb : b < n)
    (hfree : P b = false) (hlen : 0 < len) (hfit : b * minBs + len ≤ n * minBs) :
    ∃ a' r len', markRandomMap a minBs fo (fo + b * minBs) len = some (a', len') ∧
      0 < r ∧ b + r ≤ n ∧ 0 < len' ∧ len' ≤ len ∧ (len' + minBs - 1) / minBs = r ∧
      (∀ j, j < r → P (b + j) = false) ∧
      Rep n a' (fun i => P i || decide (b ≤ i ∧ i < b + r)) := by
  have hk1 : 0 < (len + minBs - 1) / minBs := Nat.div_pos (by omega) hbs
  have hk2 : b + (len + minBs - 1) / minBs ≤ n := by
    have hdm := Nat.div_mul_le_self (len + minBs - 1) minBs
    generalize (len + minBs - 1) / minBs = k at *
    have h1 : (b + k) * minBs < (n + 1) * minBs := by
      rw [Nat.add_mul, Nat.add_mul]; omega
    have := Nat.lt_of_mul_lt_mul_right h1
    omega
  have hkdm := Nat.div_add_mod (len + minBs - 1) minBs
  have hkml := Nat.mod_lt (len + minBs - 1) hbs
  obtain ⟨a', r, h1, h2, h3⟩ := setNrLoop_spec ((len + minBs - 1) / minBs) b 0 a P h hb hk2
  obtain ⟨r1, r2, r3⟩ := h2
  have hr : 0 < r := by
    apply Nat.pos_of_ne_zero
    rintro rfl
    have := r3 hk1
    simp [hfree] at this
  refine ⟨a', r, if r * minBs < len then r * minBs else len, ?_, hr, by omega, ?_, ?_, ?_, r2, h3⟩
  · rw [Nat.zero_add] at h1
    have hk0 : (len + minBs - 1) / minBs ≠ 0 := by omega
    have hr0 : r ≠ 0 := by omega
    have hblock' : b * minBs / minBs = b := Nat.mul_div_cancel _ hbs
    simp [markRandomMap, hblock', hk0, axmapSetNr, h1, hr0]
  · split
    · exact Nat.mul_pos hr hbs
    · exact hlen
  · split <;> omega
  · generalize (len + minBs - 1) / minBs = k at *
    by_cases hlt : r * minBs < len
    · rw [if_pos hlt]
      rw [show r * minBs + minBs - 1 = (minBs - 1) + minBs * r by rw [Nat.mul_comm]; omega,
        Nat.add_mul_div_left _ _ hbs, Nat.div_eq_of_lt (by omega)]
      omega
    · rw [if_neg hlt]
      have hrk : k ≤ r := by
        have : k * minBs < (r + 1) * minBs := by
          rw [Nat.add_mul, Nat.one_mul, Nat.mul_comm k]; omega
        have := Nat.lt_of_mul_lt_mul_right this
        omega
      have : k = r := by omega
      subst this
      rw [show len + minBs - 1 = minBs * k + (len + minBs - 1) % minBs from hkdm.symm,
        Nat.mul_add_div hbs, Nat.div_eq_of_lt hkml]
      omega

theorem nextRandBlock_spec {n a P raw} (h : Rep n a P) (hraw : raw < n) :
    (∃ b, nextRandBlock a raw = .some b ∧ b < n ∧ P b = false) ∨
    (nextRandBlock a raw = .none ∧ ∀ i, i < n → P i = true) := by
  unfold nextRandBlock
  rw [rep_isset h hraw]
  cases hp : P raw with
  | false => left; exact ⟨raw, by simp, hraw, hp⟩
  | true =>
    simp only [Bool.not_true]
    rw [rep_nextFree h hraw]
    cases hs : Spec.nextFree P n raw with
    | none =>
      right
      refine ⟨by simp [Found.ofOption], ?_⟩
      intro i hi
      unfold Spec.nextFree at hs
      rw [List.find?_eq_none] at hs
      have hmem : i ∈ (List.range n).map fun j => (raw + 1 + j) % n := by
        simp only [List.mem_map, List.mem_range]
        by_cases hib : raw < i
        · exact ⟨i - raw - 1, by omega, by
            rw [show raw + 1 + (i - raw - 1) = i by omega, Nat.mod_eq_of_lt hi]⟩
        · refine ⟨n - raw - 1 + i, by omega, ?_⟩
          rw [show raw + 1 + (n - raw - 1 + i) = i + n by omega, Nat.add_mod_right,
            Nat.mod_eq_of_lt hi]
      simpa using hs i hmem
    | some b =>
      left
      refine ⟨b, by simp [Found.ofOption], ?_, ?_⟩
      · have := List.mem_of_find?_eq_some hs
        simp only [List.mem_map, List.mem_range] at this
        obtain ⟨j, _, rfl⟩ := this
        exact Nat.mod_lt _ (by omega)
      · simpa using List.find?_some hs

/-- Number of blocks below `n` not in `P`. -/
def freeCount (n : Nat) (P : Nat → Bool) : Nat := ((List.range n).filter fun i => !P i).length

theorem freeCount_lt {n : Nat} {P Q : Nat → Bool} {b : Nat} (hb : b < n) (hP : P b = false)
    (hQ : Q b = true) (hsub : ∀ i, P i = true → Q i = true) : freeCount n Q < freeCount n P := by
  unfold freeCount
  have hle : ∀ l : List Nat, (l.filter fun i => !Q i).length ≤ (l.filter fun i => !P i).length := by
    intro l
    induction l with
    | nil => simp
    | cons x xs ih =>
      cases hp : P x with
      | true => simp [hp, hsub x hp, ih]
      | false => cases hq : Q x <;> simp [hp, hq] <;> omega
  have hlt : ∀ l : List Nat, b ∈ l →
      (l.filter fun i => !Q i).length < (l.filter fun i => !P i).length := by
    intro l
    induction l with
    | nil => simp
    | cons x xs ih =>
      intro hmem
      by_cases hx : x = b
      · subst hx
        have := hle xs
        simp [hP, hQ]; omega
      · have hm : b ∈ xs := by
          simp only [List.mem_cons] at hmem
          rcases hmem with h | h
          · exact absurd h.symm hx
          · exact h
        have := ih hm
        cases hp : P x with
        | true => simp [hp, hsub x hp, this]
        | false => cases hq : Q x <;> simp [hp, hq] <;> omega
  exact hlt _ (by simpa using hb)

theorem pass_spec {n minBs fo : Nat} (hbs : 0 < minBs) :
    ∀ (ds : List (Nat × (Nat → Nat))) (a : Axmap) (P : Nat → Bool), Rep n a P →
    (∀ d ∈ ds, d.1 < n ∧ ∀ b, b < n → 0 < d.2 b ∧ b * minBs + d.2 b ≤ n * minBs) →
    ∃ ios ex, pass minBs fo a ds = some (ios, ex) ∧
      (touched minBs ios).Nodup ∧
      (∀ b ∈ touched minBs ios, b < n ∧ P b = false) ∧
      (∀ io ∈ ios, 0 < io.len ∧ io.block * minBs + io.len ≤ n * minBs) ∧
      (ex = true → ∀ b, b < n → P b = true ∨ b ∈ touched minBs ios) ∧
      (ex = false → ios.length = ds.length) ∧
      ios.length ≤ freeCount n P := by
  intro ds
  induction ds with
  | nil => intro a P _ _; exact ⟨[], false, rfl, by simp [touched], by simp [touched], by simp, by simp, by simp, by simp⟩
  | cons d ds ih =>
    intro a P h hd
    obtain ⟨raw, lenOf⟩ := d
    obtain ⟨hraw, hlen⟩ := hd (raw, lenOf) (by simp)
    rcases nextRandBlock_spec h hraw with ⟨b, hb1, hb2, hb3⟩ | ⟨hn1, hn2⟩
    · obtain ⟨a', r, len', m1, m2, m3, m4, m5, m6, m7, m8⟩ :=
        mark_spec (fo := fo) h hbs hb2 hb3 (hlen b hb2).1 (hlen b hb2).2
      obtain ⟨ios, ex, p1, p2, p3, p4, p5, p6, p7⟩ := ih a' _ m8 (fun d hdm => hd d (by simp [hdm]))
      have ht : touched minBs (⟨b, len'⟩ :: ios) = List.range' b r ++ touched minBs ios := by
        simp [touched, m6]
      refine ⟨⟨b, len'⟩ :: ios, ex, ?_, ?_, ?_, ?_, ?_, ?_, ?_⟩
      · simp [pass, hb1, m1, p1]
      · rw [ht, List.nodup_append]
        refine ⟨List.nodup_range', p2, ?_⟩
        intro x hx y hy hxy
        subst hxy
        have := (p3 x hy).2
        simp only [Bool.or_eq_false_iff, decide_eq_false_iff_not] at this
        rw [List.mem_range'_1] at hx
        omega
      · intro x hx
        rw [ht, List.mem_append] at hx
        rcases hx with hx | hx
        · rw [List.mem_range'_1] at hx
          have := m7 (x - b) (by omega)
          rw [show b + (x - b) = x by omega] at this
          exact ⟨by omega, this⟩
        · have := p3 x hx
          simp only [Bool.or_eq_false_iff] at this
          exact ⟨this.1, this.2.1⟩
      · intro io hio
        simp only [List.mem_cons] at hio
        rcases hio with rfl | hio
        · exact ⟨m4, by have := (hlen b hb2).2; show b * minBs + len' ≤ _; omega⟩
        · exact p4 io hio
      · intro hex x hx
        rw [ht, List.mem_append]
        rcases p5 hex x hx with hh | hh
        · simp only [Bool.or_eq_true, decide_eq_true_eq] at hh
          rcases hh with hh | hh
          · exact Or.inl hh
          · right; left; rw [List.mem_range'_1]; exact hh
        · exact Or.inr (Or.inr hh)
      · intro hex; simp [p6 hex]
      · have := freeCount_lt (n := n) (P := P) (Q := fun i => P i || decide (b ≤ i ∧ i < b + r))
          hb2 hb3 (by simp; omega) (by intro i hi; simp [hi])
        simp only [List.length_cons]; omega
    · refine ⟨[], true, by simp [pass, hn1], by simp [touched], by simp [touched], by simp, ?_, by simp, by simp⟩
      intro _ b hb; exact Or.inl (hn2 b hb)

/-- **C04.** One pass of random I/O over a fresh random map of `n` blocks, for any raw block
numbers and any positive lengths that fit in the file: nothing goes out of bounds and no assertion
fails; every I/O is non-empty and inside the file; no block is touched twice; the pass reports
exhaustion only when every block has been touched; as long as it does not, each draw gave an
I/O; and with more draws than blocks it does report exhaustion. -/
theorem C04_pass (n minBs fo : Nat) (hbs : 0 < minBs) (ds : List (Nat × (Nat → Nat)))
    (hd : ∀ d ∈ ds, d.1 < n ∧ ∀ b, b < n → 0 < d.2 b ∧ b * minBs + d.2 b ≤ n * minBs) :
    ∃ ios ex, pass minBs fo (axmapNew n) ds = some (ios, ex) ∧
      (touched minBs ios).Nodup ∧
      (∀ b ∈ touched minBs ios, b < n) ∧
      (∀ io ∈ ios, 0 < io.len ∧ io.block * minBs + io.len ≤ n * minBs) ∧
      (ex = true → ∀ b, b < n → b ∈ touched minBs ios) ∧
      (ex = false → ios.length = ds.length) ∧
      (n < ds.length → ex = true) := by
  obtain ⟨ios, ex, p1, p2, p3, p4, p5, p6, p7⟩ := pass_spec (fo := fo) hbs ds _ _ (rep_new n) hd
  refine ⟨ios, ex, p1, p2, fun b hb => (p3 b hb).1, p4, ?_, p6, ?_⟩
  · intro hex b hb
    rcases p5 hex b hb with h | h
    · simp [Spec.empty] at h
    · exact h
  · intro hlen
    cases hex : ex with
    | true => rfl
    | false =>
      have h1 := p6 hex
      have h2 : freeCount n Spec.empty ≤ n := by
        unfold freeCount
        exact Nat.le_trans (List.length_filter_le _ _) (by simp)
      omega

/-- A concrete pass: 5 blocks of 4 bytes, draws all equal to 3, lengths up to 8 bytes. -/
example : pass 4 100 (axmapNew 5) (List.replicate 6 (3, fun b => if b < 4 then 8 else 4)) =
    some ([⟨3, 8⟩, ⟨0, 8⟩, ⟨2, 4⟩], true) ∧
    (∀ b, b < 5 → 0 < (if b < 4 then 8 else 4) ∧ b * 4 + (if b < 4 then 8 else 4) ≤ 5 * 4) := by
  constructor
  · decide +kernel
  · intro b hb; split <;> omega

end Fio.Axmap
