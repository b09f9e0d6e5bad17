import Verif.IouQueue.Model
/-
C08 (requeue ring) and C09 (free list).
-/
namespace Fio.IouQueue

/-! ### C08 -/

/-- An operation on the ring: push a unit, or pop. -/
inductive ROp where
  | push (u : Nat)
  | pop
deriving DecidableEq, Repr

/-- A sequence of ring operations; the answers of the pops are collected in order. -/
def rrun (r : Ring) : List ROp → Option (Ring × List (Option Nat))
  | [] => some (r, [])
  | .push u :: ops => do
    let r' ← rpush r u
    rrun r' ops
  | .pop :: ops => do
    let (r', o) ← rpop r
    let (r'', os) ← rrun r' ops
    return (r'', o :: os)

/-- Specification: a first-in first-out queue for at most `nr` units; `none` if a push would
make it hold more. -/
def fifoRun (nr : Nat) (q : List Nat) : List ROp → Option (List Nat × List (Option Nat))
  | [] => some (q, [])
  | .push u :: ops => if q.length < nr then fifoRun nr (q ++ [u]) ops else none
  | .pop :: ops =>
    match fifoRun nr q.tail ops with
    | none => none
    | some (q', os) => some (q', q.head? :: os)

theorem smear_get (x : BitVec 32) (i : Nat) :
    (smear x).getLsbD i = true ↔ ∃ j, i ≤ j ∧ x.getLsbD j = true := by
  have step : ∀ (w : Nat) (y : BitVec 32), (∀ i, y.getLsbD i = true ↔ ∃ j, i ≤ j ∧ j < i + w ∧ x.getLsbD j = true) →
      ∀ i, (y ||| (y >>> w)).getLsbD i = true ↔ ∃ j, i ≤ j ∧ j < i + (w + w) ∧ x.getLsbD j = true := by
    intro w y hy i
    rw [BitVec.getLsbD_or, BitVec.getLsbD_ushiftRight, Bool.or_eq_true, hy, hy]
    constructor
    · rintro (⟨j, h1, h2, h3⟩ | ⟨j, h1, h2, h3⟩)
      · exact ⟨j, h1, by omega, h3⟩
      · exact ⟨j, by omega, by omega, h3⟩
    · rintro ⟨j, h1, h2, h3⟩
      by_cases hj : j < i + w
      · exact Or.inl ⟨j, h1, hj, h3⟩
      · exact Or.inr ⟨j, by omega, by omega, h3⟩
  have h0 : ∀ i, x.getLsbD i = true ↔ ∃ j, i ≤ j ∧ j < i + 1 ∧ x.getLsbD j = true := by
    intro i
    constructor
    · intro h; exact ⟨i, by omega, by omega, h⟩
    · rintro ⟨j, h1, h2, h3⟩
      have : j = i := by omega
      subst this; exact h3
  have h5 := step 16 _ (step 8 _ (step 4 _ (step 2 _ (step 1 _ h0)))) i
  unfold smear
  rw [h5]
  constructor
  · rintro ⟨j, h1, _, h3⟩; exact ⟨j, h1, h3⟩
  · rintro ⟨j, h1, h3⟩
    have : j < 32 := BitVec.lt_of_getLsbD h3
    exact ⟨j, h1, by omega, h3⟩

theorem smear_toNat (x : BitVec 32) (hx : x ≠ 0#32) :
    (smear x).toNat = 2 ^ (Nat.log2 x.toNat + 1) - 1 := by
  have hx0 : x.toNat ≠ 0 := fun h => hx (BitVec.eq_of_toNat_eq (by simpa using h))
  have hlo := Nat.log2_self_le hx0
  have hhi := Nat.lt_log2_self (n := x.toNat)
  apply Nat.eq_of_testBit_eq
  intro i
  rw [BitVec.testBit_toNat, Nat.testBit_two_pow_sub_one, Bool.eq_iff_iff, smear_get, decide_eq_true_eq]
  constructor
  · rintro ⟨j, h1, h2⟩
    rw [← BitVec.testBit_toNat] at h2
    apply Classical.byContradiction
    intro h3
    have : x.toNat < 2 ^ j := Nat.lt_of_lt_of_le hhi (Nat.pow_le_pow_right (by omega) (by omega))
    rw [Nat.testBit_lt_two_pow this] at h2
    cases h2
  · intro h
    refine ⟨Nat.log2 x.toNat, by omega, ?_⟩
    rw [← BitVec.testBit_toNat]
    obtain ⟨k, hk1, hk2⟩ := Nat.exists_ge_and_testBit_of_ge_two_pow hlo
    have : k = Nat.log2 x.toNat := by
      apply Classical.byContradiction
      intro hne
      have : x.toNat < 2 ^ k := Nat.lt_of_lt_of_le hhi (Nat.pow_le_pow_right (by omega) (by omega))
      rw [Nat.testBit_lt_two_pow this] at hk2
      cases hk2
    rw [← this]; exact hk2

/-- The ring size is a power of two, larger than the number of units asked for. -/
theorem ringMax_spec (nr : BitVec 32) (h : nr.toNat < 2 ^ 31) :
    ∃ k, k ≤ 31 ∧ (ringMax nr).toNat = 2 ^ k ∧ nr.toNat < 2 ^ k := by
  have h1 : (nr + 1#32).toNat = nr.toNat + 1 := by rw [BitVec.toNat_add]; simp; omega
  unfold ringMax
  simp only
  by_cases hc : nr + 1#32 &&& nr + 1#32 - 1#32 ≠ 0#32
  · rw [if_pos hc]
    have hs : nr + 1#32 - 1#32 = nr := by rw [BitVec.add_sub_cancel]
    rw [hs] at hc ⊢
    have hnr : nr ≠ 0#32 := by
      intro h0; rw [h0] at hc; simp at hc
    have hnr0 : nr.toNat ≠ 0 := fun h => hnr (BitVec.eq_of_toNat_eq (by simpa using h))
    have hhi := Nat.lt_log2_self (n := nr.toNat)
    have hl : Nat.log2 nr.toNat < 31 := (Nat.log2_lt hnr0).2 h
    refine ⟨Nat.log2 nr.toNat + 1, by omega, ?_, hhi⟩
    have : 2 ^ (Nat.log2 nr.toNat + 1) ≤ 2 ^ 31 := Nat.pow_le_pow_right (by omega) (by omega)
    rw [BitVec.toNat_add, smear_toNat _ hnr]
    simp; omega
  · rw [if_neg hc]
    simp only [ne_eq, Decidable.not_not] at hc
    have hc' := congrArg BitVec.toNat hc
    have hs : (nr + 1#32 - 1#32).toNat = nr.toNat := by rw [BitVec.add_sub_cancel]
    rw [BitVec.toNat_and, hs, h1] at hc'
    have hlo := Nat.log2_self_le (n := nr.toNat + 1) (by omega)
    have hhi := Nat.lt_log2_self (n := nr.toNat + 1)
    have hl : Nat.log2 (nr.toNat + 1) < 32 := (Nat.log2_lt (by omega)).2 (by omega)
    refine ⟨Nat.log2 (nr.toNat + 1), by omega, ?_, ?_⟩
    · rw [h1]
      apply Classical.byContradiction
      intro hne
      have hb : ∀ y, 2 ^ Nat.log2 (nr.toNat + 1) ≤ y → y < 2 ^ (Nat.log2 (nr.toNat + 1) + 1) →
          y.testBit (Nat.log2 (nr.toNat + 1)) = true := by
        intro y hy1 hy2
        rw [Nat.testBit_eq_decide_div_mod_eq, decide_eq_true_eq]
        have : y / 2 ^ Nat.log2 (nr.toNat + 1) = 1 := by
          rw [Nat.div_eq_iff (Nat.two_pow_pos _)]
          rw [Nat.pow_succ] at hy2; omega
        rw [this]
      have ht : ((nr.toNat + 1) &&& nr.toNat).testBit (Nat.log2 (nr.toNat + 1)) = true := by
        rw [Nat.testBit_and, hb _ hlo hhi, hb nr.toNat (by omega) (by omega)]; rfl
      rw [hc'] at ht
      simp at ht
    · apply Classical.byContradiction
      intro hne
      have hb : ∀ y, 2 ^ Nat.log2 (nr.toNat + 1) ≤ y → y < 2 ^ (Nat.log2 (nr.toNat + 1) + 1) →
          y.testBit (Nat.log2 (nr.toNat + 1)) = true := by
        intro y hy1 hy2
        rw [Nat.testBit_eq_decide_div_mod_eq, decide_eq_true_eq]
        have : y / 2 ^ Nat.log2 (nr.toNat + 1) = 1 := by
          rw [Nat.div_eq_iff (Nat.two_pow_pos _)]
          rw [Nat.pow_succ] at hy2; omega
        rw [this]
      have ht : ((nr.toNat + 1) &&& nr.toNat).testBit (Nat.log2 (nr.toNat + 1)) = true := by
        rw [Nat.testBit_and, hb _ hlo hhi, hb nr.toNat (by omega) (by omega)]; rfl
      rw [hc'] at ht
      simp at ht

/-- The ring holds the queue `q`. -/
structure RHolds (k : Nat) (r : Ring) (q : List Nat) : Prop where
  hk : k ≤ 31
  max : r.max.toNat = 2 ^ k
  len : r.ring.length = 2 ^ k
  tail : r.tail.toNat < 2 ^ k
  head : r.head.toNat = (r.tail.toNat + q.length) % 2 ^ k
  qlen : q.length < 2 ^ k
  data : ∀ i, i < q.length → r.ring[(r.tail.toNat + i) % 2 ^ k]? = some (q[i]?)

theorem next_toNat {k : Nat} (hk : k ≤ 31) {m : BitVec 32} (hm : m.toNat = 2 ^ k) (x : BitVec 32)
    (hx : x.toNat < 2 ^ k) : ((x + 1#32) &&& (m - 1#32)).toNat = (x.toNat + 1) % 2 ^ k := by
  have h1 : 2 ^ k ≤ 2 ^ 31 := Nat.pow_le_pow_right (by omega) hk
  have h2 := Nat.two_pow_pos k
  have h3 : (m - 1#32).toNat = 2 ^ k - 1 := by
    rw [BitVec.toNat_sub]; simp; omega
  have h4 : (x + 1#32).toNat = x.toNat + 1 := by rw [BitVec.toNat_add]; simp; omega
  rw [BitVec.toNat_and, h3, h4, Nat.and_two_pow_sub_one_eq_mod]

theorem mod_cases {s a x : Nat} (ha : a < s) (hx : x ≤ s) :
    (a + x) % s = if a + x < s then a + x else a + x - s := by
  split
  · rename_i h; exact Nat.mod_eq_of_lt h
  · rename_i h; rw [Nat.mod_eq_sub_mod (by omega), Nat.mod_eq_of_lt (by omega)]

theorem rpush_spec {k r q} (h : RHolds k r q) (u : Nat) (hl : q.length + 1 < 2 ^ k) :
    ∃ r', rpush r u = some r' ∧ RHolds k r' (q ++ [u]) := by
  have hpow : 2 ^ k ≤ 2 ^ 31 := Nat.pow_le_pow_right (by omega) h.hk
  have hpos := Nat.two_pow_pos k
  have hh := h.head
  have hhlt : r.head.toNat < 2 ^ k := by rw [hh]; exact Nat.mod_lt _ hpos
  have hc := mod_cases h.tail (Nat.le_of_lt h.qlen)
  have hne : r.head + 1#32 ≠ r.tail := by
    intro heq
    have := congrArg BitVec.toNat heq
    rw [BitVec.toNat_add] at this
    simp at this
    split at hc <;> omega
  refine ⟨_, by unfold rpush; rw [if_pos hne, if_pos (by rw [h.len]; exact hhlt)], ?_⟩
  refine ⟨h.hk, h.max, by simp [h.len], h.tail, ?_, by simpa using hl, ?_⟩
  · show ((r.head + 1#32) &&& (r.max - 1#32)).toNat = _
    rw [next_toNat h.hk h.max _ hhlt, hh, Nat.mod_add_mod]
    simp [Nat.add_assoc]
  · intro i hi
    simp only [List.length_append, List.length_singleton] at hi
    show (r.ring.set r.head.toNat (some u))[(r.tail.toNat + i) % 2 ^ k]? = _
    have hci := mod_cases (x := i) h.tail (by omega)
    rw [List.getElem?_set]
    by_cases hiq : i < q.length
    · rw [if_neg (by split at hc <;> split at hci <;> omega), h.data i hiq, List.getElem?_append_left hiq]
    · have : i = q.length := by omega
      subst this
      rw [if_pos hh, if_pos (by rw [h.len]; exact hhlt)]
      simp

theorem rpop_spec {k r q} (h : RHolds k r q) :
    ∃ r', rpop r = some (r', q.head?) ∧ RHolds k r' q.tail := by
  have hpow : 2 ^ k ≤ 2 ^ 31 := Nat.pow_le_pow_right (by omega) h.hk
  have hpos := Nat.two_pow_pos k
  have hh := h.head
  have hc := mod_cases h.tail (Nat.le_of_lt h.qlen)
  unfold rpop
  cases q with
  | nil =>
    have : r.head = r.tail := by
      apply BitVec.eq_of_toNat_eq
      simp only [List.length_nil, Nat.add_zero] at hh
      rw [hh, Nat.mod_eq_of_lt h.tail]
    rw [if_neg (by simp [this])]
    exact ⟨r, rfl, h⟩
  | cons a q =>
    have hne : r.head ≠ r.tail := by
      intro heq
      have := congrArg BitVec.toNat heq
      have hql := h.qlen
      simp only [List.length_cons] at *
      split at hc <;> omega
    have hd := h.data 0 (by simp)
    rw [Nat.add_zero, Nat.mod_eq_of_lt h.tail] at hd
    rw [if_pos hne, hd]
    refine ⟨_, rfl, h.hk, h.max, h.len, ?_, ?_, ?_, ?_⟩
    · show ((r.tail + 1#32) &&& (r.max - 1#32)).toNat < _
      rw [next_toNat h.hk h.max _ h.tail]; exact Nat.mod_lt _ hpos
    · show r.head.toNat = (((r.tail + 1#32) &&& (r.max - 1#32)).toNat + _) % 2 ^ k
      rw [next_toNat h.hk h.max _ h.tail, Nat.mod_add_mod, hh]
      simp only [List.length_cons, List.tail_cons]
      congr 1; omega
    · have := h.qlen
      simp only [List.length_cons, List.tail_cons] at *; omega
    · intro i hi
      simp only [List.tail_cons] at hi ⊢
      show r.ring[(((r.tail + 1#32) &&& (r.max - 1#32)).toNat + i) % 2 ^ k]? = _
      rw [next_toNat h.hk h.max _ h.tail, Nat.mod_add_mod]
      have := h.data (i + 1) (by simp; omega)
      rw [List.getElem?_cons_succ] at this
      rw [← this]
      congr 2; omega

theorem rrun_spec {k nr : Nat} (hnr : nr < 2 ^ k) : ∀ (ops : List ROp) (r : Ring) (q q' : List Nat)
    (os : List (Option Nat)), RHolds k r q → fifoRun nr q ops = some (q', os) →
    ∃ r', rrun r ops = some (r', os) ∧ RHolds k r' q' := by
  intro ops
  induction ops with
  | nil =>
    intro r q q' os h hs
    simp only [fifoRun, Option.some_inj, Prod.mk.injEq] at hs
    obtain ⟨rfl, rfl⟩ := hs
    exact ⟨r, rfl, h⟩
  | cons op ops ih =>
    intro r q q' os h hs
    cases op with
    | push u =>
      simp only [fifoRun] at hs
      split at hs
      · obtain ⟨r', h1, h2⟩ := rpush_spec h u (by omega)
        obtain ⟨r'', h3, h4⟩ := ih r' _ q' os h2 hs
        exact ⟨r'', by simp [rrun, h1, h3], h4⟩
      · cases hs
    | pop =>
      simp only [fifoRun] at hs
      split at hs
      · cases hs
      · rename_i q1 os1 hf
        simp only [Option.some_inj, Prod.mk.injEq] at hs
        obtain ⟨rfl, rfl⟩ := hs
        obtain ⟨r', h1, h2⟩ := rpop_spec h
        obtain ⟨r'', h3, h4⟩ := ih r' _ q1 os1 h2 hf
        exact ⟨r'', by simp [rrun, h1, h3], h4⟩

/-- **C08.** On a ring created for `nr` units (`nr < 2^31`), any sequence of pushes and pops that
never holds more than `nr` units is free of assertion failures and out-of-range accesses, the
pops answer exactly as a first-in first-out queue does (NULL exactly when it is empty), and the
ring reports empty exactly when the queue is. -/
theorem C08_ring (nr : BitVec 32) (hnr : nr.toNat < 2 ^ 31) (ops : List ROp) (q' : List Nat)
    (os : List (Option Nat)) (hs : fifoRun nr.toNat [] ops = some (q', os)) :
    ∃ r', rrun (rinit nr) ops = some (r', os) ∧ (rempty r' = true ↔ q' = []) := by
  obtain ⟨k, hk, hm, hlt⟩ := ringMax_spec nr hnr
  have h0 : RHolds k (rinit nr) [] :=
    ⟨hk, hm, by simp [rinit, hm], by simp [rinit]; exact Nat.two_pow_pos k, by simp [rinit],
      by simpa using Nat.two_pow_pos k, by simp⟩
  obtain ⟨r', h1, h2⟩ := rrun_spec hlt ops _ [] q' os h0 hs
  refine ⟨r', h1, ?_⟩
  have hh := h2.head
  have hc := mod_cases h2.tail (Nat.le_of_lt h2.qlen)
  have ht := h2.tail
  have hq := h2.qlen
  simp only [rempty, decide_eq_true_eq]
  rw [← BitVec.toNat_inj, ← List.length_eq_zero_iff]
  constructor
  · intro h; split at hc <;> omega
  · intro h; rw [h, Nat.add_zero, Nat.mod_eq_of_lt ht] at hh; exact hh

/-- The hypotheses of C08 are met by a run for depth 3 that wraps around the 4-slot ring. -/
example : fifoRun 3 [] [.push 1, .push 2, .push 3, .pop, .pop, .push 4, .push 5, .pop, .pop, .pop, .pop] =
    some ([], [some 1, some 2, some 3, some 4, some 5, none]) ∧
    (rrun (rinit 3#32) [.push 1, .push 2, .push 3, .pop, .pop, .push 4, .push 5, .pop, .pop, .pop, .pop]).map
      (·.2) = some [some 1, some 2, some 3, some 4, some 5, none] := by decide +kernel

/-- The bound on the number of units held is necessary, and the assertion meant to enforce it does
not: the fourth push on a ring for 3 units is accepted and makes the ring look empty, losing all
four units. -/
theorem C08_overfull_loses_units :
    ∃ r, rrun (rinit 3#32) [.push 1, .push 2, .push 3, .push 4] = some (r, []) ∧ rempty r = true ∧
      (rpop r).map (·.2) = some none := ⟨_, rfl, by decide +kernel, by decide +kernel⟩

/-! ### C09 -/

/-- An operation on the free list by its user: take a unit, or give back unit `u`. -/
inductive QOp where
  | take
  | give (u : Nat)
deriving DecidableEq, Repr

/-- The user's view: the units currently taken, together with the free list.  Giving back a unit
that is not taken is not a legal use (`none`), as is a failure inside the list itself. -/
def qstep (s : Queue × List Nat) : QOp → Option (Queue × List Nat)
  | .take => do
    let (q', o) ← qpop s.1
    match o with
    | some u => return (q', u :: s.2)
    | none => return (q', s.2)
  | .give u => do
    let q' ← qpush s.1 u
    return (q', s.2.erase u)

/-- Only units currently taken are given back. -/
def legal (s : Queue × List Nat) : List QOp → Prop
  | [] => True
  | op :: ops => (∀ u, op = .give u → u ∈ s.2) ∧ ∀ s', qstep s op = some s' → legal s' ops

/-- A sequence of operations. -/
def qrun (s : Queue × List Nat) : List QOp → Option (Queue × List Nat)
  | [] => some s
  | op :: ops => (qstep s op).bind fun s' => qrun s' ops

/-- init.c/backend.c fill the free list by pushing each unit once. -/
def fill (q : Queue) : List Nat → Option Queue
  | [] => some q
  | u :: us => (qpush q u).bind fun q' => fill q' us

/-- The free list holds the units `l` (bottom first). -/
structure QHolds (n : Nat) (q : Queue) (l : List Nat) : Prop where
  max : q.max = n
  len : q.ious.length = n
  nr : q.nr = l.length
  le : l.length ≤ n
  data : ∀ i, i < l.length → q.ious[i]? = some l[i]?

theorem qpush_spec {n q l} (h : QHolds n q l) (u : Nat) (hl : l.length < n) :
    ∃ q', qpush q u = some q' ∧ QHolds n q' (l ++ [u]) := by
  have := h.nr; have := h.max; have := h.len
  refine ⟨{ q with ious := q.ious.set q.nr (some u), nr := q.nr + 1 },
    by unfold qpush; rw [if_pos (by omega), if_pos (by omega)], h.max, by simp [h.len],
    by simp [h.nr], by simp; omega, ?_⟩
  intro i hi
  simp only [List.length_append, List.length_singleton] at hi
  show (q.ious.set q.nr (some u))[i]? = _
  rw [List.getElem?_set]
  by_cases hil : i < l.length
  · rw [if_neg (by omega), h.data i hil, List.getElem?_append_left hil]
  · have : i = l.length := by omega
    subst this
    rw [if_pos h.nr, if_pos (by omega)]; simp

theorem qpop_spec {n q l} (h : QHolds n q l) :
    ∃ q', qpop q = some (q', l.getLast?) ∧ QHolds n q' l.dropLast := by
  have hnr := h.nr; have hmax := h.max; have hlen := h.len; have hle := h.le
  unfold qpop
  by_cases hl : l = []
  · subst hl
    rw [if_neg (by simpa using hnr)]
    exact ⟨q, rfl, h⟩
  · have hpos : 0 < l.length := List.length_pos_iff.2 hl
    have hd := h.data (l.length - 1) (by omega)
    rw [if_pos (by omega), hnr, hd]
    refine ⟨{ q with nr := l.length - 1, ious := q.ious.set (l.length - 1) none },
      by rw [List.getLast?_eq_getElem?], hmax, by simp [hlen], by simp, by simp; omega, ?_⟩
    intro i hi
    rw [List.length_dropLast] at hi
    show (q.ious.set _ none)[i]? = _
    rw [List.getElem?_set, if_neg (by omega), h.data i (by omega), List.getElem?_dropLast, if_pos (by omega)]

theorem fill_spec {n : Nat} : ∀ (us : List Nat) (q : Queue) (l : List Nat), QHolds n q l →
    l.length + us.length ≤ n → ∃ q', fill q us = some q' ∧ QHolds n q' (l ++ us) := by
  intro us
  induction us with
  | nil => intro q l h _; exact ⟨q, rfl, by simpa using h⟩
  | cons u us ih =>
    intro q l h hl
    simp only [List.length_cons] at hl
    obtain ⟨q', h1, h2⟩ := qpush_spec h u (by omega)
    obtain ⟨q'', h3, h4⟩ := ih q' _ h2 (by simp; omega)
    exact ⟨q'', by simp [fill, h1, h3], by simpa using h4⟩

theorem qrun_spec {us : List Nat} : ∀ (ops : List QOp) (q : Queue) (l t : List Nat),
    QHolds us.length q l → (t ++ l).Perm us → legal (q, t) ops →
    ∃ q' l' t', qrun (q, t) ops = some (q', t') ∧ QHolds us.length q' l' ∧ (t' ++ l').Perm us := by
  intro ops
  induction ops with
  | nil => intro q l t h hp _; exact ⟨q, l, t, rfl, h, hp⟩
  | cons op ops ih =>
    intro q l t h hp hleg
    obtain ⟨hl1, hl2⟩ := hleg
    cases op with
    | take =>
      obtain ⟨q', h1, h2⟩ := qpop_spec h
      cases hlast : l.getLast? with
      | none =>
        rw [hlast] at h1
        have hs : qstep (q, t) .take = some (q', t) := by simp [qstep, h1]
        have hln : l = [] := List.getLast?_eq_none_iff.1 hlast
        have hp' : (t ++ l.dropLast).Perm us := by rw [hln] at hp ⊢; simpa using hp
        obtain ⟨q'', l', t', g1, g2, g3⟩ := ih q' _ t h2 hp' (hl2 _ hs)
        exact ⟨q'', l', t', by simp [qrun, hs, g1], g2, g3⟩
      | some u =>
        rw [hlast] at h1
        have hs : qstep (q, t) .take = some (q', u :: t) := by simp [qstep, h1]
        have hl : l = l.dropLast ++ [u] := by
          obtain ⟨ys, hys⟩ := List.getLast?_eq_some_iff.1 hlast
          rw [hys]; simp
        have hp' : (u :: t ++ l.dropLast).Perm us := by
          refine List.Perm.trans ?_ hp
          have he : t ++ l = t ++ l.dropLast ++ [u] := by rw [List.append_assoc, ← hl]
          rw [he]
          exact (List.perm_append_singleton u (t ++ l.dropLast)).symm
        obtain ⟨q'', l', t', g1, g2, g3⟩ := ih q' _ (u :: t) h2 hp' (hl2 _ hs)
        exact ⟨q'', l', t', by simp [qrun, hs, g1], g2, g3⟩
    | give u =>
      have hu : u ∈ t := hl1 u rfl
      have hlen := hp.length_eq
      rw [List.length_append] at hlen
      have htpos : 0 < t.length := List.length_pos_of_mem hu
      obtain ⟨q', h1, h2⟩ := qpush_spec h u (by omega)
      have hs : qstep (q, t) (.give u) = some (q', t.erase u) := by simp [qstep, h1]
      have hp' : (t.erase u ++ (l ++ [u])).Perm us := by
        refine List.Perm.trans ?_ hp
        rw [← List.append_assoc]
        refine (List.perm_append_singleton u (t.erase u ++ l)).trans ?_
        rw [← List.cons_append]
        exact (List.perm_cons_erase hu).symm.append_right l
      obtain ⟨q'', l', t', g1, g2, g3⟩ := ih q' _ _ h2 hp' (hl2 _ hs)
      exact ⟨q'', l', t', by simp [qrun, hs, g1], g2, g3⟩

/-- **C09.** Fill the free list with distinct units and let its user take units and give back
units they hold, in any order: nothing ever fails inside the list (no assertion, no access out of
range), no unit is taken twice, only original units are taken, the next pop answers NULL exactly
if all units are taken, and otherwise answers a unit that is not taken. -/
theorem C09_freelist (us : List Nat) (hd : us.Nodup) :
    ∃ q0, fill (qinit us.length) us = some q0 ∧
      ∀ ops, legal (q0, []) ops →
        ∃ q' t', qrun (q0, []) ops = some (q', t') ∧ t'.Nodup ∧ (∀ u ∈ t', u ∈ us) ∧
          ∃ q'' o, qpop q' = some (q'', o) ∧ (o = none ↔ t'.length = us.length) ∧
            (∀ u, o = some u → u ∈ us ∧ u ∉ t') := by
  have h0 : QHolds us.length (qinit us.length) [] :=
    ⟨rfl, by simp [qinit], rfl, by simp, by simp⟩
  obtain ⟨q0, h1, h2⟩ := fill_spec us _ [] h0 (by simp)
  refine ⟨q0, h1, ?_⟩
  intro ops hleg
  obtain ⟨q', l', t', g1, g2, g3⟩ := qrun_spec (us := us) ops q0 us [] (by simpa using h2) (by simp) hleg
  have hnd : (t' ++ l').Nodup := g3.nodup_iff.2 hd
  have hlen := g3.length_eq
  rw [List.length_append] at hlen
  obtain ⟨q'', p1, _⟩ := qpop_spec g2
  refine ⟨q', t', g1, (List.nodup_append.1 hnd).1, ?_, q'', l'.getLast?, p1, ?_, ?_⟩
  · intro u hu; exact g3.mem_iff.1 (by simp [hu])
  · rw [List.getLast?_eq_none_iff, ← List.length_eq_zero_iff]; omega
  · intro u hu
    have hul : u ∈ l' := List.mem_of_getLast? hu
    refine ⟨g3.mem_iff.1 (by simp [hul]), ?_⟩
    intro hut
    exact (List.nodup_append.1 hnd).2.2 u hut u hul rfl

/-- A legal use of a list of three units, with its outcome. -/
example : ∃ q0, fill (qinit 3) [10, 20, 30] = some q0 ∧
    legal (q0, []) [.take, .take, .give 30, .take] ∧
    (qrun (q0, []) [.take, .take, .give 30, .take]).map (·.2) = some [30, 20] := by
  refine ⟨_, rfl, ?_, by decide +kernel⟩
  simp [legal, qstep, qpop, qpush, qinit]

end Fio.IouQueue
