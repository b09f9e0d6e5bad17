/-
C96: the list of pools.
-/
import Verif.Smalloc.Multi
import Verif.Smalloc.Find
namespace Fio.Smalloc

/-! ### Specification -/

/-- A live allocation: the pool and the allocation in it. -/
abbrev Live := List (Nat × Chunk)

/-- The address of a live allocation: where its pool is, plus the offset. -/
def addrOf (ps : List (Nat × Pool)) (x : Nat × Chunk) : Option Nat :=
  ps[x.1]?.map fun bp => bp.1 + x.2.ptr

/-- The bytes of a live allocation. -/
def content (ps : List (Nat × Pool)) (x : Nat × Chunk) : Option (List Byte) :=
  ps[x.1]?.bind fun bp => memRead bp.2.mem x.2.ptr x.2.size

/-- The allocations in pool `i`. -/
def mine (i : Nat) (live : Live) : List Chunk := (live.filter (·.1 == i)).map (·.2)

/-- What the users do: add a pool, ask for memory, give back the `k`-th live allocation by its
address, write inside it. -/
inductive MAct
  | add (b n : Nat) (mem : List Byte)
  | alloc (size : Nat)
  | free (k : Nat)
  | write (k off : Nat) (d : List Byte)

/-- What `mmap` guarantees for a new pool of `n` words at `b`: some words, less than 4G with the
bitmap, not at address 0, apart from the other pools. -/
def MapOk (b n : Nat) (mem : List Byte) (ps : List (Nat × Pool)) : Prop :=
  0 < b ∧ 0 < n ∧ 1028 * n < 2 ^ 32 ∧ mem.length = 1024 * n ∧
    ∀ x ∈ ps, x.1 + 1024 * x.2.bitmap.length ≤ b ∨ b + 1024 * n ≤ x.1

instance (b n : Nat) (mem : List Byte) (ps : List (Nat × Pool)) : Decidable (MapOk b n mem ps) := by
  unfold MapOk
  infer_instance

/-- One action. -/
def mact (e : Env) (a : MAct) (s : Pools × Live) : Option (Pools × Live) :=
  match a with
  | .add b n mem => if MapOk b n mem s.1.pools then some (addPool b n mem s.1, s.2) else some s
  | .alloc size =>
    match smalloc e size s.1 with
    | none => none
    | some (none, s') => some (s', s.2)
    | some (some (i, o), s') => some (s', (i, ⟨o, size⟩) :: s.2)
  | .free k =>
    match s.2[k]? with
    | none => some s
    | some x =>
      match addrOf s.1.pools x with
      | none => none
      | some a => (sfree e a s.1).map fun s' => (s', s.2.erase x)
  | .write k off d =>
    match s.2[k]? with
    | none => some s
    | some x =>
      if off + d.length ≤ x.2.size then
        match s.1.pools[x.1]? with
        | none => none
        | some (b, p) => (memWrite p.mem (x.2.ptr + off) d).map fun m =>
            ({ s.1 with pools := s.1.pools.set x.1 (b, { p with mem := m }) }, s.2)
      else some s

/-- A sequence of actions. -/
def mrun (e : Env) : List MAct → Pools × Live → Option (Pools × Live)
  | [], s => some s
  | a :: as, s => (mact e a s).bind (mrun e as)

/-! ### The invariant -/

/-- Every pool is in order for its own allocations, and the pools do not overlap. -/
structure GInv (ps : List (Nat × Pool)) (live : Live) : Prop where
  pool : ∀ (i b : Nat) (p : Pool), ps[i]? = some (b, p) → Inv p (mine i live) ∧ NextOk p ∧ 0 < b
  tag : ∀ x ∈ live, x.1 < ps.length
  apart : ∀ (i j b : Nat) (p : Pool) (b' : Nat) (p' : Pool), i ≠ j → ps[i]? = some (b, p) → ps[j]? = some (b', p') →
    b + 1024 * p.bitmap.length ≤ b' ∨ b' + 1024 * p'.bitmap.length ≤ b

theorem mine_cons_self (i : Nat) (c : Chunk) (live : Live) :
    mine i ((i, c) :: live) = c :: mine i live := by simp [mine]

theorem mine_cons_ne {i j : Nat} (h : j ≠ i) (c : Chunk) (live : Live) :
    mine j ((i, c) :: live) = mine j live := by
  have : (i == j) = false := by simpa using fun h' => h h'.symm
  simp [mine, this]

theorem mem_mine {i : Nat} {c : Chunk} {live : Live} : c ∈ mine i live ↔ (i, c) ∈ live := by
  simp only [mine, List.mem_map, List.mem_filter, beq_iff_eq]
  constructor
  · rintro ⟨⟨j, d⟩, ⟨h1, h2⟩, h3⟩
    cases h2
    cases h3
    exact h1
  · intro h
    exact ⟨(i, c), ⟨h, rfl⟩, rfl⟩

theorem mine_erase_self (i : Nat) (c : Chunk) (live : Live) :
    mine i (live.erase (i, c)) = (mine i live).erase c := by
  induction live with
  | nil => rfl
  | cons x l ih =>
    obtain ⟨j, d⟩ := x
    by_cases hx : (j, d) = (i, c)
    · cases hx
      rw [List.erase_cons_head, mine_cons_self, List.erase_cons_head]
    · rw [List.erase_cons_tail (by simpa using hx)]
      by_cases hj : j = i
      · subst hj
        have hd : d ≠ c := fun h => hx (by rw [h])
        rw [mine_cons_self, mine_cons_self, List.erase_cons_tail (by simpa using hd), ih]
      · rw [mine_cons_ne (Ne.symm hj), mine_cons_ne (Ne.symm hj), ih]

theorem mine_erase_ne {i j : Nat} (h : j ≠ i) (c : Chunk) (live : Live) :
    mine j (live.erase (i, c)) = mine j live := by
  induction live with
  | nil => rfl
  | cons x l ih =>
    obtain ⟨k, d⟩ := x
    by_cases hx : (k, d) = (i, c)
    · cases hx
      rw [List.erase_cons_head, mine_cons_ne h]
    · rw [List.erase_cons_tail (by simpa using hx)]
      by_cases hj : k = j
      · subst hj
        rw [mine_cons_self, mine_cons_self, ih]
      · rw [mine_cons_ne (Ne.symm hj), mine_cons_ne (Ne.symm hj), ih]

theorem set_inv {ps : List (Nat × Pool)} {live live' : Live} (h : GInv ps live) {i b : Nat}
    {p p' : Pool} (hi : ps[i]? = some (b, p)) (h1 : Inv p' (mine i live')) (h2 : NextOk p')
    (h3 : p'.bitmap.length = p.bitmap.length) (h4 : ∀ j, j ≠ i → mine j live' = mine j live)
    (h5 : ∀ x ∈ live', x.1 < ps.length) : GInv (ps.set i (b, p')) live' := by
  have hlt : i < ps.length := (List.getElem?_eq_some_iff.1 hi).1
  have hget : ∀ j b' q, (ps.set i (b, p'))[j]? = some (b', q) →
      ∃ q0, ps[j]? = some (b', q0) ∧ q.bitmap.length = q0.bitmap.length ∧
        ((j = i ∧ q = p') ∨ (j ≠ i ∧ q0 = q)) := by
    intro j b' q hq
    by_cases hj : i = j
    · subst hj
      rw [List.getElem?_set_self hlt] at hq
      cases hq
      exact ⟨p, hi, h3, Or.inl ⟨rfl, rfl⟩⟩
    · rw [List.getElem?_set_ne hj] at hq
      exact ⟨q, hq, rfl, Or.inr ⟨Ne.symm hj, rfl⟩⟩
  refine ⟨?_, ?_, ?_⟩
  · intro j b' q hq
    obtain ⟨q0, g1, _, ⟨rfl, rfl⟩ | ⟨g3, rfl⟩⟩ := hget j b' q hq
    · exact ⟨h1, h2, (h.pool _ _ _ g1).2.2⟩
    · rw [h4 j g3]
      exact h.pool _ _ _ g1
  · intro x hx
    rw [List.length_set]
    exact h5 x hx
  · intro j k b1 q1 b2 q2 hjk hq1 hq2
    obtain ⟨r1, g1, g2, _⟩ := hget _ _ _ hq1
    obtain ⟨r2, g3, g4, _⟩ := hget _ _ _ hq2
    rw [g2, g4]
    exact h.apart j k _ _ _ _ hjk g1 g3

/-- The bytes of the live allocations are as before. -/
def Keeps (ps ps' : List (Nat × Pool)) (live : Live) : Prop :=
  ∀ x ∈ live, content ps' x = content ps x

theorem content_set_ne {ps : List (Nat × Pool)} {i : Nat} {bp : Nat × Pool} {x : Nat × Chunk}
    (h : x.1 ≠ i) : content (ps.set i bp) x = content ps x := by
  unfold content
  rw [List.getElem?_set_ne (Ne.symm h)]

theorem keeps_set {ps : List (Nat × Pool)} {live : Live} {i b : Nat} {p p' : Pool}
    (hi : ps[i]? = some (b, p))
    (hm : ∀ c ∈ mine i live, memRead p'.mem c.ptr c.size = memRead p.mem c.ptr c.size) :
    Keeps ps (ps.set i (b, p')) live := by
  have hlt : i < ps.length := (List.getElem?_eq_some_iff.1 hi).1
  intro x hx
  by_cases h : x.1 = i
  · subst h
    unfold content
    rw [List.getElem?_set_self hlt, hi]
    exact hm x.2 (mem_mine.2 hx)
  · exact content_set_ne h

/-- The addresses and sizes of the pools are as before. -/
def SameMap (ps ps' : List (Nat × Pool)) : Prop :=
  ps'.length = ps.length ∧
  ∀ (i b : Nat) (p : Pool), ps[i]? = some (b, p) → ∃ p' : Pool, ps'[i]? = some (b, p') ∧ p'.bitmap.length = p.bitmap.length

theorem SameMap.refl (ps : List (Nat × Pool)) : SameMap ps ps :=
  ⟨rfl, fun _ _ p h => ⟨p, h, rfl⟩⟩

theorem SameMap.trans {a b c : List (Nat × Pool)} (h : SameMap a b) (h' : SameMap b c) :
    SameMap a c := by
  refine ⟨h'.1.trans h.1, fun i x p hp => ?_⟩
  obtain ⟨p', h1, h2⟩ := h.2 i x p hp
  obtain ⟨p'', h3, h4⟩ := h'.2 i x p' h1
  exact ⟨p'', h3, h4.trans h2⟩

theorem sameMap_set {ps : List (Nat × Pool)} {i b : Nat} {p p' : Pool} (hi : ps[i]? = some (b, p))
    (h : p'.bitmap.length = p.bitmap.length) : SameMap ps (ps.set i (b, p')) := by
  refine ⟨List.length_set, fun j x q hq => ?_⟩
  by_cases hj : i = j
  · subst hj
    rw [hi] at hq
    cases hq
    exact ⟨p', List.getElem?_set_self (List.getElem?_eq_some_iff.1 hi).1, h⟩
  · exact ⟨q, by rw [List.getElem?_set_ne hj]; exact hq, rfl⟩

theorem Keeps.trans {a b c : List (Nat × Pool)} {live : Live} (h : Keeps a b live)
    (h' : Keeps b c live) : Keeps a c live := fun x hx => (h' x hx).trans (h x hx)

/-! ### The functions -/

theorem tryFrom_spec {e : Env} (hrej : e.Rejects) {size : Nat} (hs : size < 2 ^ 32) {n i : Nat}
    {ps : List (Nat × Pool)} {live : Live} (h : GInv ps live) (hn : i + n ≤ ps.length) :
    (¬ e.Defined ∧ tryFrom e size n i ps = none) ∨
    (∃ ps', tryFrom e size n i ps = some (none, ps') ∧ GInv ps' live ∧ Keeps ps ps' live ∧
      SameMap ps ps' ∧
      (∀ j b p, i ≤ j → j < i + n → ps[j]? = some (b, p) → ∃ p', alloc e size p = some (none, p')) ∧
      (∀ j, j < i ∨ i + n ≤ j → ps'[j]? = ps[j]?)) ∨
    (∃ ps' k o, tryFrom e size n i ps = some (some (k, o), ps') ∧ i ≤ k ∧ k < i + n ∧
      GInv ps' ((k, ⟨o, size⟩) :: live) ∧ Keeps ps ps' live ∧ SameMap ps ps' ∧
      content ps' (k, ⟨o, size⟩) = some (List.replicate size 0)) := by
  induction n generalizing i ps with
  | zero =>
    refine Or.inr (Or.inl ⟨ps, rfl, h, fun _ _ => rfl, SameMap.refl _, ?_, fun _ _ => rfl⟩)
    intro j b p h1 h2
    omega
  | succ n ih =>
    have hi : i < ps.length := by omega
    obtain ⟨b, p, hp⟩ : ∃ b p, ps[i]? = some (b, p) :=
      ⟨ps[i].1, ps[i].2, by rw [List.getElem?_eq_getElem hi]⟩
    obtain ⟨g1, g2, g3⟩ := h.pool i b p hp
    unfold tryFrom
    simp only [hp]
    rcases alloc_spec hrej g1 hs with ⟨hd, e1⟩ | ⟨p', e1, h1, h2, h3⟩ | ⟨p', o, e1, h1, h2, h3, h4⟩
    · left
      simp only [e1]
      exact ⟨hd, trivial⟩
    · simp only [e1]
      have hnx := alloc_next hrej g1 g2 hs e1
      have hg := set_inv h hp h1 hnx (by rw [h3]) (fun _ _ => rfl) h.tag
      have hk : Keeps ps (ps.set i (b, p')) live := keeps_set hp (fun c _ => by rw [h2])
      have hsm : SameMap ps (ps.set i (b, p')) := sameMap_set hp (by rw [h3])
      rcases ih hg (i := i + 1) (by rw [List.length_set]; omega) with hu |
        ⟨ps', f1, f2, f3, f4, f5, f6⟩ | ⟨ps', k, o, f1, f2, f3, f4, f5, f6, f7⟩
      · exact Or.inl hu
      · refine Or.inr (Or.inl ⟨ps', f1, f2, hk.trans f3, hsm.trans f4, ?_, ?_⟩)
        · intro j b' q j1 j2 hq
          by_cases hj : i = j
          · subst hj
            rw [hp] at hq
            cases hq
            exact ⟨p', e1⟩
          · exact f5 j b' q (by omega) (by omega) (by rw [List.getElem?_set_ne hj]; exact hq)
        · intro j hj
          rw [f6 j (by omega), List.getElem?_set_ne (by omega)]
      · exact Or.inr (Or.inr ⟨ps', k, o, f1, by omega, by omega, f4, hk.trans f5, hsm.trans f6, f7⟩)
    · simp only [e1]
      have hnx := alloc_next hrej g1 g2 hs e1
      refine Or.inr (Or.inr ⟨_, i, o, rfl, Nat.le_refl _, by omega, ?_, keeps_set hp h4,
        sameMap_set hp h2, ?_⟩)
      · apply set_inv h hp (by rw [mine_cons_self]; exact h1) hnx h2
          (fun j hj => mine_cons_ne hj _ _)
        intro x hx
        rcases List.mem_cons.1 hx with rfl | hx
        · exact hi
        · exact h.tag x hx
      · unfold content
        rw [List.getElem?_set_self hi]
        exact h3

theorem owner_spec {ps : List (Nat × Pool)} {live : Live} (h : GInv ps live) {i b : Nat} {p : Pool}
    (hp : ps[i]? = some (b, p)) {c : Chunk} (hc : c ∈ mine i live) :
    ps.findIdx? (ptrValid (b + c.ptr)) = some i := by
  obtain ⟨g1, g2, g3⟩ := h.pool i b p hp
  obtain ⟨a1, a2, a3, a4⟩ := g1.at_ c hc
  have hsm := g1.small
  have hlt : i < ps.length := (List.getElem?_eq_some_iff.1 hp).1
  have hget : ps[i] = (b, p) := (List.getElem?_eq_some_iff.1 hp).2
  have hin : c.ptr < 1024 * p.bitmap.length := by
    unfold Chunk.blocks at a4
    omega
  rw [List.findIdx?_eq_some_iff_getElem]
  refine ⟨hlt, ?_, ?_⟩
  · rw [hget]
    unfold ptrValid
    simp only [Bool.and_eq_true, decide_eq_true_eq]
    omega
  · intro j hj
    have hq : ps[j]? = some (ps[j].1, ps[j].2) := by rw [List.getElem?_eq_getElem (by omega)]
    have hap := h.apart i j b p _ _ (by omega) hp hq
    have hsm' := (h.pool j _ _ hq).1.small
    unfold ptrValid
    simp only [Bool.and_eq_true, decide_eq_true_eq]
    generalize ps[j].1 = b' at *
    generalize ps[j].2.bitmap.length = n' at *
    rw [Nat.mod_eq_of_lt (by omega)]
    omega

theorem sfree_spec (e : Env) {s : Pools} {live : Live} (h : GInv s.pools live) {x : Nat × Chunk}
    (hx : x ∈ live) {b : Nat} {p : Pool} (hp : s.pools[x.1]? = some (b, p)) :
    ∃ p', sfree e (b + x.2.ptr) s = some { s with pools := s.pools.set x.1 (b, p') } ∧
      free e x.2.ptr p = some p' ∧
      GInv (s.pools.set x.1 (b, p')) (live.erase x) ∧
      p'.mem = p.mem ∧ p'.bitmap.length = p.bitmap.length := by
  obtain ⟨i, c⟩ := x
  dsimp only at *
  obtain ⟨g1, g2, g3⟩ := h.pool i b p hp
  have hc := mem_mine.2 hx
  obtain ⟨p', e1, h1, h2, h3⟩ := free_spec e g1 hc
  refine ⟨p', ?_, e1, ?_, h2, h3⟩
  · unfold sfree
    rw [if_neg (by omega), owner_spec h hp hc]
    simp only [hp, Nat.add_sub_cancel_left, e1, Option.map_some]
  · exact set_inv h hp (by rw [mine_erase_self]; exact h1) (free_next g1 g2 hc e1) h3
      (fun j hj => mine_erase_ne hj _ _) (fun y hy => h.tag y (List.mem_of_mem_erase hy))

theorem debugFrom_spec {e : Env} (hrej : e.Rejects) {size : Nat} (hs : size < 2 ^ 32) {n i : Nat}
    {s : Pools} {live : Live} (h : GInv s.pools live) (hn : i + n ≤ s.pools.length)
    (hl : s.last = 0 ∨ s.last < s.pools.length) :
    (¬ e.Defined ∧ debugFrom e size n i s = none) ∨
    ∃ s', debugFrom e size n i s = some s' ∧ GInv s'.pools live ∧ Keeps s.pools s'.pools live ∧
      SameMap s.pools s'.pools ∧ (s'.last = 0 ∨ s'.last < s'.pools.length) := by
  induction n generalizing i s with
  | zero => exact Or.inr ⟨s, rfl, h, fun _ _ => rfl, SameMap.refl _, hl⟩
  | succ n ih =>
    have hi : i < s.pools.length := by omega
    obtain ⟨b, p, hp⟩ : ∃ b p, s.pools[i]? = some (b, p) :=
      ⟨s.pools[i].1, s.pools[i].2, by rw [List.getElem?_eq_getElem hi]⟩
    obtain ⟨g1, g2, g3⟩ := h.pool i b p hp
    unfold debugFrom
    simp only [hp]
    by_cases hcond : size ≠ 0 ∧ sizeToBlocks (allocSize size) ≤ p.free
    · rw [if_pos hcond]
      rcases alloc_spec hrej g1 hs with ⟨hd, e1⟩ | ⟨p', e1, h1, h2, h3⟩ |
        ⟨p', o, e1, h1, h2, h3, h4⟩
      · left
        simp only [e1]
        exact ⟨hd, trivial⟩
      · simp only [e1]
        have hnx := alloc_next hrej g1 g2 hs e1
        have hg := set_inv h hp h1 hnx (by rw [h3]) (fun _ _ => rfl) h.tag
        have hk : Keeps s.pools (s.pools.set i (b, p')) live := keeps_set hp (fun c _ => by rw [h2])
        have hsm : SameMap s.pools (s.pools.set i (b, p')) := sameMap_set hp (by rw [h3])
        rcases ih (s := { s with pools := s.pools.set i (b, p') }) hg (i := i + 1)
          (by simp only [List.length_set]; omega) (by simpa only [List.length_set] using hl) with hu |
          ⟨s', f1, f2, f3, f4, f5⟩
        · exact Or.inl hu
        · exact Or.inr ⟨s', f1, f2, hk.trans f3, hsm.trans f4, f5⟩
      · simp only [e1]
        have hnx := alloc_next hrej g1 g2 hs e1
        have hg : GInv (s.pools.set i (b, p')) ((i, ⟨o, size⟩) :: live) := by
          apply set_inv h hp (by rw [mine_cons_self]; exact h1) hnx h2
            (fun j hj => mine_cons_ne hj _ _)
          intro x hx
          rcases List.mem_cons.1 hx with rfl | hx
          · exact hi
          · exact h.tag x hx
        have hk : Keeps s.pools (s.pools.set i (b, p')) live := keeps_set hp h4
        have hsm : SameMap s.pools (s.pools.set i (b, p')) := sameMap_set hp h2
        obtain ⟨p2, f1, _, f3, f4, f5⟩ := sfree_spec e (s := { s with pools := s.pools.set i (b, p') })
          hg (x := (i, ⟨o, size⟩)) List.mem_cons_self (List.getElem?_set_self hi)
        simp only at f1
        simp only [f1]
        rw [List.erase_cons_head] at f3
        dsimp only at f3
        have hp2 : (s.pools.set i (b, p'))[i]? = some (b, p') := List.getElem?_set_self hi
        have hk2 : Keeps (s.pools.set i (b, p')) ((s.pools.set i (b, p')).set i (b, p2)) live :=
          keeps_set hp2 (fun c _ => by rw [f4])
        have hsm2 : SameMap (s.pools.set i (b, p')) ((s.pools.set i (b, p')).set i (b, p2)) :=
          sameMap_set hp2 f5
        rcases ih (s := ⟨(s.pools.set i (b, p')).set i (b, p2), i⟩) f3 (i := i + 1)
          (by simp only [List.length_set]; omega) (by simp only [List.length_set]; omega) with hu |
          ⟨s', q1, q2, q3, q4, q5⟩
        · exact Or.inl hu
        · exact Or.inr ⟨s', q1, q2, (hk.trans hk2).trans q3, (hsm.trans hsm2).trans q4, q5⟩
    · rw [if_neg hcond]
      exact ih h (by omega) hl

theorem smalloc_spec {e : Env} (hrej : e.Rejects) {size : Nat} {s : Pools} {live : Live}
    (h : GInv s.pools live) (hl : s.last = 0 ∨ s.last < s.pools.length) :
    (¬ e.Defined ∧ smalloc e size s = none) ∨
    (∃ s', smalloc e size s = some (none, s') ∧ GInv s'.pools live ∧
      Keeps s.pools s'.pools live ∧ SameMap s.pools s'.pools ∧
      (s'.last = 0 ∨ s'.last < s'.pools.length) ∧
      (size < 2 ^ 32 →
        ∀ (j b : Nat) (p : Pool), s.pools[j]? = some (b, p) →
          ∃ p', alloc e size p = some (none, p'))) ∨
    (∃ s' k o, smalloc e size s = some (some (k, o), s') ∧ size < 2 ^ 32 ∧
      GInv s'.pools ((k, ⟨o, size⟩) :: live) ∧ Keeps s.pools s'.pools live ∧
      SameMap s.pools s'.pools ∧ (s'.last = 0 ∨ s'.last < s'.pools.length) ∧
      content s'.pools (k, ⟨o, size⟩) = some (List.replicate size 0)) := by
  unfold smalloc
  by_cases hs : size < 2 ^ 32
  · rw [if_neg (by simpa using hs)]
    have hle : s.last ≤ s.pools.length := by omega
    rcases tryFrom_spec hrej hs (n := s.pools.length - s.last) (i := s.last) h (by omega) with
      ⟨hd, e1⟩ | ⟨ps', e1, f2, f3, f4, f5, f6⟩ | ⟨ps', k, o, e1, f2, f3, f4, f5, f6, f7⟩
    · left
      simp only [e1]
      exact ⟨hd, trivial⟩
    · simp only [e1]
      by_cases h0 : s.last ≠ 0
      · rw [if_pos h0]
        rcases tryFrom_spec hrej hs (n := s.last) (i := 0) f2 (by rw [f4.1]; omega) with
          ⟨hd, e2⟩ | ⟨ps2, e2, g2, g3, g4, g5, g6⟩ | ⟨ps2, k, o, e2, g2, g3, g4, g5, g6, g7⟩
        · left
          simp only [e2]
          exact ⟨hd, trivial⟩
        · simp only [e2]
          rcases debugFrom_spec hrej hs (n := ps2.length) (i := 0) (s := ⟨ps2, 0⟩) g2
            (by simp) (Or.inl rfl) with ⟨hd, e3⟩ | ⟨s', e3, q2, q3, q4, q5⟩
          · left
            simp only [e3]
            exact ⟨hd, rfl⟩
          · right; left
            simp only [e3]
            refine ⟨s', rfl, q2, (f3.trans g3).trans q3, (f4.trans g4).trans q4, q5, ?_⟩
            intro _ j b p hp
            by_cases hj : s.last ≤ j
            · exact f5 j b p hj (by have := (List.getElem?_eq_some_iff.1 hp).1; omega) hp
            · exact g5 j b p (by omega) (by omega) (by rw [f6 j (by omega)]; exact hp)
        · right; right
          simp only [e2]
          exact ⟨_, k, o, rfl, hs, g4, f3.trans g5, f4.trans g6, by
            right; simp only; rw [g6.1, f4.1]; omega, g7⟩
      · rw [if_neg h0]
        rcases debugFrom_spec hrej hs (n := ps'.length) (i := 0) (s := ⟨ps', s.last⟩) f2
          (by simp) (by simp only; omega) with ⟨hd, e3⟩ | ⟨s', e3, q2, q3, q4, q5⟩
        · left
          simp only [e3]
          exact ⟨hd, rfl⟩
        · right; left
          simp only [e3]
          refine ⟨s', rfl, q2, f3.trans q3, f4.trans q4, q5, ?_⟩
          intro _ j b p hp
          exact f5 j b p (by omega) (by have := (List.getElem?_eq_some_iff.1 hp).1; omega) hp
    · right; right
      simp only [e1]
      exact ⟨_, k, o, rfl, hs, f4, f5, f6, by right; simp only; rw [f6.1]; omega, f7⟩
  · rw [if_pos hs]
    exact Or.inr (Or.inl ⟨s, rfl, h, fun _ _ => rfl, SameMap.refl _, hl, fun h => absurd h hs⟩)

theorem fresh_next (n : Nat) (mem : List Byte) : NextOk (fresh n mem) := by
  intro k hk
  simp [fresh] at hk

theorem addPool_inv {s : Pools} {live : Live} (h : GInv s.pools live) {b n : Nat}
    {mem : List Byte} (hm : MapOk b n mem s.pools) : GInv (addPool b n mem s).pools live := by
  unfold addPool
  split
  · exact h
  · obtain ⟨m1, m2, m3, m4, m5⟩ := hm
    have hget : ∀ i b' p, (s.pools ++ [(b, fresh n mem)])[i]? = some (b', p) →
        s.pools[i]? = some (b', p) ∨ (i = s.pools.length ∧ b' = b ∧ p = fresh n mem) := by
      intro i b' p hp
      by_cases hi : i < s.pools.length
      · rw [List.getElem?_append_left hi] at hp
        exact Or.inl hp
      · rw [List.getElem?_append_right (by omega)] at hp
        have hlt := (List.getElem?_eq_some_iff.1 hp).1
        simp only [List.length_cons, List.length_nil] at hlt
        rw [show i - s.pools.length = 0 by omega] at hp
        cases hp
        exact Or.inr ⟨by omega, rfl, rfl⟩
    have hlen : (fresh n mem).bitmap.length = n := by simp [fresh]
    refine ⟨?_, ?_, ?_⟩
    · intro i b' p hp
      rcases hget i b' p hp with hp | ⟨rfl, rfl, rfl⟩
      · exact h.pool i b' p hp
      · have : mine s.pools.length live = [] := by
          rw [List.eq_nil_iff_forall_not_mem]
          intro c hc
          have := h.tag _ (mem_mine.1 hc)
          simp at this
        rw [this]
        exact ⟨fresh_inv m2 m3 m4, fresh_next n mem, m1⟩
    · intro x hx
      have := h.tag x hx
      simp only [List.length_append]
      omega
    · intro i j b1 p1 b2 p2 hij h1 h2
      rcases hget i b1 p1 h1 with g1 | ⟨rfl, rfl, rfl⟩
      · rcases hget j b2 p2 h2 with g2 | ⟨rfl, rfl, rfl⟩
        · exact h.apart i j b1 p1 b2 p2 hij g1 g2
        · rw [hlen]
          exact m5 _ (List.mem_of_getElem? g1)
      · rcases hget j b2 p2 h2 with g2 | ⟨rfl, rfl, rfl⟩
        · rw [hlen]
          exact (m5 _ (List.mem_of_getElem? g2)).symm
        · exact absurd rfl hij

theorem mact_inv {e : Env} (hrej : e.Rejects) (a : MAct) {s : Pools × Live}
    (h : GInv s.1.pools s.2) (hl : s.1.last = 0 ∨ s.1.last < s.1.pools.length) :
    (¬ e.Defined ∧ mact e a s = none) ∨
    ∃ s', mact e a s = some s' ∧ GInv s'.1.pools s'.2 ∧
      (s'.1.last = 0 ∨ s'.1.last < s'.1.pools.length) := by
  cases a with
  | add b n mem =>
    unfold mact
    right
    dsimp only
    split
    · next hm =>
      refine ⟨_, rfl, addPool_inv h hm, ?_⟩
      unfold addPool
      split
      · exact hl
      · simp only [List.length_append]
        omega
    · exact ⟨s, rfl, h, hl⟩
  | alloc size =>
    unfold mact
    rcases smalloc_spec (size := size) hrej h hl with ⟨hd, e1⟩ | ⟨s', e1, f1, f2, f3, f4, f5⟩ |
      ⟨s', k, o, e1, _, f1, f2, f3, f4, f5⟩
    · left
      simp only [e1]
      exact ⟨hd, trivial⟩
    · right
      simp only [e1]
      exact ⟨_, rfl, f1, f4⟩
    · right
      simp only [e1]
      exact ⟨_, rfl, f1, f4⟩
  | free k =>
    unfold mact
    right
    dsimp only
    split
    · exact ⟨s, rfl, h, hl⟩
    · next x hx =>
      have hm := List.mem_of_getElem? hx
      have hlt := h.tag x hm
      obtain ⟨b, p, hp⟩ : ∃ b p, s.1.pools[x.1]? = some (b, p) :=
        ⟨s.1.pools[x.1].1, s.1.pools[x.1].2, by rw [List.getElem?_eq_getElem hlt]⟩
      obtain ⟨p', f1, _, f3, _, f5⟩ := sfree_spec e h hm hp
      have ha : addrOf s.1.pools x = some (b + x.2.ptr) := by simp [addrOf, hp]
      simp only [ha, f1, Option.map_some]
      exact ⟨_, rfl, f3, by simpa only [List.length_set] using hl⟩
  | write k off d =>
    unfold mact
    right
    dsimp only
    split
    · exact ⟨s, rfl, h, hl⟩
    · next x hx =>
      have hm := List.mem_of_getElem? hx
      have hlt := h.tag x hm
      obtain ⟨b, p, hp⟩ : ∃ b p, s.1.pools[x.1]? = some (b, p) :=
        ⟨s.1.pools[x.1].1, s.1.pools[x.1].2, by rw [List.getElem?_eq_getElem hlt]⟩
      split
      · next hd =>
        obtain ⟨g1, g2, g3⟩ := h.pool _ b p hp
        obtain ⟨m, e1, h1, _⟩ := write_spec g1 (mem_mine.2 hm) hd
        simp only [hp, e1, Option.map_some]
        exact ⟨_, rfl, set_inv h hp h1 g2 rfl (fun _ _ => rfl) h.tag, by
          simpa only [List.length_set] using hl⟩
      · exact ⟨s, rfl, h, hl⟩

theorem mrun_inv {e : Env} (hrej : e.Rejects) (as : List MAct) {s : Pools × Live}
    (h : GInv s.1.pools s.2) (hl : s.1.last = 0 ∨ s.1.last < s.1.pools.length) :
    (¬ e.Defined ∧ mrun e as s = none) ∨
    ∃ s', mrun e as s = some s' ∧ GInv s'.1.pools s'.2 ∧
      (s'.1.last = 0 ∨ s'.1.last < s'.1.pools.length) := by
  induction as generalizing s with
  | nil => exact Or.inr ⟨s, rfl, h, hl⟩
  | cons a as ih =>
    unfold mrun
    rcases mact_inv hrej a h hl with ⟨hd, e1⟩ | ⟨s', e1, h1, h2⟩
    · left
      simp only [e1]
      exact ⟨hd, rfl⟩
    · simp only [e1, Option.bind_some]
      exact ih h1 h2

theorem ginv_nil : GInv [] [] :=
  ⟨fun i b p h => by simp at h, fun x hx => by simp at hx, fun i j b p b' p' _ h => by simp at h⟩

theorem pairwise_mine {R : Chunk → Chunk → Prop} {live : Live}
    (h : ∀ i, (mine i live).Pairwise R) : live.Pairwise (fun x y => x.1 = y.1 → R x.2 y.2) := by
  induction live with
  | nil => exact List.Pairwise.nil
  | cons x l ih =>
    refine List.Pairwise.cons ?_ (ih fun i => ?_)
    · rintro ⟨j, d⟩ hy hxy
      obtain ⟨i, c⟩ := x
      dsimp only at hxy
      subst hxy
      have h1 := h i
      rw [mine_cons_self, List.pairwise_cons] at h1
      exact h1.1 d (mem_mine.2 hy)
    · have h1 := h i
      obtain ⟨j, c⟩ := x
      by_cases hj : i = j
      · subst hj
        rw [mine_cons_self, List.pairwise_cons] at h1
        exact h1.2
      · rwa [mine_cons_ne hj] at h1

/-! ### C96 -/

/-- The start state: no pools yet. -/
def start : Pools × Live := (⟨[], 0⟩, [])

/-- C96: after any sequence of actions on any number of pools, every live allocation lies with its
header and guard word inside its pool, no two of them overlap in memory, the guard words are intact,
and the free blocks of every pool are those no allocation takes.  The only way not to get there is
the undefined shift of C16. -/
theorem C96_apart {e : Env} (hrej : e.Rejects) (as : List MAct) :
    (¬ e.Defined ∧ mrun e as start = none) ∨
    ∃ s live, mrun e as start = some (s, live) ∧
      (∀ x ∈ live, ∃ b p, s.pools[x.1]? = some (b, p) ∧ addrOf s.pools x = some (b + x.2.ptr) ∧
        16 ≤ x.2.ptr ∧ x.2.ptr + x.2.size + 4 ≤ 1024 * p.bitmap.length ∧ Guarded p.mem x.2) ∧
      live.Pairwise (fun x y => ∀ a b, addrOf s.pools x = some a → addrOf s.pools y = some b →
        a + x.2.size + 4 ≤ b - 16 ∨ b + y.2.size + 4 ≤ a - 16) ∧
      ∀ i b p, s.pools[i]? = some (b, p) →
        p.free + ((live.filter (·.1 == i)).map fun x => (x.2.size + 20 + 31) / 32).sum =
          32 * p.bitmap.length := by
  rcases mrun_inv hrej as (s := start) ginv_nil (Or.inl rfl) with hu | ⟨⟨s, live⟩, e1, h1, h2⟩
  · exact Or.inl hu
  · right
    dsimp only at h1 h2
    have hin : ∀ x ∈ live, ∃ b p, s.pools[x.1]? = some (b, p) ∧
        addrOf s.pools x = some (b + x.2.ptr) ∧ 16 ≤ x.2.ptr ∧
        x.2.ptr + x.2.size + 4 ≤ 1024 * p.bitmap.length ∧ Guarded p.mem x.2 := by
      intro x hx
      have hlt := h1.tag x hx
      obtain ⟨b, p, hp⟩ : ∃ b p, s.pools[x.1]? = some (b, p) :=
        ⟨s.pools[x.1].1, s.pools[x.1].2, by rw [List.getElem?_eq_getElem hlt]⟩
      obtain ⟨g1, g2, g3⟩ := h1.pool _ b p hp
      obtain ⟨a1, a2, a3, a4⟩ := g1.at_ x.2 (mem_mine.2 hx)
      unfold Chunk.blocks at a4
      exact ⟨b, p, hp, by simp [addrOf, hp], a1, by omega, g1.guarded x.2 (mem_mine.2 hx)⟩
    refine ⟨s, live, e1, hin, ?_, ?_⟩
    · have hpw : live.Pairwise (fun x y => x.1 = y.1 →
          ((x.2.ptr - 16) / 32 + x.2.blocks ≤ (y.2.ptr - 16) / 32 ∨
            (y.2.ptr - 16) / 32 + y.2.blocks ≤ (x.2.ptr - 16) / 32)) := by
        apply pairwise_mine (R := fun c d => (c.ptr - 16) / 32 + c.blocks ≤ (d.ptr - 16) / 32 ∨
          (d.ptr - 16) / 32 + d.blocks ≤ (c.ptr - 16) / 32)
        intro i
        by_cases hi : i < s.pools.length
        · exact (h1.pool i s.pools[i].1 s.pools[i].2 (by rw [List.getElem?_eq_getElem hi])).1.apart
        · have : mine i live = [] := by
            rw [List.eq_nil_iff_forall_not_mem]
            intro c hc
            exact hi (h1.tag _ (mem_mine.1 hc))
          rw [this]
          exact List.Pairwise.nil
      refine hpw.imp_of_mem ?_
      intro x y hx hy hxy a b ha hb
      obtain ⟨b1, p1, q1, q2, q3, q4, _⟩ := hin x hx
      obtain ⟨b2, p2, r1, r2, r3, r4, _⟩ := hin y hy
      rw [q2] at ha
      rw [r2] at hb
      cases ha
      cases hb
      by_cases hi : x.1 = y.1
      · have := hxy hi
        rw [hi, r1] at q1
        cases q1
        obtain ⟨a1, a2, a3, a4⟩ := (h1.pool _ _ _ r1).1.at_ y.2 (mem_mine.2 hy)
        have hx' : (y.1, x.2) ∈ live := by rw [← hi]; exact hx
        obtain ⟨c1, c2, c3, c4⟩ := (h1.pool _ _ _ r1).1.at_ x.2 (mem_mine.2 hx')
        unfold Chunk.blocks at this
        omega
      · have := h1.apart _ _ _ _ _ _ hi q1 r1
        omega
    · intro i b p hp
      have := (h1.pool i b p hp).1.sum
      unfold total at this
      rw [show ((live.filter (·.1 == i)).map fun x => (x.2.size + 20 + 31) / 32) =
        (mine i live).map Chunk.blocks by simp [mine, List.map_map, Function.comp_def, Chunk.blocks]]
      exact this

theorem reached_inv {e : Env} (hrej : e.Rejects) {as : List MAct} {s : Pools} {live : Live}
    (hr : mrun e as start = some (s, live)) :
    GInv s.pools live ∧ (s.last = 0 ∨ s.last < s.pools.length) := by
  rcases mrun_inv hrej as (s := start) ginv_nil (Or.inl rfl) with ⟨_, e1⟩ | ⟨s', e1, h1, h2⟩
  · rw [hr] at e1; cases e1
  · rw [hr] at e1
    cases e1
    exact ⟨h1, h2⟩

/-- C96: where the shift has a result every sequence of actions goes through. -/
theorem C96_defined {e : Env} (he : e = wrapping ∨ e = bsfSame) (as : List MAct) :
    e.Rejects ∧ mrun e as start ≠ none := by
  have h : e.Rejects ∧ e.Defined := by
    rcases he with rfl | rfl
    · exact ⟨wrapping_rejects, wrapping_defined⟩
    · exact ⟨bsfSame_rejects, bsfSame_defined⟩
  refine ⟨h.1, ?_⟩
  rcases mrun_inv h.1 as (s := start) ginv_nil (Or.inl rfl) with ⟨hd, _⟩ | ⟨s', e1, _⟩
  · exact absurd h.2 hd
  · rw [e1]
    exact fun h => by cases h

/-- C96: a call hands out zeroed memory and leaves the bytes of all other allocations, and the
addresses of the pools, alone.  So does one that returns NULL. -/
theorem C96_zero {e : Env} (hrej : e.Rejects) {as : List MAct} {s s' : Pools} {live : Live}
    (hr : mrun e as start = some (s, live)) {size : Nat} {r : Option (Nat × Nat)}
    (ha : smalloc e size s = some (r, s')) :
    (∀ i o, r = some (i, o) → content s'.pools (i, ⟨o, size⟩) = some (List.replicate size 0)) ∧
    ∀ x ∈ live, content s'.pools x = content s.pools x ∧ content s.pools x ≠ none ∧
      addrOf s'.pools x = addrOf s.pools x := by
  obtain ⟨h1, h2⟩ := reached_inv hrej hr
  have key : ∀ (hk : Keeps s.pools s'.pools live) (hsm : SameMap s.pools s'.pools),
      ∀ x ∈ live, content s'.pools x = content s.pools x ∧ content s.pools x ≠ none ∧
        addrOf s'.pools x = addrOf s.pools x := by
    intro hk hsm x hx
    have hlt := h1.tag x hx
    obtain ⟨b, p, hp⟩ : ∃ b p, s.pools[x.1]? = some (b, p) :=
      ⟨s.pools[x.1].1, s.pools[x.1].2, by rw [List.getElem?_eq_getElem hlt]⟩
    obtain ⟨p', hp', _⟩ := hsm.2 _ _ _ hp
    refine ⟨hk x hx, ?_, by simp [addrOf, hp, hp']⟩
    obtain ⟨g1, _, _⟩ := h1.pool _ b p hp
    obtain ⟨a1, a2, a3, a4⟩ := g1.at_ x.2 (mem_mine.2 hx)
    unfold Chunk.blocks at a4
    have hm := g1.mem
    simp only [content, hp, Option.bind_some]
    unfold memRead
    rw [if_pos (by omega)]
    exact fun h => by cases h
  rcases smalloc_spec (size := size) hrej h1 h2 with ⟨_, e1⟩ | ⟨s2, e1, f1, f2, f3, f4, f5⟩ |
    ⟨s2, k, o, e1, _, f1, f2, f3, f4, f5⟩
  · rw [ha] at e1; cases e1
  · rw [ha] at e1
    cases e1
    exact ⟨(fun i o h => by cases h), key f2 f3⟩
  · rw [ha] at e1
    cases e1
    exact ⟨(fun i o h => by cases h; exact f5), key f2 f3⟩

/-- C96: giving an allocation back by its address works whatever pool it is in, and leaves every
byte alone. -/
theorem C96_free {e : Env} (hrej : e.Rejects) {as : List MAct} {s : Pools} {live : Live}
    (hr : mrun e as start = some (s, live)) {x : Nat × Chunk} (hx : x ∈ live) :
    ∃ a s', addrOf s.pools x = some a ∧ sfree e a s = some s' ∧
      (∀ y, content s'.pools y = content s.pools y) ∧
      ∀ i b p, s.pools[i]? = some (b, p) → ∃ p', s'.pools[i]? = some (b, p') ∧
        p'.free = p.free + (if i = x.1 then (x.2.size + 20 + 31) / 32 else 0) := by
  obtain ⟨h1, h2⟩ := reached_inv hrej hr
  have hlt := h1.tag x hx
  obtain ⟨b, p, hp⟩ : ∃ b p, s.pools[x.1]? = some (b, p) :=
    ⟨s.pools[x.1].1, s.pools[x.1].2, by rw [List.getElem?_eq_getElem hlt]⟩
  obtain ⟨p', f1, f2, f3, f4, f5⟩ := sfree_spec e h1 hx hp
  refine ⟨b + x.2.ptr, _, by simp [addrOf, hp], f1, ?_, ?_⟩
  · intro y
    by_cases hy : y.1 = x.1
    · simp only [content, hy, List.getElem?_set_self hlt, hp, Option.bind_some, f4]
    · exact content_set_ne hy
  · intro i b' q hq
    by_cases hi : i = x.1
    · subst hi
      rw [hp] at hq
      cases hq
      refine ⟨p', List.getElem?_set_self hlt, ?_⟩
      rw [if_pos rfl]
      have s1 := (h1.pool _ _ _ hp).1.sum
      have s2 := (f3.pool x.1 b p' (List.getElem?_set_self hlt)).1.sum
      have hm : mine x.1 (live.erase x) = (mine x.1 live).erase x.2 := mine_erase_self _ _ _
      rw [hm, f5] at s2
      have hc := mem_mine.2 hx
      have h3 : total Chunk.blocks (mine x.1 live) =
          x.2.blocks + total Chunk.blocks ((mine x.1 live).erase x.2) := by
        unfold total
        rw [((List.perm_cons_erase hc).map Chunk.blocks).sum_nat, List.map_cons, List.sum_cons]
      have h4 : x.2.blocks = (x.2.size + 20 + 31) / 32 := rfl
      omega
    · refine ⟨q, ?_, by rw [if_neg hi]; rfl⟩
      simp only
      rw [List.getElem?_set_ne (Ne.symm hi)]
      exact hq

/-- C96: NULL means that every pool refused the request, whatever `last_pool` was. -/
theorem C96_null {e : Env} (hrej : e.Rejects) {as : List MAct} {s s' : Pools} {live : Live}
    (hr : mrun e as start = some (s, live)) {size : Nat} (hs : size < 2 ^ 32)
    (ha : smalloc e size s = some (none, s')) :
    ∀ (i b : Nat) (p : Pool), s.pools[i]? = some (b, p) → ∃ p', alloc e size p = some (none, p') := by
  obtain ⟨h1, h2⟩ := reached_inv hrej hr
  rcases smalloc_spec (size := size) hrej h1 h2 with ⟨_, e1⟩ | ⟨s2, e1, f1, f2, f3, f4, f5⟩ |
    ⟨s2, k, o, e1, _, f1, f2, f3, f4, f5⟩
  · rw [ha] at e1; cases e1
  · exact f5 hs
  · rw [ha] at e1; cases e1

/-- C96: a request is served if some pool has a run of free blocks twice as long as the request,
plus `ffz(-1)` blocks.  What is missing to the full statement, that a run as long as the request is
enough, is not so (`C96_skips_counterexample`). -/
theorem C96_finds_partial {e : Env} (he : e = wrapping ∨ e = bsfSame) {as : List MAct} {s : Pools}
    {live : Live} (hr : mrun e as start = some (s, live)) {size : Nat} (hs : size < 2 ^ 32)
    {i b : Nat} {p : Pool} (hp : s.pools[i]? = some (b, p)) {a L : Nat}
    (hL : e.z + 2 * ((size + 20 + 31) / 32) ≤ L) (hin : a + L ≤ 32 * p.bitmap.length)
    (hfree : ∀ k, a ≤ k → k < a + L → ∀ x ∈ live, x.1 = i →
      k < (x.2.ptr - 16) / 32 ∨ (x.2.ptr - 16) / 32 + (x.2.size + 20 + 31) / 32 ≤ k) :
    ∃ r s', smalloc e size s = some (some r, s') := by
  have hd : e.Rejects ∧ e.Defined := by
    rcases he with rfl | rfl
    · exact ⟨wrapping_rejects, wrapping_defined⟩
    · exact ⟨bsfSame_rejects, bsfSame_defined⟩
  obtain ⟨h1, h2⟩ := reached_inv hd.1 hr
  obtain ⟨g1, g2, g3⟩ := h1.pool i b p hp
  obtain ⟨o, p', hal⟩ := alloc_finds hd.1 hd.2 g1 g2 hs hL hin (by
    intro k k1 k2
    rw [← Bool.not_eq_true, g1.bits k]
    rintro ⟨c, c1, c2, c3⟩
    have := hfree k k1 k2 (i, c) (mem_mine.1 c1) rfl
    unfold Chunk.blocks at c3
    dsimp only at this
    omega)
  rcases smalloc_spec (size := size) hd.1 h1 h2 with ⟨hu, _⟩ | ⟨s2, e1, f1, f2, f3, f4, f5⟩ |
    ⟨s2, k, o, e1, _⟩
  · exact absurd hd.2 hu
  · obtain ⟨p2, h3⟩ := f5 hs i b p hp
    rw [hal] at h3
    cases h3
  · exact ⟨_, _, e1⟩

/-- C96: two pools; the first one is full after one allocation, the second one serves the next; both
are given back. -/
theorem C96_case :
    ((mrun wrapping [.add 4096 1 (List.replicate 1024 7), .add 8192 1 (List.replicate 1024 7),
        .alloc 1000, .alloc 100, .write 0 3 [1, 2], .alloc 2000, .free 1, .alloc 960] start).any
      fun s => decide (s.1.last = 0) && decide (s.2 = [(0, ⟨16, 960⟩), (1, ⟨16, 100⟩)]) &&
        decide (s.1.pools.map (fun bp => (bp.1, bp.2.free)) = [(4096, 1), (8192, 28)]) &&
        decide (s.1.pools.map (fun bp => bp.2.bitmap) = [[0x7fffffff#32], [0xf#32]])) = true := by
  decide +kernel

/-- The hypotheses of `C96_finds_partial` are met: three words, the first three blocks taken, and a
request for two blocks; with `ffz(-1) = 0` four free blocks would be enough. -/
example : ∃ s live b p, mrun wrapping [.add 4096 3 (List.replicate 3072 0), .alloc 70] start =
      some (s, live) ∧ s.pools[0]? = some (b, p) ∧ 3 + 67 ≤ 32 * p.bitmap.length ∧
      wrapping.z + 2 * ((40 + 20 + 31) / 32) ≤ 67 ∧
      ∀ k, 3 ≤ k → k < 3 + 67 → ∀ x ∈ live, x.1 = 0 →
        k < (x.2.ptr - 16) / 32 ∨ (x.2.ptr - 16) / 32 + (x.2.size + 20 + 31) / 32 ≤ k := by
  have h : ((mrun wrapping [.add 4096 3 (List.replicate 3072 0), .alloc 70] start).any fun s =>
      decide (s.2 = [(0, ⟨16, 70⟩)]) &&
        decide (s.1.pools[0]?.map (·.2.bitmap.length) = some 3)) = true := by decide +kernel
  rw [Option.any_eq_true] at h
  obtain ⟨⟨s, live⟩, h1, h2⟩ := h
  simp only [Bool.and_eq_true, decide_eq_true_eq] at h2
  obtain ⟨rfl, h3⟩ := h2
  obtain ⟨bp, h4, h5⟩ := Option.map_eq_some_iff.1 h3
  refine ⟨s, _, bp.1, bp.2, h1, h4, by omega, by decide, ?_⟩
  intro k k1 k2 x hx _
  simp only [List.mem_cons, List.not_mem_nil, or_false] at hx
  subst hx
  right
  simp only
  omega

/-- C96, where the claim fails: in a pool of one word with only blocks 0, 2, 3, 4 and 31 free, a
request for three blocks gets NULL although blocks 2 to 4 are free: having found block 0 too small,
the search goes on at block 3. -/
theorem C96_skips_counterexample :
    ((mrun wrapping ([.add 4096 1 (List.replicate 1024 0)] ++ List.replicate 32 (.alloc 8) ++
        [.free 31, .free 29, .free 28, .free 27, .free 0]) start).bind fun s =>
      (smalloc wrapping 70 s.1).map fun r =>
        (s.1.pools.map (fun bp => (bp.2.bitmap, bp.2.free)), r.1)) =
    some ([([0x7fffffe2#32], 5)], none) := by
  decide +kernel

/-! ### Several calls at a time -/

/-- `n` steps of one call. -/
def callRun (room : Nat → Bool) (nr : Nat) : Nat → Nat × Pc → Nat × Pc
  | 0, s => s
  | n + 1, s => callRun room nr n (callStep room nr s.1 s.2)

theorem callRun_add (room : Nat → Bool) (nr : Nat) (m n : Nat) (s : Nat × Pc) :
    callRun room nr (m + n) s = callRun room nr n (callRun room nr m s) := by
  induction m generalizing s with
  | zero => rw [Nat.zero_add]; rfl
  | succ m ih =>
    rw [Nat.succ_add]
    exact ih _

/-- The inner loop runs to its end or to the first pool with room. -/
theorem call_loop (room : Nat → Bool) (nr last : Nat) : ∀ (n i fin : Nat), fin - i = n → i ≤ fin →
    (∃ m k, callRun room nr m (last, .loop i fin) = (k, .done (some k)) ∧ room k = true ∧ k < fin) ∨
    ((∀ k, i ≤ k → k < fin → room k = false) ∧
      ∃ m, callRun room nr m (last, .loop i fin) = (last, .check fin))
  | 0, i, fin, h, hle => by
    right
    have : i = fin := by omega
    subst this
    exact ⟨fun k h1 h2 => by omega, 1, by simp [callRun, callStep]⟩
  | n + 1, i, fin, h, hle => by
    have hlt : i < fin := by omega
    by_cases hr : room i = true
    · left
      exact ⟨2, i, by simp [callRun, callStep, hlt, hr], hr, hlt⟩
    · have hr' : room i = false := by simpa using hr
      have h1 : callRun room nr 1 (last, .loop i fin) = (last, .loop (i + 1) fin) := by
        simp [callRun, callStep, hlt, hr']
      rcases call_loop room nr last n (i + 1) fin (by omega) (by omega) with
        ⟨m, k, h2, h3, h4⟩ | ⟨h2, m, h3⟩
      · left
        exact ⟨1 + m, k, by rw [callRun_add, h1]; exact h2, h3, h4⟩
      · right
        refine ⟨fun k k1 k2 => ?_, 1 + m, by rw [callRun_add, h1]; exact h3⟩
        by_cases hk : k = i
        · rw [hk]; exact hr'
        · exact h2 k (by omega) k2

/-- C96: a call that runs alone returns a pool with room, or NULL when no pool has room. -/
theorem C96_alone (room : Nat → Bool) (nr last : Nat) (hl : last ≤ nr) :
    ∃ m l r, callRun room nr m (last, .start) = (l, .done r) ∧
      (∀ k, r = some k → room k = true ∧ k < nr) ∧ (r = none → ∀ k, k < nr → room k = false) := by
  have h0 : callRun room nr 1 (last, .start) = (last, .loop last nr) := rfl
  rcases call_loop room nr last (nr - last) last nr rfl hl with ⟨m, k, h1, h2, h3⟩ | ⟨h1, m, h2⟩
  · refine ⟨1 + m, k, some k, by rw [callRun_add, h0]; exact h1, ?_, ?_⟩
    · intro j hj
      cases hj
      exact ⟨h2, h3⟩
    · intro h
      cases h
  · by_cases hz : last = 0
    · subst hz
      refine ⟨1 + m + 1, 0, none, ?_, (fun k h => by cases h), fun _ k hk => h1 k (by omega) hk⟩
      rw [callRun_add, callRun_add, h0, h2]
      rfl
    · have h3 : callRun room nr (1 + m + 3) (last, .start) = (0, .loop 0 last) := by
        rw [callRun_add, callRun_add, h0, h2]
        simp [callRun, callStep, hz]
      rcases call_loop room nr 0 last 0 last (by omega) (by omega) with
        ⟨m', k, g1, g2, g3⟩ | ⟨g1, m', g2⟩
      · refine ⟨1 + m + 3 + m', k, some k, by rw [callRun_add, h3]; exact g1, ?_, ?_⟩
        · intro j hj
          cases hj
          exact ⟨g2, by omega⟩
        · intro h
          cases h
      · refine ⟨1 + m + 3 + m' + 1, 0, none, ?_, (fun k h => by cases h), fun _ k hk => ?_⟩
        · rw [callRun_add, callRun_add, h3, g2]
          rfl
        · by_cases hk2 : last ≤ k
          · exact h1 k hk2 hk
          · exact g1 k (by omega) (by omega)

/-- C96, where the claim fails: `last_pool` is not protected.  Of three pools the last one is full
and `last_pool` is 2.  Two calls run side by side: the second one wraps around and sets `last_pool`
to 0 before the first one looks at it, so the first one returns NULL although pools 0 and 1 have
room. -/
theorem C96_race_counterexample :
    let room : Nat → Bool := fun i => i < 2
    ([0, 0, 0, 1, 1, 1, 1, 1, 1, 0, 1, 1].foldl (callsStep room 3) ⟨2, [.start, .start]⟩) =
      ⟨0, [.done none, .done (some 0)]⟩ ∧ room 0 = true ∧ room 1 = true := by
  decide +kernel

end Fio.Smalloc
