import Verif.Libaio.Spec

namespace Fio.Libaio

theorem and_pred_pow2 (n x : Nat) (h : isPow2 n = true) : x &&& (n - 1) = x % n := by
  have h' : n ≠ 0 ∧ n &&& (n - 1) = 0 := by simpa [isPow2] using h
  obtain ⟨k, hk⟩ := (Nat.and_sub_one_eq_zero_iff_isPowerOfTwo h'.1).1 h'.2
  rw [hk]; exact Nat.and_two_pow_sub_one_eq_mod x k

/-- The ring holds units `q`, the oldest at `tail`. -/
structure RInv (depth : Nat) (ld : Ld) (q : List Nat) : Prop where
  pos : 0 < depth
  ent : ld.entries = depth
  p2 : ld.pow2 = isPow2 ld.entries
  len : ld.iocbs.length = depth
  tail : ld.tail < depth
  cnt : q.length = ld.queued
  le : ld.queued ≤ depth
  head : ld.head = (ld.tail + ld.queued) % depth
  at_ : ∀ i u, q[i]? = some u → ld.iocbs[(ld.tail + i) % depth]? = some (some u)

theorem ringInc_eq {depth : Nat} {ld : Ld} {q : List Nat} (h : RInv depth ld q) (a b : Nat) :
    ringInc ld a b = (a + b) % depth := by
  unfold ringInc
  rw [h.p2, h.ent]
  split
  · rename_i hp; exact and_pred_pow2 _ _ hp
  · rfl

theorem slots_eq {depth : Nat} {ld : Ld} {q : List Nat} (h : RInv depth ld q) (n : Nat) : ∀ i, ld.tail + i + n ≤ depth →
    i + n ≤ q.length → slots ld.iocbs (ld.tail + i) n = some ((q.drop i).take n) := by
  induction n with
  | zero => intro i _ _; simp [slots]
  | succ n ih =>
    intro i h1 h2
    have hi : i < q.length := by omega
    have hg := h.at_ i q[i] (List.getElem?_eq_getElem hi)
    rw [Nat.mod_eq_of_lt (by omega)] at hg
    unfold slots
    rw [hg]
    dsimp only
    have := ih (i + 1) (by omega) (by omega)
    rw [← Nat.add_assoc] at this
    rw [this]
    rw [List.drop_eq_getElem_cons hi]
    rfl

/-- Everything about engine and kernel. -/
structure Inv (depth : Nat) (s : St) (q : List Nat) : Prop where
  r : RInv depth s.ld q
  kept : Kept s q

theorem Inv_init (depth : Nat) (h : 0 < depth) : Inv depth (init depth) [] := by
  constructor
  · constructor <;> simp [init, h]
  · constructor <;> simp [init]

theorem mod_inj {d t a b : Nat} (ha : a < d) (hb : b < d) (h : (t + a) % d = (t + b) % d) : a = b := by
  have h1 := Nat.div_add_mod (t + a) d
  have h2 := Nat.div_add_mod (t + b) d
  rw [h] at h1
  have hab : d * ((t + a) / d) + b = d * ((t + b) / d) + a := by omega
  rcases Nat.lt_trichotomy ((t + a) / d) ((t + b) / d) with hl | he | hl
  · have := Nat.mul_le_mul_left d hl
    rw [Nat.mul_succ] at this
    omega
  · rw [he] at hab; omega
  · have := Nat.mul_le_mul_left d hl
    rw [Nat.mul_succ] at this
    omega

theorem queue_inv {depth : Nat} {s : St} {q : List Nat} (h : Inv depth s q) (k : Kind) (u : Nat) :
    (∃ s', queue depth s k u = some (s', .queued) ∧ Inv depth s' (q ++ [u]) ∧ k = .data ∧ s'.acc = s.acc ++ [u] ∧
      s'.back = s.back ∧ s'.dropped = s.dropped) ∨
    (queue depth s k u = some (s, .busy) ∧ q ≠ []) ∨ (queue depth s k u = some (s, .completed) ∧ k ≠ .data ∧ q = []) := by
  have hr := h.r
  have hpos := hr.pos
  have hq := hr.cnt
  unfold queue
  by_cases hf : s.ld.queued = depth
  · right; left
    rw [if_pos hf]
    refine ⟨rfl, fun h0 => ?_⟩
    rw [h0] at hq; simp at hq; omega
  · rw [if_neg hf]
    by_cases hk : k = .data
    · left
      rw [if_neg (by simp [hk])]
      have hh : s.ld.head < s.ld.iocbs.length := by
        rw [hr.head, hr.len]; exact Nat.mod_lt _ hpos
      rw [if_pos hh]
      refine ⟨_, rfl, ⟨?_, ?_⟩, hk, rfl, rfl, rfl⟩
      · have hlt : s.ld.queued < depth := by have := hr.le; omega
        constructor
        · exact hpos
        · exact hr.ent
        · exact hr.p2
        · simp [hr.len]
        · exact hr.tail
        · simp [hq]
        · show s.ld.queued + 1 ≤ depth; omega
        · show ringInc s.ld s.ld.head 1 = (s.ld.tail + (s.ld.queued + 1)) % depth
          rw [ringInc_eq hr, hr.head, Nat.mod_add_mod]; rfl
        · intro i w hw
          show (s.ld.iocbs.set s.ld.head (some u))[(s.ld.tail + i) % depth]? = some (some w)
          rw [List.getElem?_set]
          by_cases hi : i < q.length
          · have hne : ¬ s.ld.head = (s.ld.tail + i) % depth := by
              intro he
              rw [hr.head] at he
              have := mod_inj (by omega) (by omega) he
              omega
            rw [if_neg hne]
            rw [List.getElem?_append_left hi] at hw
            exact hr.at_ i w hw
          · have hiq : i = q.length := by
              have : i < (q ++ [u]).length := by
                rcases List.getElem?_eq_some_iff.1 hw with ⟨h, _⟩; exact h
              simp at this; omega
            have hw' : w = u := by
              rw [hiq] at hw; simp at hw; exact hw.symm
            rw [hw']
            have he : s.ld.head = (s.ld.tail + i) % depth := by rw [hr.head, hiq, hq]
            rw [if_pos he, if_pos hh]
      · refine ⟨?_, h.kept.2⟩
        show s.sub ++ (q ++ [u]) = s.acc ++ [u]
        rw [← List.append_assoc, h.kept.1]
    · right
      rw [if_pos hk]
      by_cases hz : s.ld.queued = 0
      · right
        rw [if_neg (by simpa using hz)]
        exact ⟨rfl, hk, List.length_eq_zero_iff.1 (by rw [hq, hz])⟩
      · left
        rw [if_pos hz]
        exact ⟨rfl, fun h0 => hz (by rw [← hq, h0]; rfl)⟩

theorem take_inv {depth : Nat} {s : St} {q : List Nat} (h : Inv depth s q) (m : Nat) (hm : m ≤ q.length) :
    Inv depth (take s (q.take m)) (q.drop m) := by
  have hr := h.r
  have hl : (q.take m).length = m := by simp; omega
  have hq := hr.cnt
  constructor
  · constructor
    · exact hr.pos
    · exact hr.ent
    · exact hr.p2
    · exact hr.len
    · show ringInc s.ld s.ld.tail (q.take m).length < depth
      rw [ringInc_eq hr]; exact Nat.mod_lt _ hr.pos
    · show (q.drop m).length = s.ld.queued - (q.take m).length
      rw [hl]; simp [hq]
    · show s.ld.queued - (q.take m).length ≤ depth
      have := hr.le; omega
    · show s.ld.head = (ringInc s.ld s.ld.tail (q.take m).length + (s.ld.queued - (q.take m).length)) % depth
      rw [ringInc_eq hr, hl, Nat.mod_add_mod, hr.head]
      congr 1; omega
    · intro i u hu
      show s.ld.iocbs[(ringInc s.ld s.ld.tail (q.take m).length + i) % depth]? = some (some u)
      rw [ringInc_eq hr, hl, Nat.mod_add_mod, Nat.add_assoc]
      rw [List.getElem?_drop] at hu
      exact hr.at_ _ _ hu
  · refine ⟨?_, ?_⟩
    · show s.sub ++ q.take m ++ q.drop m = s.acc
      rw [List.append_assoc, List.take_append_drop, h.kept.1]
    · show (s.back.map (·.unit) ++ s.dropped.map (·.unit) ++ (s.fly ++ q.take m)).Perm (s.sub ++ q.take m)
      rw [← List.append_assoc]
      exact h.kept.2.append_right _

/-- What a commit leaves alone. -/
def SameEnds (s s' : St) : Prop := s'.acc = s.acc ∧ s'.back = s.back ∧ s'.dropped = s.dropped ∧ s'.ld.entries = s.ld.entries

/-- The kernel was short of something (or an error without a number). -/
def GaveUp (as : List SRes) : Prop := SRes.again ∈ as ∨ SRes.nomem ∈ as ∨ SRes.err 0 ∈ as

theorem GaveUp.cons {as : List SRes} (a : SRes) (h : GaveUp as) : GaveUp (a :: as) := by
  rcases h with h | h | h
  · exact Or.inl (List.mem_cons_of_mem _ h)
  · exact Or.inr (Or.inl (List.mem_cons_of_mem _ h))
  · exact Or.inr (Or.inr (List.mem_cons_of_mem _ h))

theorem commitLoop_inv {depth : Nat} (as : List SRes) : ∀ {s : St} {q : List Nat}, Inv depth s q → q ≠ [] →
    commitLoop as s = .running ∨ ∃ s' r q', commitLoop as s = .ok (s', r) ∧ Inv depth s' q' ∧ SameEnds s s' ∧
      (∃ n, q' = q.drop n) ∧ (r = 0 → GaveUp as ∨ q' = []) := by
  induction as with
  | nil => intro s q _ _; left; rfl
  | cons a as ih =>
    intro s q h hne
    have hr := h.r
    have hq := hr.cnt
    have hz : s.ld.queued ≠ 0 := by
      rw [← hq]; exact fun h0 => hne (List.length_eq_zero_iff.1 h0)
    have hs := slots_eq hr (min s.ld.queued (s.ld.entries - s.ld.tail)) 0
      (by rw [hr.ent]; have := hr.tail; omega) (by omega)
    simp only [Nat.add_zero, List.drop_zero] at hs
    have shift : (commitLoop as s = .running ∨ ∃ s' r q', commitLoop as s = .ok (s', r) ∧ Inv depth s' q' ∧
        SameEnds s s' ∧ (∃ n, q' = q.drop n) ∧
        (r = 0 → GaveUp as ∨ q' = [])) →
        (commitLoop as s = .running ∨ ∃ s' r q', commitLoop as s = .ok (s', r) ∧ Inv depth s' q' ∧
        SameEnds s s' ∧ (∃ n, q' = q.drop n) ∧
        (r = 0 → GaveUp (a :: as) ∨ q' = [])) := by
      rintro (h | ⟨s', r, q', h1, h2, h3, h4, h5⟩)
      · exact Or.inl h
      · right
        refine ⟨s', r, q', h1, h2, h3, h4, fun hr => ?_⟩
        rcases h5 hr with hn | h5
        · exact Or.inl (hn.cons _)
        · exact Or.inr h5
    have same : SameEnds s s := ⟨rfl, rfl, rfl, rfl⟩
    unfold commitLoop
    dsimp only
    rw [hs]
    dsimp only
    cases a with
    | took n =>
      dsimp only
      by_cases hn : min n (min s.ld.queued (s.ld.entries - s.ld.tail)) > 0
      · rw [if_pos hn, List.take_take]
        generalize hm : min n (min s.ld.queued (s.ld.entries - s.ld.tail)) = m at hn
        have hmq : m ≤ q.length := by omega
        have hi := take_inv h m hmq
        have hqq : (take s (q.take m)).ld.queued = q.length - m := by
          rw [← hi.r.cnt]; simp
        by_cases hd : q.length - m = 0
        · right
          rw [if_neg (by rw [hqq]; simpa using hd)]
          refine ⟨_, 0, q.drop m, rfl, hi, ⟨rfl, rfl, rfl, rfl⟩, ⟨m, rfl⟩, fun _ => Or.inr ?_⟩
          exact List.length_eq_zero_iff.1 (by simp; omega)
        · rw [if_pos (by rw [hqq]; exact hd)]
          rcases ih hi (fun h0 => hd (by have := congrArg List.length h0; simpa using this)) with
            h1 | ⟨s', r, q', h1, h2, h3, ⟨n', h4⟩, h5⟩
          · exact Or.inl h1
          · right
            refine ⟨s', r, q', h1, h2, h3, ⟨m + n', by rw [h4, List.drop_drop]⟩, fun hr => ?_⟩
            rcases h5 hr with hn | h5
            · exact Or.inl (hn.cons _)
            · exact Or.inr h5
      · rw [if_neg hn, if_pos hz]
        exact shift (ih h hne)
    | intr =>
      dsimp only
      rw [if_pos hz]
      exact shift (ih h hne)
    | again =>
      right
      dsimp only
      rw [if_pos hz]
      exact ⟨s, 0, q, rfl, h, same, ⟨0, rfl⟩, fun _ => Or.inl (Or.inl (List.mem_cons_self ..))⟩
    | nomem =>
      right
      dsimp only
      rw [if_pos hz]
      exact ⟨s, 0, q, rfl, h, same, ⟨0, rfl⟩, fun _ => Or.inl (Or.inr (Or.inl (List.mem_cons_self ..)))⟩
    | err e =>
      right
      refine ⟨s, -e, q, rfl, h, same, ⟨0, rfl⟩, fun hr => ?_⟩
      have : e = 0 := by omega
      exact Or.inl (Or.inr (Or.inr (by simp [this])))

end Fio.Libaio
