import Verif.Json.Model

/-!
# C46: the output buffer

Any sequence of additions stays inside the buffer, and the buffer holds the pieces one after the other.
-/

namespace Fio.Json

/-- Add the pieces one by one. -/
def bufAddAll (o : Buf) : List (List Nat) → Option Buf
  | [] => some o
  | d :: ds => do bufAddAll (← bufAdd o d) ds

/-- The buffer holds exactly `xs`, and zeros after it. -/
structure Holds (o : Buf) (xs : List Nat) : Prop where
  len : o.buflen = xs.length
  cap : o.buflen ≤ o.maxBuflen
  cells : o.buf = xs.map some ++ List.replicate (o.maxBuflen - o.buflen) (some 0)

theorem holds_init : Holds bufInit [] := ⟨rfl, Nat.le_refl _, rfl⟩

theorem writeAt_append (a b c : List (Option Nat)) (off : Nat) (hoff : off = a.length) (hb : b.length ≤ c.length) :
    writeAt (a ++ c) off b = some (a ++ (b ++ c.drop b.length)) := by
  subst hoff
  unfold writeAt
  rw [if_pos (by simp; exact hb)]
  simp

theorem bufAdd_holds {o : Buf} {xs : List Nat} (h : Holds o xs) (d : List Nat) :
    ∃ o', bufAdd o d = some o' ∧ Holds o' (xs ++ d) ∧ o.maxBuflen ≤ o'.maxBuflen := by
  obtain ⟨len, cap, cells⟩ := h
  obtain ⟨buf, bl, mx⟩ := o
  simp only at len cap cells
  subst cells
  unfold bufAdd
  by_cases hg : mx - bl < d.length
  · simp only [hg, if_true]
    have hneed : 1 ≤ max 1024 (d.length - (mx - bl)) := by omega
    have hneed2 : d.length - (mx - bl) ≤ max 1024 (d.length - (mx - bl)) := Nat.le_max_right _ _
    generalize max 1024 (d.length - (mx - bl)) = need at *
    have hmax : max mx (bl + d.length) = bl + d.length := by omega
    rw [hmax, if_pos (by omega)]
    have hre : realloc (xs.map some ++ List.replicate (mx - bl) (some 0)) (mx + need) =
        xs.map some ++ (List.replicate (mx - bl) (some 0) ++ List.replicate need none) := by
      unfold realloc
      rw [List.take_of_length_le (by simp; omega), List.append_assoc]
      congr 3
      simp; omega
    rw [hre]
    have hsplit : List.replicate (mx - bl) (some 0) ++ List.replicate need none =
        (List.replicate (mx - bl) (some 0) ++ List.replicate (bl + d.length - mx) (none : Option Nat)) ++
          List.replicate (mx + need - (bl + d.length)) none := by
      rw [List.append_assoc, List.replicate_append_replicate]
      congr 2
      omega
    rw [hsplit, ← List.append_assoc, writeAt_append _ _ _ _ (by simp; omega) (by simp)]
    simp only [List.length_replicate, List.drop_replicate, Nat.sub_self, List.replicate_zero, List.append_nil,
      Option.bind_eq_bind, Option.bind_some]
    rw [List.append_assoc, writeAt_append _ _ _ _ (by simp [len]) (by simp; omega)]
    refine ⟨_, rfl, ⟨by simp [len], by simp; omega, ?_⟩, by simp⟩
    simp only [List.length_map, List.map_append, List.append_assoc]
    congr 2
    rw [← List.append_assoc, List.drop_append, List.drop_of_length_le (by simp; omega)]
    simp
    omega
  · simp only [hg, if_false, Option.bind_eq_bind, Option.bind_some]
    rw [writeAt_append _ _ _ _ (by simp [len]) (by simp; omega)]
    refine ⟨_, rfl, ⟨by simp [len], by simp; omega, ?_⟩, Nat.le_refl _⟩
    simp only [List.length_map, List.map_append, List.append_assoc, List.drop_replicate]
    congr 3
    omega

theorem bufAddAll_holds {o : Buf} {xs : List Nat} (h : Holds o xs) (ds : List (List Nat)) :
    ∃ o', bufAddAll o ds = some o' ∧ Holds o' (xs ++ ds.flatten) := by
  induction ds generalizing o xs with
  | nil => exact ⟨o, rfl, by simpa using h⟩
  | cons d ds ih =>
    obtain ⟨o1, h1, h2, _⟩ := bufAdd_holds h d
    obtain ⟨o2, h3, h4⟩ := ih h2
    refine ⟨o2, by simp [bufAddAll, h1, h3], ?_⟩
    simpa [List.append_assoc] using h4

/-- C46: whatever pieces are added to a fresh buffer, every write is inside the allocation and the first `buflen`
bytes are the pieces one after the other; the bytes after them are zero. -/
theorem C46_contents (ds : List (List Nat)) : ∃ o, bufAddAll bufInit ds = some o ∧
    o.buflen = ds.flatten.length ∧ o.buf.length = o.maxBuflen ∧ o.buflen ≤ o.maxBuflen ∧
    o.buf.take o.buflen = ds.flatten.map some ∧ ∀ i, o.buflen ≤ i → i < o.maxBuflen → o.buf[i]? = some (some 0) := by
  obtain ⟨o, h, hl, hc, hb⟩ := bufAddAll_holds holds_init ds
  simp only [List.nil_append] at hl hb
  generalize ds.flatten = xs at *
  refine ⟨o, h, hl, ?_, hc, ?_, ?_⟩
  · rw [hb]; simp only [List.length_append, List.length_map, List.length_replicate]; omega
  · rw [hb, hl, List.take_append_of_le_length (by simp), List.take_of_length_le (by simp)]
  · intro i h1 h2
    rw [hb, List.getElem?_append_right (by simp; omega)]
    simp only [List.length_map, List.getElem?_replicate]
    rw [if_pos (by omega)]

/-- The capacity after an addition, from the code. -/
theorem bufAdd_max {o o' : Buf} {d : List Nat} (ha : bufAdd o d = some o') :
    o'.maxBuflen = if o.maxBuflen - o.buflen < d.length then o.maxBuflen + max 1024 (d.length - (o.maxBuflen - o.buflen))
      else o.maxBuflen := by
  unfold bufAdd at ha
  by_cases hg : o.maxBuflen - o.buflen < d.length
  · rw [if_pos hg]
    simp only [hg, if_true, Option.bind_eq_bind, Option.bind_eq_some_iff] at ha
    obtain ⟨p, _, r, hr, q, _, ho⟩ := ha
    rw [← Option.some.inj ho, ← Option.some.inj hr]
  · rw [if_neg hg]
    simp only [hg, if_false, Option.bind_eq_bind, Option.bind_some, Option.bind_eq_some_iff] at ha
    obtain ⟨r, _, ho⟩ := ha
    rw [← Option.some.inj ho]

/-- C46: the buffer grows only when the piece does not fit, and then by at least 1024 bytes. -/
theorem C46_grow {o o' : Buf} {xs d : List Nat} (h : Holds o xs) (ha : bufAdd o d = some o') :
    (o.buflen + d.length ≤ o.maxBuflen → o'.maxBuflen = o.maxBuflen) ∧
    (o.maxBuflen < o.buflen + d.length → o'.maxBuflen = max (o.maxBuflen + 1024) (o.buflen + d.length)) := by
  have hc := h.cap
  have hm := bufAdd_max ha
  constructor
  · intro hl
    rw [hm, if_neg (by omega)]
  · intro hl
    rw [hm, if_pos (by omega)]
    omega

/-- A buffer of 1024 bytes, full. -/
theorem full_1024 : ∃ o, bufAddAll bufInit [List.replicate 1024 65] = some o ∧ o.maxBuflen = 1024 ∧
    Holds o (List.replicate 1024 65) := by
  obtain ⟨o, h, h1, _⟩ := bufAdd_holds holds_init (List.replicate 1024 65)
  have := (C46_grow holds_init h).2 (by rw [List.length_replicate]; decide)
  rw [List.length_replicate] at this
  rw [List.nil_append] at h1
  have this : o.maxBuflen = 1024 := by
    rw [this]
    unfold bufInit
    decide
  refine ⟨o, ?_, this, h1⟩
  unfold bufAddAll
  rw [h]
  rfl

/-- C46 in a concrete case: one more byte makes the buffer grow to 2048 bytes. -/
example : ∃ o o', bufAddAll bufInit [List.replicate 1024 65] = some o ∧ bufAdd o [66] = some o' ∧
    o'.maxBuflen = 2048 ∧ o'.buflen = 1025 := by
  obtain ⟨o, h, h1, h2⟩ := full_1024
  obtain ⟨o', h3, h4, _⟩ := bufAdd_holds h2 [66]
  have hl := h2.len
  have hl' := h4.len
  rw [List.length_replicate] at hl
  rw [List.length_append, List.length_replicate] at hl'
  refine ⟨o, o', h, h3, ?_, hl'⟩
  have := (C46_grow h2 h3).2 (by rw [hl, h1]; decide)
  rw [this, h1, hl]
  decide

/-- The buffer is not always a C string: after exactly 1024 bytes there is no NUL (log.c:26 passes it to `%s`). -/
theorem C46_nul_counterexample : ∃ ds o, bufAddAll bufInit ds = some o ∧ (∀ d ∈ ds, 0 ∉ d) ∧ some 0 ∉ o.buf := by
  obtain ⟨o, h, h1, h2⟩ := full_1024
  have hl := h2.len
  have hb := h2.cells
  rw [List.length_replicate] at hl
  refine ⟨_, o, h, ?_, ?_⟩
  · intro d hd
    rw [List.mem_singleton.mp hd]
    intro h0
    exact absurd (List.eq_of_mem_replicate h0) (by decide)
  · rw [hb, h1, hl, Nat.sub_self, List.replicate_zero, List.append_nil]
    intro h0
    obtain ⟨x, hx, hx2⟩ := List.mem_map.mp h0
    have := List.eq_of_mem_replicate hx
    have := Option.some.inj hx2
    omega

end Fio.Json
