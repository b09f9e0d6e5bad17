import Verif.Seq.Model
/-!
# C93: the time read is a time that was written
-/

namespace Fio.Seq

namespace Spec

/-- The time in force after `n` updates: nothing at first, then that of the last update. -/
def time (h : Nat → Nat × Nat) : Nat → Nat × Nat
  | 0 => (0, 0)
  | n + 1 => ((h n).1, (h n).2 * 1000)

end Spec

open Spec

/-- The number after `m` stores. -/
def sq (m : Nat) : Nat := (2 * (m / 4) + if m % 4 = 0 then 0 else 1) % 2 ^ 32

/-- The `m`-th store. -/
def nth (h : Nat → Nat × Nat) (m : Nat) : Store :=
  if m % 4 = 0 then ⟨.seq, sq (m + 1), false⟩
  else if m % 4 = 1 then ⟨.sec, (h (m / 4)).1, false⟩
  else if m % 4 = 2 then ⟨.nsec, (h (m / 4)).2 * 1000, false⟩
  else ⟨.seq, sq (m + 1), true⟩

/-- The memory after `m` stores were seen in order. -/
def memAt (h : Nat → Nat × Nat) (m : Nat) : Mem := ⟨sq m, (time h ((m + 2) / 4)).1, (time h ((m + 1) / 4)).2⟩

/-- What is so of the writer and the memory. -/
structure Inv (h : Nat → Nat × Nat) (s : St) (n : Nat) : Prop where
  buf : s.buf = (List.range' s.seen n).map (nth h)
  mem : s.mem = memAt h s.seen
  k : s.k = (s.seen + n) / 4
  pc : s.pc = (s.seen + n) % 4
  wseq : s.wseq = sq (s.seen + n)

/-- What is so of the reader: each thing was loaded after some number of stores. -/
def Good (h : Nat → Nat × Nat) (seen : Nat) : Rd → Prop
  | .idle => True
  | .begin => True
  | .load st q => st ≤ seen ∧ q = sq st ∧ q % 2 = 0
  | .load2 st q o v => q = sq st ∧ q % 2 = 0 ∧ ∃ m, st ≤ m ∧ m ≤ seen ∧ v = if o then (memAt h m).sec else (memAt h m).nsec
  | .check st q a b => q = sq st ∧ q % 2 = 0 ∧ ∃ m m', st ≤ m ∧ m ≤ seen ∧ st ≤ m' ∧ m' ≤ seen ∧ a = (memAt h m).sec ∧ b = (memAt h m').nsec
  | .done st a b => sq st % 2 = 0 ∧ ∃ m m' e, st ≤ m ∧ m ≤ e ∧ st ≤ m' ∧ m' ≤ e ∧ e ≤ seen ∧ sq e = sq st ∧ a = (memAt h m).sec ∧ b = (memAt h m').nsec

theorem Good.mono (h : Nat → Nat × Nat) {n n' : Nat} (hn : n ≤ n') (r : Rd) (g : Good h n r) : Good h n' r := by
  cases r with
  | idle => trivial
  | begin => trivial
  | load st q => exact ⟨by have := g.1; omega, g.2⟩
  | load2 st q o v =>
    obtain ⟨g1, g2, m, g3, g4, g5⟩ := g
    exact ⟨g1, g2, m, g3, by omega, g5⟩
  | check st q a b =>
    obtain ⟨g1, g2, m, m', g3, g4, g5, g6, g7⟩ := g
    exact ⟨g1, g2, m, m', g3, by omega, g5, by omega, g7⟩
  | done st a b =>
    obtain ⟨g1, m, m', e, g2, g3, g4, g5, g6, g7⟩ := g
    exact ⟨g1, m, m', e, g2, g3, g4, g5, by omega, g7⟩

theorem sq_succ (m : Nat) (hm : m % 4 = 0 ∨ m % 4 = 3) : (sq m + 1) % 2 ^ 32 = sq (m + 1) := by
  unfold sq
  rcases hm with hm | hm
  · rw [if_pos hm, if_neg (by omega)]
    omega
  · rw [if_neg (by omega), if_pos (by omega)]
    omega

theorem sq_same (m : Nat) (hm : ¬ (m % 4 = 0 ∨ m % 4 = 3)) : sq m = sq (m + 1) := by
  unfold sq
  rw [if_neg (by omega), if_neg (by omega)]
  omega

theorem write_inv (h : Nat → Nat × Nat) (s : St) (n : Nat) (i : Inv h s n) : Inv h (write h s) (n + 1) ∧ (write h s).rd = s.rd ∧ (write h s).seen = s.seen := by
  have hb : ∀ x, x = nth h (s.seen + n) → s.buf ++ [x] = (List.range' s.seen (n + 1)).map (nth h) := by
    intro x hx
    rw [List.range'_concat, List.map_append, ← i.buf, hx]
    simp
  have hp := i.pc
  have hlt : (s.seen + n) % 4 < 4 := Nat.mod_lt _ (by decide)
  unfold write
  split
  · rename_i h0
    have e : (s.wseq + 1) % 2 ^ 32 = sq (s.seen + n + 1) := by rw [i.wseq]; exact sq_succ _ (Or.inl (by omega))
    refine ⟨⟨?_, i.mem, ?_, ?_, ?_⟩, rfl, rfl⟩
    · exact hb _ (by rw [nth, if_pos (by omega), e])
    · have := i.k; simp only; omega
    · simp only; omega
    · exact e
  · rename_i h0
    refine ⟨⟨?_, i.mem, ?_, ?_, ?_⟩, rfl, rfl⟩
    · exact hb _ (by rw [nth, if_neg (by omega), if_pos (by omega), i.k])
    · have := i.k; simp only; omega
    · simp only; omega
    · simp only [i.wseq]; exact sq_same _ (by omega)
  · rename_i h0
    refine ⟨⟨?_, i.mem, ?_, ?_, ?_⟩, rfl, rfl⟩
    · exact hb _ (by rw [nth, if_neg (by omega), if_neg (by omega), if_pos (by omega), i.k])
    · have := i.k; simp only; omega
    · simp only; omega
    · simp only [i.wseq]; exact sq_same _ (by omega)
  · rename_i h0 h1 h2
    have h3 : (s.seen + n) % 4 = 3 := by
      have n0 : ¬ (s.seen + n) % 4 = 0 := fun e => h0 (hp.trans e)
      have n1 : ¬ (s.seen + n) % 4 = 1 := fun e => h1 (hp.trans e)
      have n2 : ¬ (s.seen + n) % 4 = 2 := fun e => h2 (hp.trans e)
      omega
    have e : (s.wseq + 1) % 2 ^ 32 = sq (s.seen + n + 1) := by rw [i.wseq]; exact sq_succ _ (Or.inr h3)
    refine ⟨⟨?_, i.mem, ?_, ?_, ?_⟩, rfl, rfl⟩
    · exact hb _ (by rw [nth, if_neg (by omega), if_neg (by omega), if_neg (by omega), e])
    · have := i.k; simp only; omega
    · simp only; omega
    · exact e

theorem set_nth (h : Nat → Nat × Nat) (m : Nat) : (memAt h m).set (nth h m).loc (nth h m).val = memAt h (m + 1) := by
  have hlt : m % 4 < 4 := Nat.mod_lt _ (by decide)
  unfold nth
  split
  · simp only [Mem.set, memAt, Mem.mk.injEq, true_and]
    exact ⟨by congr 2; omega, by congr 2; omega⟩
  split
  · simp only [Mem.set, memAt, Mem.mk.injEq]
    refine ⟨sq_same _ (by omega), ?_, by congr 2; omega⟩
    rw [show (m + 1 + 2) / 4 = m / 4 + 1 by omega]
    rfl
  split
  · simp only [Mem.set, memAt, Mem.mk.injEq]
    refine ⟨sq_same _ (by omega), by congr 2; omega, ?_⟩
    rw [show (m + 1 + 1) / 4 = m / 4 + 1 by omega]
    rfl
  · simp only [Mem.set, memAt, Mem.mk.injEq, true_and]
    exact ⟨by congr 2; omega, by congr 2; omega⟩

theorem see_inv (h : Nat → Nat × Nat) (s : St) (n j : Nat) (i : Inv h s n) :
    (∃ n', Inv h (see false s j) n') ∧ (see false s j).rd = s.rd ∧ s.seen ≤ (see false s j).seen := by
  unfold see
  split
  · exact ⟨⟨n, i⟩, rfl, Nat.le_refl _⟩
  · rename_i x hx
    split
    · rename_i h0
      have hj : j = 0 := by
        rcases h0 with h0 | h0
        · exact h0
        · exact absurd h0.1 (by decide)
      subst hj
      cases n with
      | zero => rw [i.buf] at hx; simp at hx
      | succ n =>
        have hb := i.buf
        rw [List.range'_succ, List.map_cons] at hb
        have ex : x = nth h s.seen := by
          rw [hb] at hx
          simpa using hx.symm
        refine ⟨⟨n, ?_, ?_, ?_, ?_, ?_⟩, rfl, by simp only; omega⟩
        · simp only [hb, List.eraseIdx_cons_zero]
        · simp only [i.mem, ex]
          exact set_nth h s.seen
        · simp only [i.k]; congr 1; omega
        · simp only [i.pc]; congr 1; omega
        · simp only [i.wseq]; congr 1; omega
    · exact ⟨⟨n, i⟩, rfl, Nat.le_refl _⟩

theorem read_good (h : Nat → Nat × Nat) (s : St) (n : Nat) (o : Bool) (i : Inv h s n) (g : Good h s.seen s.rd) : Good h s.seen (read s o).rd := by
  unfold read
  simp only
  have hm := i.mem
  cases hr : s.rd with
  | idle => trivial
  | begin =>
    simp only
    split
    · trivial
    · exact ⟨Nat.le_refl _, by rw [hm]; rfl, by omega⟩
  | load st q =>
    rw [hr] at g
    exact ⟨g.2.1, g.2.2, s.seen, g.1, Nat.le_refl _, by rw [hm]⟩
  | load2 st q o' v =>
    rw [hr] at g
    obtain ⟨g1, g2, m, g3, g4, g5⟩ := g
    simp only
    cases o' with
    | true => exact ⟨g1, g2, m, s.seen, g3, g4, by omega, Nat.le_refl _, by simpa using g5, by rw [hm]⟩
    | false => exact ⟨g1, g2, s.seen, m, by omega, Nat.le_refl _, g3, g4, by rw [hm], by simpa using g5⟩
  | check st q a b =>
    rw [hr] at g
    obtain ⟨g1, g2, m, m', g3, g4, g5, g6, g7, g8⟩ := g
    simp only
    split
    · trivial
    · rename_i hq
      refine ⟨by rw [← g1]; exact g2, m, m', s.seen, g3, g4, g5, g6, Nat.le_refl _, ?_, g7, g8⟩
      have hq' : s.mem.seq = q := Classical.byContradiction hq
      rw [hm, g1] at hq'
      exact hq'
  | done st a b => trivial

theorem run_good (h : Nat → Nat × Nat) (es : List Ev) : ∀ (s : St) (n : Nat), Inv h s n → Good h s.seen s.rd →
    (∃ n', Inv h (run h false s es) n') ∧ Good h (run h false s es).seen (run h false s es).rd := by
  induction es with
  | nil => intro s n i g; exact ⟨⟨n, i⟩, g⟩
  | cons e es ih =>
    intro s n i g
    show (∃ n', Inv h (run h false (step h false s e) es) n') ∧ _
    cases e with
    | write =>
      obtain ⟨i', r, c⟩ := write_inv h s n i
      exact ih (write h s) _ i' (by rw [r, c]; exact g)
    | see j =>
      obtain ⟨⟨n', i'⟩, r, c⟩ := see_inv h s n j i
      exact ih (see false s j) _ i' (by rw [r]; exact g.mono h c)
    | read o =>
      exact ih (read s o) n ⟨i.buf, i.mem, i.k, i.pc, i.wseq⟩ (read_good h s n o i g)

theorem init_inv (h : Nat → Nat × Nat) : Inv h {} 0 := ⟨rfl, rfl, rfl, rfl, rfl⟩

/-- **C93** (not torn, partial): if stores are seen in order, what a reader gets is a time in force after some number of updates: both parts of
the same, and it is that of the last update finished when the try began.  Missing: more than 2^31 updates during one try, and other orders. -/
theorem C93_untorn_partial (h : Nat → Nat × Nat) (es : List Ev) (st a b : Nat) (hd : (run h false {} es).rd = .done st a b)
    (hw : (run h false {} es).seen < st + 2 ^ 33) : st % 4 = 0 ∧ (a, b) = time h (st / 4) := by
  obtain ⟨-, g⟩ := run_good h es {} 0 (init_inv h) trivial
  rw [hd] at g
  obtain ⟨g1, m, m', e, g2, g3, g4, g5, g6, g7, g8, g9⟩ := g
  have hst : st % 4 = 0 := by
    unfold sq at g1
    by_cases hz : st % 4 = 0
    · exact hz
    · rw [if_neg hz] at g1
      omega
  have he : e = st := by
    unfold sq at g7
    rw [if_pos hst] at g7
    split at g7 <;> omega
  have hm : m = st := by omega
  have hm' : m' = st := by omega
  refine ⟨hst, ?_⟩
  rw [g8, g9, hm, hm']
  simp only [memAt]
  rw [show (st + 2) / 4 = st / 4 by omega, show (st + 1) / 4 = st / 4 by omega]

/-- **C93** (newest): the try began after all stores that had been seen when it did; it is counted from there. -/
theorem C93_start (s : St) (o : Bool) (st q : Nat) (h0 : s.rd = .begin) (h : (read s o).rd = .load st q) : st = s.seen ∧ q = s.mem.seq := by
  unfold read at h
  rw [h0] at h
  simp only at h
  split at h
  · cases h
  · injection h with h1 h2
    exact ⟨h1.symm, h2.symm⟩

/-- **C93** (ends): with no store in between and none half done, a reader gets the time in five steps. -/
theorem C93_ends (h : Nat → Nat × Nat) (weak : Bool) (s : St) (h0 : s.rd = .idle) (hq : s.mem.seq % 2 = 0) (o : List Bool) (ho : o.length = 5) :
    (run h weak s (o.map .read)).rd = .done s.seen s.mem.sec s.mem.nsec := by
  match o, ho with
  | [a, b, c, d, e], _ =>
    simp only [run, List.map_cons, List.map_nil, List.foldl_cons, List.foldl_nil, step, read, h0]
    rw [if_neg (by omega)]
    simp only
    cases c <;> simp

/-- The writer and the seeing of its stores do not change the reader. -/
theorem rd_updates (h : Nat → Nat × Nat) (s : St) (i : Inv h s 0) : ∀ n : Nat, ∃ s', s' = run h false s (List.replicate n [.write, .see 0]).flatten ∧ Inv h s' 0 ∧ s'.seen = s.seen + n ∧ s'.rd = s.rd := by
  intro n
  induction n generalizing s with
  | zero => exact ⟨s, rfl, i, rfl, rfl⟩
  | succ n ih =>
    obtain ⟨i1, r1, c1⟩ := write_inv h s 0 i
    have hb := i1.buf
    rw [List.range'_succ, List.map_cons, List.range'_zero, List.map_nil] at hb
    have e2 : see false (write h s) 0 = { write h s with mem := (write h s).mem.set (nth h (write h s).seen).loc (nth h (write h s).seen).val, buf := [], seen := (write h s).seen + 1 } := by
      unfold see
      rw [hb]
      simp
    have i2 : Inv h (see false (write h s) 0) 0 := by
      rw [e2]
      refine ⟨rfl, ?_, ?_, ?_, ?_⟩
      · simp only [i1.mem]
        exact set_nth h _
      · simp only [i1.k]
      · simp only [i1.pc]
      · simp only [i1.wseq]
    obtain ⟨s', e, i', c', r'⟩ := ih (see false (write h s) 0) i2
    refine ⟨s', ?_, i', ?_, ?_⟩
    · rw [e, List.replicate_succ, List.flatten_cons]
      rfl
    · rw [c', e2]
      simp only [c1]
      omega
    · rw [r', e2]
      exact r1

/-- **C93** (updates): each update is seen: after `n` of them, done one after the other, the memory has the time of the last. -/
theorem C93_updates (h : Nat → Nat × Nat) (n : Nat) :
    let s := run h false {} (List.replicate (4 * n) [.write, .see 0]).flatten
    (s.mem.sec, s.mem.nsec) = time h n ∧ s.mem.seq % 2 = 0 ∧ s.rd = .idle := by
  obtain ⟨s', e, i', c', r'⟩ := rd_updates h {} (init_inv h) (4 * n)
  simp only
  rw [← e, i'.mem, c']
  simp only [memAt]
  refine ⟨?_, ?_, r'⟩
  · rw [show ((0 + 4 * n) + 2) / 4 = n by omega, show ((0 + 4 * n) + 1) / 4 = n by omega]
  · unfold sq
    rw [if_pos (by omega)]
    omega

theorem init_read (h : Nat → Nat × Nat) : Inv h (run h false {} [.read true, .read true, .read true]) 0 := by
  have e : run h false {} [.read true, .read true, .read true] = { ({} : St) with rd := .load2 0 0 true 0 } := rfl
  rw [e]
  exact ⟨rfl, rfl, rfl, rfl, rfl⟩

theorem wrap_gen (h : Nat → Nat × Nat) (N : Nat) (hs : sq (4 * (N + 1)) = 0) :
    ∃ es, (run h false {} es).rd = .done 0 0 ((h N).2 * 1000) := by
  obtain ⟨s', e, i', c', r'⟩ := rd_updates h _ (init_read h) (4 * (N + 1))
  refine ⟨[.read true, .read true, .read true] ++ (List.replicate (4 * (N + 1)) [.write, .see 0]).flatten ++ [.read true, .read true], ?_⟩
  have hseen : s'.seen = 4 * (N + 1) := by rw [c']; exact Nat.zero_add _
  have hrd : s'.rd = .load2 0 0 true 0 := r'
  have hmem := i'.mem
  rw [hseen] at hmem
  have hq : s'.mem.seq = 0 := by rw [hmem]; exact hs
  have hn : s'.mem.nsec = (h N).2 * 1000 := by
    rw [hmem]
    simp only [memAt]
    rw [show (4 * (N + 1) + 1) / 4 = N + 1 by omega]
    rfl
  unfold run at e ⊢
  rw [List.foldl_append, List.foldl_append, ← e]
  simp only [List.foldl_cons, List.foldl_nil, step, read, hrd]
  simp [hq, hn]

/-- With 2^31 updates between the loads of the two parts the number is the same again: half of the time is of another update. -/
theorem C93_wrap_counterexample (h : Nat → Nat × Nat) : ∃ es, (run h false {} es).rd = .done 0 0 ((h (2 ^ 31 - 1)).2 * 1000) :=
  wrap_gen h (2 ^ 31 - 1) (by decide)

end Fio.Seq
