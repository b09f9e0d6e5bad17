import Verif.Fifo.Model
/-
C07: the FIFO is a bounded byte queue.
-/
namespace Fio.Fifo

/-! ### Specification: a bounded queue of bytes -/

/-- One operation on a byte queue of capacity `cap`. -/
def specStep (cap : Nat) (q : List Byte) : Op → List Byte × Res
  | .put data => (q ++ data.take (cap - q.length), ⟨min data.length (cap - q.length), []⟩)
  | .get want len => (q.drop len.toNat, ⟨min len.toNat q.length, if want then q.take len.toNat else []⟩)

/-- A sequence of operations on the byte queue. -/
def specRun (cap : Nat) (q : List Byte) : List Op → List Byte × List Res
  | [] => (q, [])
  | op :: ops =>
    let (q', r) := specStep cap q op
    let (q'', rs) := specRun cap q' ops
    (q'', r :: rs)

/-! ### Proof -/

/-- The FIFO `f` holds the queue `q`. -/
structure Holds (k : Nat) (f : Fifo) (q : List Byte) : Prop where
  hk : k < 32
  size : f.size.toNat = 2 ^ k
  blen : f.buffer.length = 2 ^ k
  qlen : q.length ≤ 2 ^ k
  inn : f.inn.toNat = (f.out.toNat + q.length) % 2 ^ 32
  data : ∀ i, i < q.length → f.buffer[(f.out.toNat + i) % 2 ^ k]? = q[i]?

theorem umin_toNat (a b : BitVec 32) : (umin a b).toNat = min a.toNat b.toNat := by
  unfold umin
  split
  · rename_i h; rw [BitVec.lt_def] at h; omega
  · rename_i h; rw [BitVec.lt_def] at h; omega

theorem pow_le_31 {k : Nat} (hk : k < 32) : 2 ^ k ≤ 2147483648 := by
  have : 2 ^ k ≤ 2 ^ 31 := Nat.pow_le_pow_right (by omega) (by omega)
  simpa using this

theorem room_toNat {k f q} (h : Holds k f q) : (fifoRoom f).toNat = 2 ^ k - q.length := by
  have h1 := pow_le_31 h.hk
  have h2 := h.size
  have h3 := h.inn
  have h4 := h.qlen
  unfold fifoRoom
  rw [BitVec.toNat_add, BitVec.toNat_sub]
  have := f.out.isLt
  omega

theorem len_toNat {k f q} (h : Holds k f q) : (f.inn - f.out).toNat = q.length := by
  have h1 := pow_le_31 h.hk
  have h3 := h.inn
  have h4 := h.qlen
  rw [BitVec.toNat_sub]
  have := f.out.isLt
  omega

theorem mask_toNat {k : Nat} (hk : k < 32) {size : BitVec 32} (hs : size.toNat = 2 ^ k) (x : BitVec 32) :
    (x &&& (size - 1#32)).toNat = x.toNat % 2 ^ k := by
  have h1 := pow_le_31 hk
  have h2 := Nat.two_pow_pos k
  have h3 : (size - 1#32).toNat = 2 ^ k - 1 := by
    rw [BitVec.toNat_sub]; simp; omega
  rw [BitVec.toNat_and, h3, Nat.and_two_pow_sub_one_eq_mod]

theorem mod_cases {s a x : Nat} (ha : a < s) (hx : x ≤ s) :
    (a + x) % s = if a + x < s then a + x else a + x - s := by
  split
  · rename_i h; exact Nat.mod_eq_of_lt h
  · rename_i h; rw [Nat.mod_eq_sub_mod (by omega), Nat.mod_eq_of_lt (by omega)]

theorem mod_add_cases {s a x : Nat} (hs : 0 < s) (hx : x ≤ s) :
    (a + x) % s = if a % s + x < s then a % s + x else a % s + x - s := by
  rw [← Nat.mod_add_mod, mod_cases (Nat.mod_lt _ hs) hx]

theorem put_spec {k f q} (h : Holds k f q) (data : List Byte) (len : BitVec 32)
    (hl : len.toNat ≤ data.length) :
    ∃ f', fifoPut f data len = some (f', umin len (fifoRoom f)) ∧
      Holds k f' (q ++ data.take (min len.toNat (2 ^ k - q.length))) := by
  have hk31 := pow_le_31 h.hk
  have hpos := Nat.two_pow_pos k
  have hdvd : 2 ^ k ∣ 2 ^ 32 := Nat.pow_dvd_pow 2 (by have := h.hk; omega)
  have hn : (umin len (fifoRoom f)).toNat = min len.toNat (2 ^ k - q.length) := by
    rw [umin_toNat, room_toNat h]
  unfold fifoPut
  generalize hlen : umin len (fifoRoom f) = n at *
  have hp : (f.inn &&& (f.size - 1#32)).toNat = (f.out.toNat + q.length) % 2 ^ k := by
    rw [mask_toNat h.hk h.size, h.inn, Nat.mod_mod_of_dvd _ hdvd]
  have hq := h.qlen
  have hpc := mod_add_cases (a := f.out.toNat) hpos hq
  have ha : f.out.toNat % 2 ^ k < 2 ^ k := Nat.mod_lt _ hpos
  have hp2 : (f.out.toNat + q.length) % 2 ^ k < 2 ^ k := Nat.mod_lt _ hpos
  have hdata := h.data
  have hidx : ∀ i, i < 2 ^ k → (f.out.toNat + i) % 2 ^ k =
      if f.out.toNat % 2 ^ k + i < 2 ^ k then f.out.toNat % 2 ^ k + i
      else f.out.toNat % 2 ^ k + i - 2 ^ k := fun i hi => mod_add_cases hpos (by omega)
  generalize hpd : f.inn &&& (f.size - 1#32) = pos at *
  have hl1 : (umin n (f.size - pos)).toNat = min n.toNat (2 ^ k - pos.toNat) := by
    rw [umin_toNat, BitVec.toNat_sub, h.size]; omega
  generalize hld : umin n (f.size - pos) = l at *
  have hl2 : (n - l).toNat = n.toNat - l.toNat := by
    rw [BitVec.toNat_sub]; have := n.isLt; have := l.isLt; omega
  obtain ⟨s1, e1, e2, e3⟩ := memRead_some (buf := data) (off := 0) (len := l.toNat) (by omega)
  obtain ⟨b1, e4, e5, e6⟩ := memWrite_some (buf := f.buffer) (off := pos.toNat) (src := s1)
    (by rw [e2, h.blen]; omega)
  obtain ⟨s2, e7, e8, e9⟩ := memRead_some (buf := data) (off := l.toNat) (len := (n - l).toNat)
    (by omega)
  obtain ⟨b2, e10, e11, e12⟩ := memWrite_some (buf := b1) (off := 0) (src := s2)
    (by rw [e8, e5, h.blen]; omega)
  refine ⟨{ f with buffer := b2, inn := f.inn + n }, ?_, ?_⟩
  · simp only [hld, e1, e4, e7, e10, Option.bind_eq_bind, Option.bind_some, Option.pure_def]
  · have hnle : n.toNat ≤ 2 ^ k - q.length := by omega
    have hql : (q ++ data.take (min len.toNat (2 ^ k - q.length))).length = q.length + n.toNat := by
      rw [List.length_append, List.length_take]; omega
    refine ⟨h.hk, h.size, by rw [e11, e5, h.blen], by rw [hql]; omega, ?_, ?_⟩
    · rw [hql]
      show (f.inn + n).toNat = _
      rw [BitVec.toNat_add, h.inn, Nat.mod_add_mod, Nat.add_assoc]
    · intro i hi
      rw [hql] at hi
      show b2[(f.out.toNat + i) % 2 ^ k]? = _
      have hix := hidx i (by omega)
      rw [e12, e8, List.getElem?_append]
      by_cases hiq : i < q.length
      · rw [if_pos hiq]
        rw [if_neg (by split at hix <;> split at hpc <;> omega), e6, e2,
          if_neg (by split at hix <;> split at hpc <;> omega)]
        exact hdata i hiq
      · rw [if_neg hiq, List.getElem?_take_of_lt (by omega)]
        by_cases h2 : i - q.length < l.toNat
        · rw [if_neg (by split at hix <;> split at hpc <;> omega), e6, e2,
            if_pos (by split at hix <;> split at hpc <;> omega), e3 _ (by split at hix <;> split at hpc <;> omega)]
          congr 1
          split at hix <;> split at hpc <;> omega
        · rw [if_pos (by split at hix <;> split at hpc <;> omega),
            e9 _ (by split at hix <;> split at hpc <;> omega)]
          congr 1
          split at hix <;> split at hpc <;> omega

theorem get_spec {k f q} (h : Holds k f q) (want : Bool) (len : BitVec 32) :
    ∃ f', fifoGet f want len =
        some (f', if want then q.take len.toNat else [], umin len (f.inn - f.out)) ∧
      Holds k f' (q.drop len.toNat) := by
  have hk31 := pow_le_31 h.hk
  have hpos := Nat.two_pow_pos k
  have hdvd : 2 ^ k ∣ 2 ^ 32 := Nat.pow_dvd_pow 2 (by have := h.hk; omega)
  have hn : (umin len (f.inn - f.out)).toNat = min len.toNat q.length := by
    rw [umin_toNat, len_toNat h]
  unfold fifoGet
  generalize hlen : umin len (f.inn - f.out) = n at *
  have hp : (f.out &&& (f.size - 1#32)).toNat = f.out.toNat % 2 ^ k := mask_toNat h.hk h.size _
  have hq := h.qlen
  have ha : f.out.toNat % 2 ^ k < 2 ^ k := Nat.mod_lt _ hpos
  have hdata := h.data
  have hidx : ∀ i, i < 2 ^ k → (f.out.toNat + i) % 2 ^ k =
      if f.out.toNat % 2 ^ k + i < 2 ^ k then f.out.toNat % 2 ^ k + i
      else f.out.toNat % 2 ^ k + i - 2 ^ k := fun i hi => mod_add_cases hpos (by omega)
  generalize hpd : f.out &&& (f.size - 1#32) = pos at *
  have hl1 : (umin n (f.size - pos)).toNat = min n.toNat (2 ^ k - pos.toNat) := by
    rw [umin_toNat, BitVec.toNat_sub, h.size]; omega
  generalize hld : umin n (f.size - pos) = l at *
  have hl2 : (n - l).toNat = n.toNat - l.toNat := by
    rw [BitVec.toNat_sub]; have := n.isLt; have := l.isLt; omega
  obtain ⟨s1, e1, e2, e3⟩ := memRead_some (buf := f.buffer) (off := pos.toNat) (len := l.toNat)
    (by rw [h.blen]; omega)
  obtain ⟨s2, e7, e8, e9⟩ := memRead_some (buf := f.buffer) (off := 0) (len := (n - l).toNat)
    (by rw [h.blen]; omega)
  have hbytes : s1 ++ s2 = q.take len.toNat := by
    apply List.ext_getElem?
    intro i
    by_cases hi : i < n.toNat
    · rw [List.getElem?_take_of_lt (by omega), ← hdata i (by omega), hidx i (by omega),
        List.getElem?_append, e2]
      split
      · rename_i h1
        rw [e3 i h1, if_pos (by omega), hp]
      · rename_i h1
        rw [e9 _ (by omega), if_neg (by omega)]
        congr 1; omega
    · rw [List.getElem?_eq_none (by rw [List.length_append, e2, e8]; omega),
        List.getElem?_eq_none (by rw [List.length_take]; omega)]
  have hdl : (q.drop len.toNat).length = q.length - n.toNat := by rw [List.length_drop]; omega
  have hfin : ∀ (bytes : List Byte), ∃ f',
      (if f.inn = f.out + n then
        some (({ f with inn := 0#32, out := 0#32 } : Fifo), bytes, n)
      else some (({ f with out := f.out + n } : Fifo), bytes, n)) = some (f', bytes, n) ∧
      Holds k f' (q.drop len.toNat) := by
    intro bytes
    have hout : (f.out + n).toNat = (f.out.toNat + n.toNat) % 2 ^ 32 := BitVec.toNat_add _ _
    have hinn := h.inn
    split
    · rename_i heq
      refine ⟨_, rfl, h.hk, h.size, h.blen, by omega, ?_, ?_⟩
      · have := congrArg BitVec.toNat heq
        show (0#32).toNat = _
        rw [hdl]
        have : q.length - n.toNat = 0 := by omega
        rw [this]; rfl
      · intro i hi
        have := congrArg BitVec.toNat heq
        omega
    · refine ⟨_, rfl, h.hk, h.size, h.blen, by omega, ?_, ?_⟩
      · show f.inn.toNat = ((f.out + n).toNat + _) % 2 ^ 32
        rw [hdl]; omega
      · intro i hi
        show f.buffer[((f.out + n).toNat + i) % 2 ^ k]? = _
        rw [hout, ← Nat.mod_add_mod, Nat.mod_mod_of_dvd _ hdvd, Nat.mod_add_mod, Nat.add_assoc,
          hdata _ (by omega), List.getElem?_drop]
        congr 1; omega
  cases want with
  | true =>
    obtain ⟨f', g1, g2⟩ := hfin (q.take len.toNat)
    refine ⟨f', ?_, g2⟩
    simp only [hld, e1, e7, Option.bind_eq_bind, Option.bind_some, Option.pure_def, hbytes, if_true]
    exact g1
  | false =>
    obtain ⟨f', g1, g2⟩ := hfin []
    refine ⟨f', ?_, g2⟩
    simp only [Option.bind_eq_bind, Option.bind_some, Option.pure_def, Bool.false_eq_true, if_false]
    exact g1

/-- Buffers handed to `fifo_put` are shorter than 2^32 bytes (`len` is an `unsigned int`). -/
def Op.Fits : Op → Prop
  | .put data => data.length < 2 ^ 32
  | .get _ _ => True

theorem step_spec {k f q} (h : Holds k f q) (op : Op) (hf : op.Fits) :
    ∃ f', step f op = some (f', (specStep (2 ^ k) q op).2) ∧ Holds k f' (specStep (2 ^ k) q op).1 := by
  cases op with
  | put data =>
    have hl : (BitVec.ofNat 32 data.length).toNat = data.length := by
      rw [BitVec.toNat_ofNat, Nat.mod_eq_of_lt hf]
    obtain ⟨f', h1, h2⟩ := put_spec h data (BitVec.ofNat 32 data.length) (by omega)
    refine ⟨f', ?_, ?_⟩
    · simp [step, h1, specStep, umin_toNat, room_toNat h, Nat.mod_eq_of_lt hf]
    · simp only [specStep]
      rw [hl] at h2
      have : data.take (2 ^ k - q.length) = data.take (min data.length (2 ^ k - q.length)) := by
        apply List.take_eq_take_iff.2; omega
      rw [this]; exact h2
  | get want len =>
    obtain ⟨f', h1, h2⟩ := get_spec h want len
    refine ⟨f', ?_, h2⟩
    simp [step, h1, specStep, umin_toNat, len_toNat h]

theorem run_spec {k : Nat} : ∀ (ops : List Op) (f : Fifo) (q : List Byte), Holds k f q →
    (∀ op ∈ ops, op.Fits) →
    ∃ f', run f ops = some (f', (specRun (2 ^ k) q ops).2) ∧ Holds k f' (specRun (2 ^ k) q ops).1 := by
  intro ops
  induction ops with
  | nil => intro f q h _; exact ⟨f, rfl, h⟩
  | cons op ops ih =>
    intro f q h hf
    obtain ⟨f', h1, h2⟩ := step_spec h op (hf op (by simp))
    obtain ⟨f'', h3, h4⟩ := ih f' _ h2 (fun o ho => hf o (by simp [ho]))
    exact ⟨f'', by simp [run, h1, h3, specRun], h4⟩

/-- **C07.** On a FIFO whose size is a power of two (below 2^32), whatever was in its memory
before, any sequence of puts and gets gives exactly the results of a bounded byte queue: no
access leaves a buffer, each put stores `min(len, room)` bytes, each get delivers the oldest
`min(len, stored)` bytes in order (also when the 32-bit positions wrap); at the end the
length and the room reported are those of the queue, which never exceeds the size. -/
theorem C07_fifo (k : Nat) (hk : k < 32) (mem : List Byte) (hm : mem.length = 2 ^ k) (ops : List Op)
    (hf : ∀ op ∈ ops, op.Fits) :
    ∃ f', run (fifoAlloc (BitVec.ofNat 32 (2 ^ k)) mem) ops = some (f', (specRun (2 ^ k) [] ops).2) ∧
      (fifoLen f').toNat = (specRun (2 ^ k) [] ops).1.length ∧
      (fifoRoom f').toNat + (fifoLen f').toNat = 2 ^ k := by
  have h31 := pow_le_31 hk
  obtain ⟨f', h1, h2⟩ := run_spec (k := k) ops (fifoAlloc (BitVec.ofNat 32 (2 ^ k)) mem) []
    ⟨hk, by simp only [fifoAlloc, BitVec.toNat_ofNat]; omega, hm, by simp, by simp [fifoAlloc], by simp⟩ hf
  have h3 := len_toNat h2
  have h4 := room_toNat h2
  have h5 := h2.qlen
  exact ⟨f', h1, h3, by unfold fifoLen; omega⟩

/-- The same starting from positions just below 2^32: the wrap of the 32-bit counters is
covered by the invariant `Holds`, which does not restrict `out`. -/
theorem C07_fifo_any_position (k : Nat) (hk : k < 32) (mem : List Byte) (hm : mem.length = 2 ^ k)
    (pos : BitVec 32) (ops : List Op) (hf : ∀ op ∈ ops, op.Fits) :
    ∃ f', run ⟨mem, BitVec.ofNat 32 (2 ^ k), pos, pos⟩ ops =
      some (f', (specRun (2 ^ k) [] ops).2) := by
  have h31 := pow_le_31 hk
  have hp := pos.isLt
  obtain ⟨f', h1, _⟩ := run_spec (k := k) ops ⟨mem, BitVec.ofNat 32 (2 ^ k), pos, pos⟩ []
    ⟨hk, by simp only [BitVec.toNat_ofNat]; omega, hm, by simp, by simp; omega, by simp⟩ hf
  exact ⟨f', h1⟩

/-- A concrete run: a FIFO of 4 bytes is filled past its end, partly drained, and wraps. -/
example : (run (fifoAlloc 4#32 [9, 9, 9, 9])
      [.put [1, 2, 3], .get true 2#32, .put [4, 5, 6, 7], .get true 9#32, .get true 1#32]).map (·.2) =
    some [⟨3, []⟩, ⟨2, [1, 2]⟩, ⟨3, []⟩, ⟨4, [3, 4, 5, 6]⟩, ⟨0, []⟩] := by decide +kernel

/-- The 32-bit positions wrapping in the middle of the data. -/
example : (run ⟨[9, 9, 9, 9], 4#32, 4294967295#32, 4294967295#32⟩
      [.put [1, 2, 3], .get true 9#32]).map (·.2) =
    some [⟨3, []⟩, ⟨3, [1, 2, 3]⟩] := by decide +kernel

end Fio.Fifo
