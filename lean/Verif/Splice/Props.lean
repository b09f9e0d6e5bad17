import Verif.Splice.Model
/-!
# C113: the splice engine moves the bytes of the unit
-/

namespace Fio.Splice

structure RInv (file : List Nat) (off len : Nat) (st : R) : Prop where
  le : st.buflen ≤ len
  pos_eq : st.off = off + (len - st.buflen)
  data : st.buf ++ st.pipe = (file.drop off).take (len - st.buflen)
  inside : (st.buf ++ st.pipe).length = len - st.buflen
  ret : st.pipe.length = st.ret

theorem rstep_inv (file : List Nat) (off len : Nat) (st : R) (k : K) (h : RInv file off len st) : RInv file off len (rstep file st k) := by
  obtain ⟨h1, h2, h3, h4, h5⟩ := h
  unfold rstep
  by_cases he : st.err = true
  · rw [if_pos he]; exact ⟨h1, h2, h3, h4, h5⟩
  rw [if_neg he]
  by_cases hr : st.ret ≠ 0
  · rw [if_pos hr]
    cases k with
    | moved k =>
      refine ⟨h1, h2, ?_, ?_, ?_⟩
      · simp only [List.append_assoc, List.take_append_drop]; exact h3
      · simp only [List.append_assoc, List.take_append_drop]; exact h4
      · simp only [List.length_drop]; omega
    | again => exact ⟨h1, h2, h3, h4, h5⟩
    | fail => exact ⟨h1, h2, h3, h4, h5⟩
  · rw [if_neg hr]
    by_cases hb : st.buflen ≠ 0
    · rw [if_pos hb]
      cases k with
      | moved k =>
        simp only
        generalize hm : min k (min (min st.buflen 65536) (file.length - st.off)) = m
        have e1 : len - (st.buflen - m) = (len - st.buflen) + m := by omega
        have hp : st.pipe = [] := List.length_eq_zero_iff.1 (by omega)
        refine ⟨by simp only; omega, by simp only; omega, ?_, ?_, ?_⟩
        · simp only
          rw [e1, List.take_add, List.drop_drop, ← h3, ← h2, List.append_assoc]
        · simp only
          rw [e1, ← List.append_assoc, List.length_append, h4, List.length_take, List.length_drop]
          omega
        · simp only [hp, List.nil_append, List.length_take, List.length_drop]
          omega
      | again => exact ⟨h1, h2, h3, h4, h5⟩
      | fail => exact ⟨h1, h2, h3, h4, h5⟩
    · rw [if_neg hb]; exact ⟨h1, h2, h3, h4, h5⟩

theorem readOld_inv (file : List Nat) (off len : Nat) (ks : List K) : RInv file off len (readOld file off len [] ks) := by
  have : ∀ (ks : List K) (st : R), RInv file off len st → RInv file off len (ks.foldl (rstep file) st) := by
    intro ks
    induction ks with
    | nil => intro st h; exact h
    | cons k ks ih => intro st h; exact ih _ (rstep_inv file off len st k h)
  exact this ks _ ⟨by simp [rstart], by simp [rstart], by simp [rstart], by simp [rstart], by simp [rstart]⟩

/-- (Missing: reads after `-EBADF`, with bytes left in the pipe, and reads across the end of the file; see the counterexamples.)
A read that comes to its end with an empty pipe at first has put the bytes of the file into the buffer, all of them, and leaves the pipe empty. -/
theorem C113_read_partial (file : List Nat) (off len : Nat) (ks : List K) (h : (readOld file off len [] ks).finished = true) :
    (readOld file off len [] ks).buf = (file.drop off).take len ∧ (readOld file off len [] ks).buf.length = len ∧
      (readOld file off len [] ks).pipe = [] := by
  obtain ⟨h1, h2, h3, h4, h5⟩ := readOld_inv file off len ks
  simp only [R.finished, Bool.and_eq_true, beq_iff_eq] at h
  obtain ⟨⟨f1, f2⟩, _⟩ := h
  have hp : (readOld file off len [] ks).pipe = [] := List.length_eq_zero_iff.1 (by omega)
  rw [hp, f1] at h3 h4
  simp only [List.append_nil, Nat.sub_zero] at h3 h4
  exact ⟨h3, h4, hp⟩

/-- Never more than the unit is put into the buffer, finished or not. -/
theorem C113_read_bound (file : List Nat) (off len : Nat) (ks : List K) : (readOld file off len [] ks).buf.length ≤ len := by
  obtain ⟨h1, h2, h3, h4, h5⟩ := readOld_inv file off len ks
  rw [List.length_append] at h4
  omega

/-- What is still to be done in a read. -/
def todo (st : R) : Nat := 2 * st.buflen + st.ret

/-- Inside the file every call that moves something brings the read forward, so that it comes to its end. -/
theorem C113_read_progress (file : List Nat) (off len : Nat) (ks : List K) (hin : off + len ≤ file.length)
    (he : (readOld file off len [] ks).err = false) (hf : (readOld file off len [] ks).finished = false) (k : Nat) (hk : 0 < k) :
    todo (readOld file off len [] (ks ++ [.moved k])) < todo (readOld file off len [] ks) := by
  obtain ⟨h1, h2, h3, h4, h5⟩ := readOld_inv file off len ks
  have e : readOld file off len [] (ks ++ [.moved k]) = rstep file (readOld file off len [] ks) (.moved k) := by simp [readOld]
  rw [e]
  generalize readOld file off len [] ks = st at *
  unfold rstep
  rw [if_neg (by simp [he])]
  by_cases hr : st.ret ≠ 0
  · rw [if_pos hr]
    simp only [todo]
    omega
  · rw [if_neg hr]
    have hb : st.buflen ≠ 0 := by
      intro hc
      have hr' : st.ret = 0 := by omega
      simp [R.finished, hc, he, hr'] at hf
    rw [if_pos hb]
    simp only [todo]
    omega

structure WInv (f0 : Nat → Nat) (off : Nat) (buf : List Nat) (st : W) : Prop where
  le : st.ret ≤ st.pos ∧ st.pos ≤ buf.length
  pos_eq : st.off = off + (st.pos - st.ret)
  pipe : st.pipe = (buf.drop (st.pos - st.ret)).take st.ret
  file : ∀ i, st.file i = if off ≤ i ∧ i < st.off then (buf[i - off]?).getD 0 else f0 i

theorem wstep_inv (f0 : Nat → Nat) (off : Nat) (buf : List Nat) (st : W) (k : K) (h : WInv f0 off buf st) : WInv f0 off buf (wstep buf st k) := by
  obtain ⟨⟨h1, h1'⟩, h2, h3, h4⟩ := h
  unfold wstep
  by_cases he : st.err = true
  · rw [if_pos he]; exact ⟨⟨h1, h1'⟩, h2, h3, h4⟩
  rw [if_neg he]
  by_cases hr : st.ret ≠ 0
  · rw [if_pos hr]
    cases k with
    | moved k =>
      simp only
      have hl : st.pipe.length = st.ret := by rw [h3, List.length_take, List.length_drop]; omega
      generalize hm : min k (min st.ret st.pipe.length) = m
      have hmr : m ≤ st.ret := by omega
      refine ⟨⟨by simp only; omega, h1'⟩, by simp only; omega, ?_, ?_⟩
      · simp only
        have e1 : st.pos - (st.ret - m) = (st.pos - st.ret) + m := by omega
        rw [h3, List.drop_take, List.drop_drop, e1]
      · intro i
        simp only [overwrite]
        have hlen : (st.pipe.take m).length = m := by rw [List.length_take]; omega
        by_cases h5 : st.off ≤ i
        · rw [if_pos h5]
          by_cases h6 : i < st.off + m
          · rw [if_pos ⟨by omega, h6⟩, List.getElem?_take, if_pos (by omega), h3, List.getElem?_take, if_pos (by omega), List.getElem?_drop]
            have e2 : st.pos - st.ret + (i - st.off) = i - off := by omega
            rw [e2]
            have hlt : i - off < buf.length := by omega
            rw [List.getElem?_eq_getElem hlt]
            rfl
          · rw [if_neg (by omega), List.getElem?_eq_none (by omega)]
            simp only [Option.getD_none]
            rw [h4 i, if_neg (by omega)]
        · rw [if_neg h5, h4 i]
          by_cases h7 : off ≤ i
          · rw [if_pos ⟨h7, by omega⟩, if_pos ⟨h7, by omega⟩]
          · rw [if_neg (by omega), if_neg (by omega)]
    | again => exact ⟨⟨h1, h1'⟩, h2, h3, h4⟩
    | fail => exact ⟨⟨h1, h1'⟩, h2, h3, h4⟩
  · rw [if_neg hr]
    by_cases hb : st.pos < buf.length
    · rw [if_pos hb]
      cases k with
      | moved k =>
        simp only
        generalize hm : min k (buf.length - st.pos) = m
        have hr0 : st.ret = 0 := by omega
        rw [hr0] at h2 h3
        refine ⟨⟨by simp only; omega, by simp only; omega⟩, by simp only; omega, ?_, h4⟩
        simp only
        have e1 : st.pos + m - m = st.pos := by omega
        rw [e1, h3]
        simp
      | again => exact ⟨⟨h1, h1'⟩, h2, h3, h4⟩
      | fail => exact ⟨⟨h1, h1'⟩, h2, h3, h4⟩
    · rw [if_neg hb]; exact ⟨⟨h1, h1'⟩, h2, h3, h4⟩

theorem write_inv (f0 : Nat → Nat) (off : Nat) (buf : List Nat) (ks : List K) : WInv f0 off buf (write f0 off buf [] ks) := by
  have : ∀ (ks : List K) (st : W), WInv f0 off buf st → WInv f0 off buf (ks.foldl (wstep buf) st) := by
    intro ks
    induction ks with
    | nil => intro st h; exact h
    | cons k ks ih => intro st h; exact ih _ (wstep_inv f0 off buf st k h)
  exact this ks _ ⟨⟨by simp, by simp⟩, by simp, by simp, fun i => by rw [if_neg (by simp only; omega)]⟩

/-- A write that comes to its end has written the buffer at the offset, nothing else, and leaves the pipe empty. -/
theorem C113_write (f0 : Nat → Nat) (off : Nat) (buf : List Nat) (ks : List K) (h : (write f0 off buf [] ks).finished buf) :
    (∀ i (hi : i < buf.length), (write f0 off buf [] ks).file (off + i) = buf[i]) ∧
      (∀ i, i < off ∨ off + buf.length ≤ i → (write f0 off buf [] ks).file i = f0 i) ∧ (write f0 off buf [] ks).pipe = [] := by
  obtain ⟨⟨h1, h1'⟩, h2, h3, h4⟩ := write_inv f0 off buf ks
  obtain ⟨f1, f2, _⟩ := h
  rw [f1, f2] at h2
  refine ⟨?_, ?_, ?_⟩
  · intro i hi
    rw [h4, if_pos (by omega)]
    have : off + i - off = i := by omega
    rw [this, List.getElem?_eq_getElem hi]
    rfl
  · intro i hi
    rw [h4, if_neg (by omega)]
  · rw [h3, f2]; simp

/-- A write that fails has written a part of the buffer from its beginning, and nothing outside. -/
theorem C113_write_failed (f0 : Nat → Nat) (off : Nat) (buf : List Nat) (ks : List K) (i : Nat) (h : i < off ∨ off + buf.length ≤ i) :
    (write f0 off buf [] ks).file i = f0 i := by
  obtain ⟨⟨h1, h1'⟩, h2, h3, h4⟩ := write_inv f0 off buf ks
  rw [h4, if_neg (by omega)]

theorem C113_example : (readOld [1, 2, 3, 4, 5] 1 3 [] [.moved 2, .moved 1, .moved 9, .again, .moved 7, .moved 1]).finished = true ∧
    (readOld [1, 2, 3, 4, 5] 1 3 [] [.moved 2, .moved 1, .moved 9, .again, .moved 7, .moved 1]).buf = [2, 3, 4] := by
  decide +kernel

theorem C113_write_example : (write (fun _ => 0) 5 [7, 8, 9] [] [.moved 2, .moved 1, .moved 1, .moved 4, .moved 4]).finished [7, 8, 9] ∧
    (List.range 9).map (write (fun _ => 0) 5 [7, 8, 9] [] [.moved 2, .moved 1, .moved 1, .moved 4, .moved 4]).file = [0, 0, 0, 0, 0, 7, 8, 9, 0] :=
  ⟨⟨rfl, rfl, rfl⟩, by decide +kernel⟩

/-- A read across the end of the file never ends, whatever the system answers, short of an error: `splice` returns 0 for ever. -/
theorem C113_eof_counterexample (ks : List K) : (readOld [1] 0 2 [] ks).finished = false := by
  cases h : (readOld [1] 0 2 [] ks).finished with
  | false => rfl
  | true =>
    obtain ⟨a, b, _⟩ := C113_read_partial [1] 0 2 ks h
    rw [a] at b
    simp at b

/-- If the system cannot `vmsplice` to the user, the bytes of the first `splice` stay in the pipe when the read is begun again with `read`: the next
read of two bytes at 2 gets those at 0. -/
theorem C113_ebadf_counterexample :
    let p := readEbadf [1, 2, 3, 4] 0 2 [] 2
    let r1 := readOld [1, 2, 3, 4] 0 2 p [.moved 2, .moved 2]
    let r2 := readOld [1, 2, 3, 4] 2 2 r1.pipe [.moved 2, .moved 2]
    r1.finished = true ∧ r1.buf = [1, 2] ∧ r2.finished = true ∧ r2.buf = [1, 2] := by
  decide +kernel

end Fio.Splice
