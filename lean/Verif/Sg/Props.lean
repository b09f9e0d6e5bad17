import Verif.Sg.Lemmas
/-!
# Properties of the sg engine (C91)
-/

namespace Fio.Sg

open Spec

/-! ## Commands -/

theorem decode_short (p b lba n : Nat) (hl : lba < 2 ^ 32) (hn : n < 65536) :
    let c := put (put (put (put zero16 0 [p]) 1 [b]) 2 (be 4 lba)) 7 (be 2 n)
    val (slice c 0 1) = p ∧ val (slice c 1 1) = b ∧ val (slice c 2 4) = lba ∧ val (slice c 7 2) = n := by
  obtain ⟨h1, h2, h3, h4⟩ := short_slices p b (be 4 lba) (be 2 n) (by simp) (by simp)
  refine ⟨?_, ?_, ?_, ?_⟩
  · rw [h1, val_one]
  · rw [h2, val_one]
  · rw [h3, val_be_of_lt 4 lba hl]
  · rw [h4, val_be_of_lt 2 n hn]

theorem decode_long (p b lba n : Nat) (hl : lba < 2 ^ 64) (hn : n < 2 ^ 32) :
    let c := put (put (put (put zero16 0 [p]) 1 [b]) 2 (be 8 lba)) 10 (be 4 n)
    val (slice c 0 1) = p ∧ val (slice c 1 1) = b ∧ val (slice c 2 8) = lba ∧ val (slice c 10 4) = n := by
  obtain ⟨h1, h2, h3, h4⟩ := long_slices p b (be 8 lba) (be 4 n) (by simp) (by simp)
  refine ⟨?_, ?_, ?_, ?_⟩
  · rw [h1, val_one]
  · rw [h2, val_one]
  · rw [h3, val_be_of_lt 8 lba hl]
  · rw [h4, val_be_of_lt 4 n hn]

/-- The commands that have a short and a long form. -/
theorem decode_rw (p q b lba n : Nat) (hl : lba < 2 ^ 64) (hn : n < 65536 ∨ (n < 2 ^ 32 ∧ 2 ^ 32 - 1 ≤ lba)) (f : Nat → Nat → Nat → Req)
    (hp : ∀ c, val (slice c 0 1) = p → decode c = some (f (val (slice c 2 4)) (val (slice c 7 2)) (val (slice c 1 1))))
    (hq : ∀ c, val (slice c 0 1) = q → decode c = some (f (val (slice c 2 8)) (val (slice c 10 4)) (val (slice c 1 1)))) :
    decode (rwLba (put (put zero16 0 [if lba < max10 then p else q]) 1 [b]) lba n false) = some (f lba n b) := by
  unfold rwLba
  by_cases h : lba < max10
  · rw [if_pos ⟨h, rfl⟩, if_pos h]
    have hn' : n < 65536 := by
      rcases hn with hn | hn
      · exact hn
      · have : max10 = 2 ^ 32 - 1 := rfl
        omega
    have hl' : lba < 2 ^ 32 := by have : max10 = 2 ^ 32 - 1 := rfl; omega
    obtain ⟨h1, h2, h3, h4⟩ := decode_short p b lba n hl' hn'
    rw [hp _ h1, h2, h3, h4]
  · rw [if_neg (fun hh => h hh.1), if_neg h]
    obtain ⟨h1, h2, h3, h4⟩ := decode_long q b lba n hl (by rcases hn with hn | hn <;> omega)
    rw [hq _ h1, h2, h3, h4]

theorem op_fua (lba a b : Nat) (l : List Nat) : put (op lba a b) 1 l = put (put zero16 0 [if lba < max10 then a else b]) 1 l := rfl

theorem op_noopt (lba a b : Nat) : op lba a b = put (put zero16 0 [if lba < max10 then a else b]) 1 [0] := op_zero lba a b

theorem and_mask (k m : Nat) : m * 2 ^ k &&& (2 ^ k - 1) = 0 := by
  rw [Nat.and_two_pow_sub_one_eq_mod, Nat.mul_mod_left]

/-- **C91.**  The command of a unit asks the device for exactly the blocks of the unit, in the way the options say, and the data given with
it has the length and direction the command has.  For blocks of a power of two bytes, places and lengths in whole blocks, and not too
many blocks. -/
theorem C91_command_partial (o : Opts) (k : Nat) (dd : Ddir) (lba n : Nat) (hl : lba < 2 ^ 64) (hn : Fits o dd lba n) (hs : o.stream < 65536) :
    ∃ c, prep o (2 ^ k) dd (lba * 2 ^ k) (n * 2 ^ k) = some c ∧ decode c.cdb = some (want o dd lba n) ∧
      (c.dir, c.len) = (want o dd lba n).data (2 ^ k) := by
  have hpos : 0 < 2 ^ k := Nat.two_pow_pos k
  unfold prep
  rw [if_neg (by rw [and_mask]; simp), Nat.mul_div_cancel _ hpos, Nat.mul_div_cancel _ hpos]
  simp only
  have hb : ∀ b : Bool, decide ((if b then 8 else 0) / 8 % 2 = 1) = b := by decide
  have hrw : ¬ (dd = .write ∧ o.mode = .writeStream) → ¬ (dd = .write ∧ o.mode = .writeSameNdob) →
      n < 65536 ∨ (n < 2 ^ 32 ∧ 2 ^ 32 - 1 ≤ lba) := by
    intro h1 h2
    rcases hn with hn | ⟨hn, ⟨hn1, _⟩ | hn1⟩
    · exact Or.inl hn
    · exact Or.inr ⟨hn, hn1⟩
    · exact absurd hn1 h2
  cases dd with
  | read =>
    refine ⟨_, rfl, ?_, rfl⟩
    rw [op_fua, decode_rw 0x28 0x88 _ lba n hl (hrw (by simp) (by simp)) (fun l n b => .read l n (decide (b / 8 % 2 = 1)))
      (fun c hc => by unfold decode; rw [hc]; rfl) (fun c hc => by unfold decode; rw [hc]; rfl), hb]
    rfl
  | sync =>
    refine ⟨_, rfl, ?_, rfl⟩
    by_cases h : lba < max10
    · simp only [op, h, if_true]
      show decode (put zero16 0 [53]) = some (.syncCache 0 0)
      decide +kernel
    · simp only [op, h, if_false]
      show decode (put zero16 0 [145]) = some (.syncCache 0 0)
      decide +kernel
  | write =>
    cases hm : o.mode with
    | write =>
      refine ⟨_, rfl, ?_, by simp [want, hm, Req.data]⟩
      rw [op_fua, decode_rw 0x2a 0x8a _ lba n hl (hrw (by simp [hm]) (by simp [hm])) (fun l n b => .write l n (decide (b / 8 % 2 = 1)))
        (fun c hc => by unfold decode; rw [hc]; rfl) (fun c hc => by unfold decode; rw [hc]; rfl), hb]
      simp [want, hm]
    | writeVerify =>
      refine ⟨_, rfl, ?_, by simp [want, hm, Req.data]⟩
      rw [op_noopt, decode_rw 0x2e 0x8e _ lba n hl (hrw (by simp [hm]) (by simp [hm])) (fun l n b => .writeVerify l n (b / 2 % 4))
        (fun c hc => by unfold decode; rw [hc]; rfl) (fun c hc => by unfold decode; rw [hc]; rfl)]
      simp [want, hm]
    | writeSame =>
      refine ⟨_, rfl, ?_, by simp [want, hm, Req.data]⟩
      rw [op_noopt]
      unfold rwLba
      have hn' := hrw (by simp [hm]) (by simp [hm])
      have e10 : max10 = 2 ^ 32 - 1 := rfl
      by_cases h : lba < max10
      · rw [if_pos ⟨h, rfl⟩, if_pos h]
        obtain ⟨h1, h2, h3, h4⟩ := decode_short 0x41 0 lba n (by omega) (by omega)
        unfold decode
        rw [h1, h3, h4]
        simp [want, hm]
      · rw [if_neg (fun hh => h hh.1), if_neg h]
        obtain ⟨h1, h2, h3, h4⟩ := decode_long 0x93 0 lba n hl (by omega)
        unfold decode
        rw [h1, h2, h3, h4]
        simp [want, hm]
    | writeSameNdob =>
      refine ⟨_, rfl, ?_, by simp [want, hm, Req.data]⟩
      unfold rwLba
      rw [if_neg (by simp)]
      obtain ⟨h1, h2, h3, h4⟩ := decode_long 0x93 1 lba n hl (by rcases hn with hn | hn <;> omega)
      unfold decode
      rw [h1, h2, h3, h4]
      simp [want, hm]
    | writeStream =>
      refine ⟨_, rfl, ?_, by simp [want, hm, Req.data]⟩
      obtain ⟨h1, h2, h3, h4, h5⟩ := stream_slices 0x9a (if o.writefua then 8 else 0) (be 8 lba) (be 2 o.stream) (be 2 n) (by simp) (by simp) (by simp)
      have hn' : n < 65536 := by
        rcases hn with hn | ⟨_, ⟨_, hn1⟩ | hn1⟩
        · exact hn
        · exact absurd ⟨rfl, hm⟩ hn1
        · rw [hm] at hn1; exact absurd hn1.2 (by simp)
      unfold decode
      rw [h1, h2, h3, h4, h5, val_one, val_one, val_be_of_lt 8 lba hl, val_be_of_lt 2 o.stream hs, val_be_of_lt 2 n hn']
      simp only
      rw [hb]
      simp [want, hm]
    | verify00 =>
      refine ⟨_, rfl, ?_, by simp [want, hm, Req.data]⟩
      rw [op_noopt, decode_rw 0x2f 0x8f _ lba n hl (hrw (by simp [hm]) (by simp [hm])) (fun l n b => .verify l n (b / 2 % 4))
        (fun c hc => by unfold decode; rw [hc]; rfl) (fun c hc => by unfold decode; rw [hc]; rfl)]
      simp [want, hm]
    | verify01 =>
      refine ⟨_, rfl, ?_, by simp [want, hm, Req.data]⟩
      rw [op_fua, decode_rw 0x2f 0x8f _ lba n hl (hrw (by simp [hm]) (by simp [hm])) (fun l n b => .verify l n (b / 2 % 4))
        (fun c hc => by unfold decode; rw [hc]; rfl) (fun c hc => by unfold decode; rw [hc]; rfl)]
      simp [want, hm]
    | verify11 =>
      refine ⟨_, rfl, ?_, by simp [want, hm, Req.data]⟩
      rw [op_fua, decode_rw 0x2f 0x8f _ lba n hl (hrw (by simp [hm]) (by simp [hm])) (fun l n b => .verify l n (b / 2 % 4))
        (fun c hc => by unfold decode; rw [hc]; rfl) (fun c hc => by unfold decode; rw [hc]; rfl)]
      simp [want, hm]

/-- **C91.**  A length that is not a number of blocks is refused (blocks of a power of two bytes). -/
theorem C91_unaligned_partial (o : Opts) (k : Nat) (dd : Ddir) (off len : Nat) (h : ¬ 2 ^ k ∣ len) : prep o (2 ^ k) dd off len = none := by
  unfold prep
  rw [if_pos]
  rw [Nat.and_two_pow_sub_one_eq_mod]
  exact fun hh => h (Nat.dvd_of_mod_eq_zero hh)

/-! ## Trims -/

/-- Trims one after the other. -/
def prepAll (depth bs : Nat) (s : State) : List Unit → Option State
  | [] => some s
  | u :: us => (prepTrim depth bs s u).bind fun s => prepAll depth bs s us

/-- A queue holds these units and their ranges. -/
structure Holds (depth bs : Nat) (q : Queue) (us : List Unit) : Prop where
  cnt : q.cnt = us.length
  list : q.us = us
  len : q.param.length = 16 * (depth + 1)
  rng : ∀ i u, us[i]? = some u → slice q.param (8 + 16 * i) 8 = be 8 (u.off / bs) ∧ slice q.param (16 + 16 * i) 4 = be 4 (u.len / bs)

theorem prepTrim_holds (depth k : Nat) (s : State) (c : Nat) (us : List Unit) (u : Unit) (h : Holds depth (2 ^ k) (s.qs c) us) (hc : s.cur.getD u.idx = c)
    (hl : us.length < depth) (hu : 2 ^ k ∣ u.len) :
    ∃ s', prepTrim depth (2 ^ k) s u = some s' ∧ s'.cur = some c ∧ Holds depth (2 ^ k) (s'.qs c) (us ++ [u]) ∧ ∀ j, j ≠ c → s'.qs j = s.qs j := by
  unfold prepTrim
  rw [if_neg (by rw [Nat.and_two_pow_sub_one_eq_mod]; simpa using Nat.mod_eq_zero_of_dvd hu)]
  simp only
  rw [hc, if_neg (by rw [h.cnt]; omega)]
  have hn := h.cnt
  have hp := h.len
  have b1 : 8 + 16 * (s.qs c).cnt + (be 8 (u.off / 2 ^ k)).length ≤ (s.qs c).param.length := by simp; omega
  have l1 := put_len (s.qs c).param (be 8 (u.off / 2 ^ k)) (8 + 16 * (s.qs c).cnt) b1
  have b2 : 8 + 16 * (s.qs c).cnt + 8 + (be 4 (u.len / 2 ^ k)).length ≤ (put (s.qs c).param (8 + 16 * (s.qs c).cnt) (be 8 (u.off / 2 ^ k))).length := by
    rw [l1]; simp; omega
  refine ⟨_, rfl, rfl, ?_, ?_⟩
  · simp only [State.setQ, if_true]
    refine ⟨by simp [hn], ?_, ?_, ?_⟩
    · simp only; rw [h.list, List.take_of_length_le (by omega)]
    · simp only; rw [put_len _ _ _ b2, l1, hp]
    · intro i v hv
      simp only
      by_cases hi : i < us.length
      · rw [List.getElem?_append_left hi] at hv
        have := h.rng i v hv
        constructor
        · rw [slice_put_other _ _ _ _ _ b2 (by left; omega), slice_put_other _ _ _ _ _ b1 (by left; omega)]
          exact this.1
        · rw [slice_put_other _ _ _ _ _ b2 (by left; omega), slice_put_other _ _ _ _ _ b1 (by left; omega)]
          exact this.2
      · have hi2 : i = us.length := by
          have := (List.getElem?_eq_some_iff.1 hv).1
          simp at this
          omega
        subst hi2
        simp at hv
        subst hv
        rw [← hn]
        constructor
        · rw [slice_put_other _ _ _ _ _ b2 (by left; omega)]
          have := slice_put_same _ _ _ b1
          rwa [be_len] at this
        · have := slice_put_same _ _ _ b2
          rw [be_len] at this
          rw [show 16 + 16 * (s.qs c).cnt = 8 + 16 * (s.qs c).cnt + 8 by omega]
          exact this
  · intro j hj
    simp [State.setQ, hj]

theorem prepAll_holds (depth k : Nat) (c : Nat) (us : List Unit) : ∀ (s : State) (pre : List Unit), Holds depth (2 ^ k) (s.qs c) pre →
    s.cur = some c → pre.length + us.length ≤ depth → (∀ u ∈ us, 2 ^ k ∣ u.len) →
    ∃ s', prepAll depth (2 ^ k) s us = some s' ∧ s'.cur = some c ∧ Holds depth (2 ^ k) (s'.qs c) (pre ++ us) ∧ ∀ j, j ≠ c → s'.qs j = s.qs j := by
  induction us with
  | nil => intro s pre h hc _ _; exact ⟨s, rfl, hc, by simpa using h, fun _ _ => rfl⟩
  | cons u us ih =>
    intro s pre h hc hl hu
    simp only [List.length_cons] at hl
    obtain ⟨s1, e1, c1, h1, o1⟩ := prepTrim_holds depth k s c pre u h (by rw [hc]; rfl) (by omega) (hu u List.mem_cons_self)
    obtain ⟨s2, e2, c2, h2, o2⟩ := ih s1 (pre ++ [u]) h1 c1 (by simp; omega) (fun v hv => hu v (List.mem_cons_of_mem _ hv))
    refine ⟨s2, ?_, c2, by simpa using h2, fun j hj => by rw [o2 j hj, o1 j hj]⟩
    unfold prepAll
    rw [e1, Option.bind_some, e2]

/-- The bytes of a queue that is sent. -/
theorem setup_ranges (depth bs : Nat) (q : Queue) (us : List Unit) (h : Holds depth bs q us) (hl : us.length ≤ 4095) (hd : us.length ≤ depth)
    (hu : ∀ u ∈ us, u.off / bs < 2 ^ 64 ∧ u.len / bs < 2 ^ 32) :
    decode (unmapSetup q).1 = some (.unmap (8 + 16 * us.length)) ∧
    ((unmapSetup q).2.1.take (unmapSetup q).2.2).length = 8 + 16 * us.length ∧
    ranges ((unmapSetup q).2.1.take (unmapSetup q).2.2) = some (us.map fun u => (u.off / bs, u.len / bs)) := by
  have hc : q.cnt * 16 % 65536 = 16 * us.length := by rw [h.cnt]; omega
  have hp := h.len
  unfold unmapSetup
  simp only
  rw [hc]
  have b1 : 0 + (be 2 (16 * us.length + 6)).length ≤ q.param.length := by simp; omega
  have l1 := put_len q.param _ 0 b1
  have b2 : 2 + (be 2 (16 * us.length)).length ≤ (put q.param 0 (be 2 (16 * us.length + 6))).length := by rw [l1]; simp; omega
  have l2 := put_len _ _ 2 b2
  generalize hP : put (put q.param 0 (be 2 (16 * us.length + 6))) 2 (be 2 (16 * us.length)) = P at l2
  have lP : P.length = 16 * (depth + 1) := by rw [l2, l1, hp]
  have lT : (P.take (16 * us.length + 8)).length = 8 + 16 * us.length := by rw [List.length_take, lP]; omega
  refine ⟨?_, lT, ?_⟩
  · obtain ⟨b1, b2, e⟩ := len2 (be 2 (16 * us.length + 8)) (by simp)
    have hv := val_be_of_lt 2 (16 * us.length + 8) (by omega)
    rw [e] at hv ⊢
    have : decode (put (put zero16 0 [66]) 7 [b1, b2]) = some (.unmap (val [b1, b2])) := by
      simp [put, zero16, List.replicate, decode, slice, val]
    rw [this, hv]
    congr 2
    omega
  · have s0 : slice (P.take (16 * us.length + 8)) 0 2 = be 2 (16 * us.length + 6) := by
      rw [slice_take _ _ _ _ (by omega), ← hP, slice_put_other _ _ _ _ _ b2 (by left; omega)]
      have := slice_put_same _ _ _ b1
      rwa [be_len] at this
    have s2 : slice (P.take (16 * us.length + 8)) 2 2 = be 2 (16 * us.length) := by
      rw [slice_take _ _ _ _ (by omega), ← hP]
      have := slice_put_same _ _ _ b2
      rwa [be_len] at this
    have e0 : val (be 2 (16 * us.length + 6)) = 16 * us.length + 6 := val_be_of_lt 2 _ (by omega)
    have e2 : val (be 2 (16 * us.length)) = 16 * us.length := val_be_of_lt 2 _ (by omega)
    unfold ranges
    rw [s0, s2, e0, e2, lT, if_pos ⟨by omega, by omega⟩]
    congr 1
    apply List.ext_getElem?
    intro i
    rw [List.getElem?_map, List.getElem?_map]
    by_cases hi : i < us.length
    · rw [List.getElem?_range (by omega), List.getElem?_eq_getElem hi]
      simp only [Option.map_some, Option.some.injEq]
      have hr := h.rng i us[i] (List.getElem?_eq_getElem hi)
      have hm := hu us[i] (List.getElem_mem hi)
      have b1' : 0 + (be 2 (16 * us.length + 6)).length ≤ 8 + 16 * i := by simp; omega
      rw [slice_take _ _ _ _ (by omega), slice_take _ _ _ _ (by omega), ← hP,
        slice_put_other _ _ _ _ _ b2 (by right; simp; omega), slice_put_other _ _ _ _ _ b1 (by right; simp; omega),
        slice_put_other _ _ _ _ _ b2 (by right; simp; omega), slice_put_other _ _ _ _ _ b1 (by right; simp; omega),
        hr.1, hr.2, val_be_of_lt 8 _ hm.1, val_be_of_lt 4 _ hm.2]
    · rw [List.getElem?_eq_none (by simp; omega), List.getElem?_eq_none (by omega)]
      rfl

/-- **C91.**  Trims collected and committed become one UNMAP command with exactly their ranges, in order, sent to their file (if they are of
one file, and not more than 4095, and the queue of the first is empty). -/
theorem C91_trims_partial (depth k : Nat) (s : State) (u : Unit) (us : List Unit) (hs : s.cur = none) (hq : Holds depth (2 ^ k) (s.qs u.idx) [])
    (hl : us.length + 1 ≤ 4095) (hd : us.length + 1 ≤ depth) (ha : ∀ v ∈ u :: us, 2 ^ k ∣ v.len)
    (hv : ∀ v ∈ u :: us, v.off / 2 ^ k < 2 ^ 64 ∧ v.len / 2 ^ k < 2 ^ 32) (hf : ∀ v ∈ us, v.file = u.file) :
    ∃ s' s'' x, prepAll depth (2 ^ k) s (u :: us) = some s' ∧ commit s' false = (s'', some x, []) ∧ s''.cur = none ∧
      (∀ v ∈ u :: us, x.file = v.file) ∧ decode x.cdb = some (.unmap x.data.length) ∧
      ranges x.data = some ((u :: us).map fun v => (v.off / 2 ^ k, v.len / 2 ^ k)) ∧
      (s''.qs u.idx).cnt = us.length + 1 ∧ (s''.qs u.idx).us = u :: us ∧ ∀ j, j ≠ u.idx → s''.qs j = s.qs j := by
  obtain ⟨s1, e1, c1, h1, o1⟩ := prepTrim_holds depth k s u.idx [] u hq (by rw [hs]; rfl) (by simp; omega) (ha u List.mem_cons_self)
  obtain ⟨s2, e2, c2, h2, o2⟩ := prepAll_holds depth k u.idx us s1 [u] h1 c1 (by simp; omega) (fun v hv => ha v (List.mem_cons_of_mem _ hv))
  simp only [List.singleton_append] at h2
  obtain ⟨r1, r2, r3⟩ := setup_ranges depth (2 ^ k) (s2.qs u.idx) (u :: us) h2 (by simp; omega) (by simp; omega) hv
  refine ⟨s2, ({ s2 with cur := none } : State).setQ u.idx { s2.qs u.idx with param := (unmapSetup (s2.qs u.idx)).2.1 },
    ⟨u.file, (unmapSetup (s2.qs u.idx)).1, (unmapSetup (s2.qs u.idx)).2.1.take (unmapSetup (s2.qs u.idx)).2.2⟩, ?_, ?_, ?_, ?_, ?_, ?_, ?_, ?_, ?_⟩
  · unfold prepAll
    rw [e1, Option.bind_some, e2]
  · unfold commit
    rw [c2]
    simp only
    rw [h2.list]
    rfl
  · rfl
  · intro v hv
    rcases List.mem_cons.1 hv with hv | hv
    · rw [hv]
    · rw [hf v hv]
  · simp only
    rw [r2]
    exact r1
  · exact r3
  · simp [State.setQ, h2.cnt]
  · simp [State.setQ, h2.list]
  · intro j hj
    simp only [State.setQ, if_neg hj]
    rw [o2 j hj, o1 j hj]

theorem init_holds (depth bs i : Nat) : Holds depth bs ((init depth).qs i) [] :=
  ⟨rfl, rfl, by simp [init], fun i u h => by simp at h⟩

/-! ## Completions -/

/-- The sum of the units. -/
def total (w : Nat → Nat) (hs : List (Nat × Bool)) : Nat := (hs.map fun h => w h.1).sum

theorem readFile_enough (trim : Nat → Bool) (qs : Nat → Queue) (left : Nat) (rest : List Ans) : ∀ (hs : List (Nat × Bool)) (n : Nat),
    left ≤ n + total (weight trim qs) hs → (∀ a h b, hs = a ++ h :: b → n + total (weight trim qs) a < left) →
    readFile trim qs left n (hs.map (fun h => .hdr h.1 h.2) ++ rest) = some (hs, total (weight trim qs) hs, none, rest) := by
  intro hs
  induction hs with
  | nil =>
    intro n h1 _
    simp only [total, List.map_nil, List.sum_nil, Nat.add_zero] at h1
    cases rest with
    | nil => simp [readFile, h1, total]
    | cons a rest => cases a <;> simp [readFile, h1, total]
  | cons h hs ih =>
    intro n h1 h2
    have h0 := h2 [] h hs rfl
    simp only [total, List.map_nil, List.sum_nil, Nat.add_zero] at h0
    simp only [List.map_cons, List.cons_append]
    unfold readFile
    rw [if_neg (by omega), ih (n + weight trim qs h.1) ?_ ?_]
    · simp [total]
    · simp only [total, List.map_cons, List.sum_cons] at h1 ⊢
      omega
    · intro a x b e
      have := h2 (h :: a) x b (by rw [e]; rfl)
      simp only [total, List.map_cons, List.sum_cons] at this ⊢
      omega

/-- Reading from a file that has not enough does not end. -/
theorem readFile_block (trim : Nat → Bool) (qs : Nat → Queue) (left : Nat) : ∀ (hs : List (Nat × Bool)) (n : Nat),
    n + total (weight trim qs) hs < left → readFile trim qs left n (hs.map fun h => .hdr h.1 h.2) = none := by
  intro hs
  induction hs with
  | nil => intro n h; simp [total] at h; simp [readFile]; omega
  | cons h hs ih =>
    intro n hh
    simp only [total, List.map_cons, List.sum_cons] at hh
    simp only [List.map_cons]
    unfold readFile
    rw [if_neg (by omega), ih _ (by simp only [total]; omega)]
    rfl

/-- The array after the other units of a command. -/
theorem others_spec (c : Bool) (i : Nat) (us : List Unit) : ∀ (trims : Nat) (e : Evs),
    (others c i us trims e).1 = trims + us.length ∧ (others c i us trims e).2.bad = e.bad ++ (if c then us.map (·.idx) else []) ∧
    ∀ j, (others c i us trims e).2.ev j =
      if i + trims + 1 ≤ j ∧ j < i + trims + 1 + us.length then (us.map (·.idx))[j - (i + trims + 1)]? else e.ev j := by
  induction us with
  | nil => intro trims e; refine ⟨rfl, by simp [others], fun j => ?_⟩; rw [if_neg (by simp)]; rfl
  | cons u us ih =>
    intro trims e
    unfold others
    obtain ⟨h1, h2, h3⟩ := ih (trims + 1) (e.set (i + trims + 1) u.idx c)
    refine ⟨by rw [h1]; simp; omega, ?_, fun j => ?_⟩
    · rw [h2]
      cases c <;> simp [Evs.set]
    · rw [h3 j]
      by_cases hj : j = i + trims + 1
      · rw [if_neg (by omega), if_pos (by simp; omega)]
        subst hj
        simp [Evs.set]
      · by_cases hj2 : i + (trims + 1) + 1 ≤ j ∧ j < i + (trims + 1) + 1 + us.length
        · rw [if_pos hj2, if_pos (by simp; omega), List.map_cons,
            show j - (i + trims + 1) = (j - (i + (trims + 1) + 1)) + 1 by omega, List.getElem?_cons_succ]
        · rw [if_neg hj2, if_neg (by simp; omega)]
          simp [Evs.set, hj]

/-- The queues of the trims in flight. -/
structure InFlight (trim : Nat → Bool) (qs : Nat → Queue) (hs : List (Nat × Bool)) : Prop where
  pos : ∀ h ∈ hs, trim h.1 = true → 1 ≤ (qs h.1).cnt
  len : ∀ h ∈ hs, trim h.1 = true → (qs h.1).us.length = (qs h.1).cnt
  first : ∀ h ∈ hs, trim h.1 = true → ((qs h.1).us.map (·.idx)).head? = some h.1
  once : (hs.map (·.1)).Nodup

theorem units_len (trim : Nat → Bool) (qs : Nat → Queue) (hs : List (Nat × Bool)) (hf : InFlight trim qs hs) (h : Nat × Bool) (hm : h ∈ hs) :
    (unitsOf trim qs h.1).length = weight trim qs h.1 := by
  unfold unitsOf weight
  by_cases ht : trim h.1 = true
  · rw [if_pos ht, if_pos ht, List.length_map, List.length_take, hf.len h hm ht]; omega
  · rw [if_neg ht, if_neg ht]; rfl

theorem proc_spec (trim : Nat → Bool) : ∀ (hs : List (Nat × Bool)) (i trims : Nat) (qs : Nat → Queue) (e : Evs), InFlight trim qs hs →
    ∃ tr qs' e', proc trim hs i (i + total (weight trim qs) hs) trims qs e = (tr, qs', e') ∧
      (∀ j, e'.ev j = if i + trims ≤ j ∧ j < i + trims + total (weight trim qs) hs
        then (hs.flatMap fun h => unitsOf trim qs h.1)[j - (i + trims)]? else e.ev j) ∧
      e'.bad = e.bad ++ ((hs.filter (·.2)).flatMap fun h => unitsOf trim qs h.1) ∧
      (∀ h ∈ hs, trim h.1 = true → (qs' h.1).cnt = 0) ∧ (∀ u, (u ∉ hs.map (·.1) ∨ trim u = false) → qs' u = qs u) := by
  intro hs
  induction hs with
  | nil =>
    intro i trims qs e _
    refine ⟨trims, qs, e, rfl, fun j => ?_, by simp, by simp, by simp⟩
    rw [if_neg (by simp [total])]
  | cons h hs ih =>
    intro i trims qs e hf
    obtain ⟨u, c⟩ := h
    have hnd := hf.once
    simp only [List.map_cons, List.nodup_cons] at hnd
    have hw : 1 ≤ weight trim qs u := by
      unfold weight
      split
      · exact hf.pos (u, c) List.mem_cons_self (by assumption)
      · exact Nat.le_refl _
    have ht : total (weight trim qs) ((u, c) :: hs) = weight trim qs u + total (weight trim qs) hs := by simp [total]
    unfold proc
    rw [ht, if_neg (by omega)]
    simp only
    by_cases hu : trim u = true
    · rw [if_pos hu]
      have hlen := hf.len (u, c) List.mem_cons_self hu
      have hpos := hf.pos (u, c) List.mem_cons_self hu
      have hfst := hf.first (u, c) List.mem_cons_self hu
      simp only at hlen hpos hfst
      have hwu : weight trim qs u = (qs u).cnt := by unfold weight; rw [if_pos hu]
      obtain ⟨o1, o2, o3⟩ := others_spec c i (((qs u).us.take (qs u).cnt).drop 1) trims (e.set (i + trims) u c)
      generalize ho : others c i (((qs u).us.take (qs u).cnt).drop 1) trims (e.set (i + trims) u c) = O at o1 o2 o3
      obtain ⟨tr1, e1⟩ := O
      simp only at o1 o2 o3
      rw [List.take_of_length_le (by omega)] at o1 o2 o3
      rw [List.length_drop, hlen] at o1 o3
      cases hus : (qs u).us with
      | nil => rw [hus] at hlen; simp at hlen; omega
      | cons v vs =>
        rw [hus] at hfst hlen o2 o3
        simp only [List.map_cons, List.head?_cons, Option.some.injEq] at hfst
        simp only [List.drop_succ_cons, List.drop_zero] at o2 o3
        have hunits : unitsOf trim qs u = u :: vs.map (·.idx) := by
          unfold unitsOf
          rw [if_pos hu, hus, List.take_of_length_le (by omega), List.map_cons, hfst]
        generalize hq : (fun j => if j = u then { qs u with cnt := 0 } else qs j : Nat → Queue) = qs1
        have hsame : ∀ h ∈ hs, qs1 h.1 = qs h.1 := by
          intro h hm
          rw [← hq]
          simp only
          rw [if_neg]
          intro he
          exact hnd.1 (he ▸ List.mem_map_of_mem hm)
        have htot : total (weight trim qs1) hs = total (weight trim qs) hs := by
          unfold total
          congr 1
          apply List.map_congr_left
          intro h hm
          unfold weight
          rw [hsame h hm]
        have hun : ∀ h ∈ hs, unitsOf trim qs1 h.1 = unitsOf trim qs h.1 := by
          intro h hm
          unfold unitsOf
          rw [hsame h hm]
        have hfm : ∀ l : List (Nat × Bool), (∀ h ∈ l, h ∈ hs) → (l.flatMap fun h => unitsOf trim qs1 h.1) = l.flatMap fun h => unitsOf trim qs h.1 := by
          intro l hl
          induction l with
          | nil => rfl
          | cons y l ih =>
            rw [List.flatMap_cons, List.flatMap_cons, ih (fun h hh => hl h (List.mem_cons_of_mem _ hh)), hun y (hl y List.mem_cons_self)]
        have hf' : InFlight trim qs1 hs := by
          refine ⟨fun h hm ht => ?_, fun h hm ht => ?_, fun h hm ht => ?_, hnd.2⟩
          · rw [hsame h hm]; exact hf.pos h (List.mem_cons_of_mem _ hm) ht
          · rw [hsame h hm]; exact hf.len h (List.mem_cons_of_mem _ hm) ht
          · rw [hsame h hm]; exact hf.first h (List.mem_cons_of_mem _ hm) ht
        obtain ⟨tr, qs', e', p1, p2, p3, p4, p5⟩ := ih (i + 1) tr1 qs1 e1 hf'
        refine ⟨tr, qs', e', ?_, ?_, ?_, ?_, ?_⟩
        · rw [← p1, htot, hwu]
          congr 1
          · omega
          · rw [← hq]
            funext j
            simp only [hus]
        · intro j
          rw [p2 j, htot, List.flatMap_cons, hunits, hfm hs (fun _ h => h), hwu]
          have hvl : vs.length + 1 = (qs u).cnt := by rw [← hlen]; rfl
          by_cases a1 : i + 1 + tr1 ≤ j ∧ j < i + 1 + tr1 + total (weight trim qs) hs
          · rw [if_pos a1, if_pos (by omega), List.getElem?_append_right (by simp; omega)]
            congr 1
            simp
            omega
          · rw [if_neg a1, o3 j]
            by_cases a2 : i + trims + 1 ≤ j ∧ j < i + trims + 1 + ((qs u).cnt - 1)
            · rw [if_pos a2, if_pos (by omega), List.getElem?_append_left (by simp; omega),
                show j - (i + trims) = (j - (i + trims + 1)) + 1 by omega, List.getElem?_cons_succ]
            · rw [if_neg a2]
              by_cases a3 : j = i + trims
              · subst a3
                rw [if_pos (by omega)]
                simp [Evs.set]
              · rw [if_neg (by omega)]
                simp [Evs.set, a3]
        · rw [p3, hfm _ (fun h hh => (List.mem_filter.1 hh).1), o2]
          cases c <;> simp [Evs.set, hunits]
        · intro h hm ht
          rcases List.mem_cons.1 hm with hm | hm
          · subst hm
            rw [p5 u (Or.inl hnd.1), ← hq]
            simp
          · exact p4 h hm ht
        · intro x hx
          have hxu : x ≠ u := by
            intro he
            rcases hx with hx | hx
            · exact hx (by simp [he])
            · rw [he, hu] at hx; exact absurd hx (by simp)
          rw [p5 x, ← hq]
          · simp [hxu]
          · rcases hx with hx | hx
            · exact Or.inl (fun hh => hx (List.mem_cons_of_mem _ hh))
            · exact Or.inr hx
    · rw [if_neg hu]
      have hwu : weight trim qs u = 1 := by unfold weight; rw [if_neg hu]
      have hunits : unitsOf trim qs u = [u] := by unfold unitsOf; rw [if_neg hu]
      have hf' : InFlight trim qs hs := ⟨fun h hm => hf.pos h (List.mem_cons_of_mem _ hm), fun h hm => hf.len h (List.mem_cons_of_mem _ hm),
        fun h hm => hf.first h (List.mem_cons_of_mem _ hm), hnd.2⟩
      obtain ⟨tr, qs', e', p1, p2, p3, p4, p5⟩ := ih (i + 1) trims qs (e.set (i + trims) u c) hf'
      refine ⟨tr, qs', e', ?_, ?_, ?_, ?_, ?_⟩
      · rw [← p1, hwu]
        congr 1
        omega
      · intro j
        rw [p2 j, List.flatMap_cons, hunits, hwu]
        by_cases a1 : i + 1 + trims ≤ j ∧ j < i + 1 + trims + total (weight trim qs) hs
        · rw [if_pos a1, if_pos (by omega), List.getElem?_append_right (by simp; omega)]
          congr 1
          simp
          omega
        · rw [if_neg a1]
          by_cases a3 : j = i + trims
          · subst a3
            rw [if_pos (by omega)]
            simp [Evs.set]
          · rw [if_neg (by omega)]
            simp [Evs.set, a3]
      · rw [p3]
        cases c <;> simp [Evs.set, hunits]
      · intro h hm ht
        rcases List.mem_cons.1 hm with hm | hm
        · subst hm; exact absurd ht hu
        · exact p4 h hm ht
      · intro x hx
        apply p5
        rcases hx with hx | hx
        · exact Or.inl (fun hh => hx (List.mem_cons_of_mem _ hh))
        · exact Or.inr hx

/-- **C91.**  With one file and no errors of the read: the units of the commands answered first, until there are `max`, are handed over, each
once and in order; those of commands with an error, and no others, are marked; their queues are empty again and the others unchanged. -/
theorem C91_events_partial (trim : Nat → Bool) (n max : Nat) (qs : Nat → Queue) (hs : List (Nat × Bool)) (rest : List Ans)
    (hf : InFlight trim qs hs) (hm : 0 < max) (he : Enough (weight trim qs) max hs) :
    ∃ r qs' e, getevents trim (n + 2) max qs [hs.map (fun h => .hdr h.1 h.2) ++ rest] = some (((r : Nat) : Int), qs', e, [rest]) ∧
      r = (hs.flatMap fun h => unitsOf trim qs h.1).length ∧ max ≤ r ∧
      (∀ j, j < r → e.ev j = (hs.flatMap fun h => unitsOf trim qs h.1)[j]?) ∧
      e.bad = ((hs.filter (·.2)).flatMap fun h => unitsOf trim qs h.1) ∧
      (∀ h ∈ hs, trim h.1 = true → (qs' h.1).cnt = 0) ∧ (∀ u, (u ∉ hs.map (·.1) ∨ trim u = false) → qs' u = qs u) := by
  obtain ⟨tr, qs', e', p1, p2, p3, p4, p5⟩ := proc_spec trim hs 0 0 qs ⟨fun _ => none, []⟩ hf
  simp only [Nat.zero_add, Nat.add_zero, Nat.sub_zero, Nat.zero_le, true_and] at p1 p2
  have htot : max ≤ total (weight trim qs) hs := he.1
  have hlen : (hs.flatMap fun h => unitsOf trim qs h.1).length = total (weight trim qs) hs := by
    rw [List.length_flatMap]
    unfold total
    congr 1
    apply List.map_congr_left
    intro h hh
    exact units_len trim qs hs hf h hh
  refine ⟨total (weight trim qs) hs, qs', e', ?_, hlen.symm, htot, fun j hj => ?_, by simpa using p3, p4, p5⟩
  · unfold getevents evLoop
    rw [if_neg (by omega)]
    have hr : readAll trim qs max [hs.map (fun h => .hdr h.1 h.2) ++ rest] = some (hs, total (weight trim qs) hs, none, [rest]) := by
      unfold readAll
      rw [readFile_enough trim qs max rest hs 0 (by omega) (fun a h b e => by have := he.2 a h b e; simpa [total] using this)]
      simp [readAll]
    rw [Int.toNat_natCast, hr, Option.bind_some]
    simp only
    rw [if_neg (by omega), if_neg (by omega), p1]
    simp only
    unfold evLoop
    rw [if_pos (by omega)]
    simp
  · rw [p2 j, if_pos hj]

/-- **C91.**  With several files: if one of them has not `max` units to come, `fio_sgio_getevents` never returns, whatever the others have. -/
theorem C91_files_block_counterexample (trim : Nat → Bool) (n max : Nat) (qs : Nat → Queue) (pre post : List (List Ans)) (hs : List (Nat × Bool))
    (h : total (weight trim qs) hs < max) : getevents trim n max qs (pre ++ hs.map (fun h => .hdr h.1 h.2) :: post) = none := by
  unfold getevents
  cases n with
  | zero => rfl
  | succ n =>
    unfold evLoop
    rw [if_neg (by omega), Int.toNat_natCast]
    have : readAll trim qs max (pre ++ hs.map (fun h => .hdr h.1 h.2) :: post) = none := by
      induction pre with
      | nil =>
        simp only [List.nil_append]
        unfold readAll
        rw [readFile_block trim qs max hs 0 (by omega)]
        rfl
      | cons p pre ih =>
        rw [List.cons_append]
        unfold readAll
        rw [ih]
        cases readFile trim qs max 0 p <;> rfl
    rw [this]
    rfl

/-- **C91.**  A synchronous command: the units answered before it are completed, in order (if none of them has an error). -/
theorem C91_sync_partial (bad : Nat → Bool) (own : Nat) (us : List Nat) (c : Bool) (rest : List Ans) (h : ∀ u ∈ us, u ≠ own ∧ bad u = false) :
    syncWait bad own (us.map (fun u => .hdr u false) ++ .hdr own c :: rest) = some ⟨us, true, rest⟩ := by
  induction us with
  | nil => simp [syncWait]
  | cons u us ih =>
    have hu := h u List.mem_cons_self
    rw [List.map_cons, List.cons_append]
    unfold syncWait
    rw [if_neg hu.1, if_neg (by simp [hu.2]), ih (fun v hv => h v (List.mem_cons_of_mem _ hv))]
    rfl

/-! ## Capacity -/

theorem foldl_val (l : List Nat) : ∀ a, l.foldl (fun a x => a * 256 + x) a = a * 256 ^ l.length + val l := by
  induction l with
  | nil => intro a; simp [val]
  | cons b l ih =>
    intro a
    rw [List.foldl_cons, ih, val, List.length_cons, Nat.pow_succ, Nat.add_mul, Nat.mul_assoc, Nat.mul_comm 256]
    omega

theorem getBe_val (m : List Nat) (i n : Nat) : getBe m i n = val (slice m i n) := by
  unfold getBe
  rw [foldl_val]
  simp [slice]

/-- **C91.**  Block size and last block as the device has them; the size of the first file. -/
theorem C91_capacity_partial (lba bs : Nat) (more : List Nat) (r10 : Reply) (hb : 0 < bs ∧ bs < 2 ^ 32) (hl : lba < 2 ^ 64)
    (h10 : r10 = .check ∨ r10 = .bytes (be 4 (min lba 0xFFFFFFFF) ++ be 4 bs)) :
    readCapacity r10 (.bytes (be 8 lba ++ be 4 bs ++ more)) = some (bs, lba) := by
  have h16 : ∀ buf : List Nat, buf.length = 32 → getBe (put buf 0 (be 8 lba ++ be 4 bs ++ more)) 8 4 = bs ∧ getBe (put buf 0 (be 8 lba ++ be 4 bs ++ more)) 0 8 = lba := by
    intro buf hbuf
    rw [getBe_val, getBe_val]
    have e : put buf 0 (be 8 lba ++ be 4 bs ++ more) = be 8 lba ++ (be 4 bs ++ (more ++ buf.drop (12 + more.length))) := by
      simp only [put, List.take_zero, List.nil_append, List.append_assoc, List.length_append, be_len, Nat.zero_add]
      congr 4
      omega
    have s1 : slice (be 8 lba ++ (be 4 bs ++ (more ++ buf.drop (12 + more.length)))) 8 4 = be 4 bs := by
      unfold slice
      rw [List.drop_left' (by simp), List.take_left' (by simp)]
    have s2 : slice (be 8 lba ++ (be 4 bs ++ (more ++ buf.drop (12 + more.length)))) 0 8 = be 8 lba := by
      unfold slice
      rw [List.drop_zero, List.take_left' (by simp)]
    rw [e, s1, s2]
    exact ⟨val_be_of_lt 4 bs hb.2, val_be_of_lt 8 lba hl⟩
  rcases h10 with h10 | h10
  · subst h10
    unfold readCapacity
    simp only
    rw [if_pos trivial]
    obtain ⟨a, b⟩ := h16 (List.replicate 32 0) (by simp)
    simp only
    rw [a, b, if_pos (by omega)]
  · subst h10
    have e : put (List.replicate 32 0) 0 (be 4 (min lba 0xFFFFFFFF) ++ be 4 bs) = be 4 (min lba 0xFFFFFFFF) ++ (be 4 bs ++ List.replicate 24 0) := by
      simp [put]
    have s1 : getBe (be 4 (min lba 0xFFFFFFFF) ++ (be 4 bs ++ List.replicate 24 0)) 4 4 = bs := by
      rw [getBe_val]
      unfold slice
      rw [List.drop_left' (by simp), List.take_left' (by simp)]
      exact val_be_of_lt 4 bs hb.2
    have s2 : getBe (be 4 (min lba 0xFFFFFFFF) ++ (be 4 bs ++ List.replicate 24 0)) 0 4 = min lba 0xFFFFFFFF := by
      rw [getBe_val]
      unfold slice
      rw [List.drop_zero, List.take_left' (by simp)]
      exact val_be_of_lt 4 _ (by omega)
    unfold readCapacity
    simp only
    rw [e, s1, s2]
    by_cases h : min lba 0xFFFFFFFF = max10
    · rw [if_pos h]
      obtain ⟨a, b⟩ := h16 (be 4 (min lba 0xFFFFFFFF) ++ (be 4 bs ++ List.replicate 24 0)) (by simp)
      simp only
      rw [a, b, if_pos (by omega)]
    · rw [if_neg h]
      simp only
      rw [if_pos (by omega)]
      have : max10 = 0xFFFFFFFF := rfl
      congr 2
      omega

/-- **C91** (size, partial): the size of the first file is that of its device.  Missing: the other files. -/
theorem C91_size_partial (devs : Nat → Reply × Reply) (lba bs : Nat) (more : List Nat) (hb : 0 < bs ∧ bs < 2 ^ 32) (hl : (lba + 1) * bs < 2 ^ 64)
    (h10 : (devs 0).1 = .check ∨ (devs 0).1 = .bytes (be 4 (min lba 0xFFFFFFFF) ++ be 4 bs)) (h16 : (devs 0).2 = .bytes (be 8 lba ++ be 4 bs ++ more)) :
    fileSize devs 0 = some ((lba + 1) * bs) := by
  have hle : lba + 1 ≤ (lba + 1) * bs := Nat.le_mul_of_pos_right _ hb.1
  unfold fileSize
  rw [h16, C91_capacity_partial lba bs more _ hb (by omega) h10, Option.map_some]
  simp only
  rw [Nat.mod_eq_of_lt (show lba + 1 < 2 ^ 64 by omega), Nat.mod_eq_of_lt hl]

end Fio.Sg
