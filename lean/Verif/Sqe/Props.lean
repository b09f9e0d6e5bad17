import Verif.Sqe.Spec

namespace Fio.Sqe

open Spec

/-- What is always so of every entry, whatever units were prepared. -/
structure Always (o : Opts) (ld : Ld) (a : Nat) : Prop where
  iovAt : ld.iovAt = a
  file : ∀ i, (ld.sqes i).fileIndex = 0
  mask : ∀ i, (ld.sqes i).mask ≤ 1
  noMd : o.md = false → ∀ i, (ld.sqes i).mask = 0
  noFix : o.fixedbufs = false → ∀ i, (ld.sqes i).bufIndex = 0

theorem prep_always {o : Opts} {ld : Ld} {a : Nat} (h : Always o ld a) (x : File × IoU) : Always o (prep o ld x) a := by
  obtain ⟨f, u⟩ := x
  have hf := h.file u.index
  have hm := h.mask u.index
  have hn := fun e => h.noMd e u.index
  have hx := fun e => h.noFix e u.index
  constructor
  · exact h.iovAt
  · intro i
    unfold prep
    dsimp only
    by_cases hi : i = u.index
    · rw [if_pos hi]
      cases hd : u.ddir <;> simp only [prepOp, hd, prepMd, prepBuf, prepFile] <;> (repeat' split) <;> simp_all
    · rw [if_neg hi]; exact h.file i
  · intro i
    unfold prep
    dsimp only
    by_cases hi : i = u.index
    · rw [if_pos hi]
      cases hd : u.ddir <;> simp only [prepOp, hd, prepMd, prepBuf, prepFile] <;> (repeat' split) <;> simp_all
    · rw [if_neg hi]; exact h.mask i
  · intro e i
    unfold prep
    dsimp only
    by_cases hi : i = u.index
    · rw [if_pos hi]
      cases hd : u.ddir <;> simp only [prepOp, hd, prepMd, prepBuf, prepFile] <;> (repeat' split) <;> simp_all
    · rw [if_neg hi]; exact h.noMd e i
  · intro e i
    unfold prep
    dsimp only
    by_cases hi : i = u.index
    · rw [if_pos hi]
      cases hd : u.ddir <;> simp only [prepOp, hd, prepMd, prepBuf, prepFile] <;> (repeat' split) <;> simp_all
    · rw [if_neg hi]; exact h.noFix e i

theorem init_always (o : Opts) (a : Nat) : Always o (init a) a := by
  constructor <;> simp [init]

theorem foldl_always {o : Opts} {a : Nat} (xs : List (File × IoU)) : ∀ {ld : Ld}, Always o ld a → Always o (xs.foldl (prep o) ld) a := by
  induction xs with
  | nil => intro ld h; exact h
  | cons x xs ih => intro ld h; exact ih (prep_always h x)

theorem preps_always (o : Opts) (a : Nat) (xs : List (File × IoU)) : Always o (preps o a xs) a := foldl_always xs (init_always o a)

/-- The flags given are those asked for. -/
theorem rwFlags_bits (o : Opts) (u : IoU) : (rwFlags o u).testBit 7 = (o.uncached && !o.odirect) ∧ (rwFlags o u).testBit 3 = o.nowait ∧
    (rwFlags o u).testBit 6 = (o.oatomic && decide (u.ddir = .write)) ∧
    ∀ i, (rwFlags o u).testBit i = true → i = 3 ∨ i = 6 ∨ i = 7 := by
  have key : ∀ d u' n a w : Bool, ∀ r, r = (let r := 0
      let r := if (!d) ∧ u' then r ||| 0x80 else r
      let r := if n then r ||| 0x8 else r
      if a ∧ w then r ||| 0x40 else r) →
      r.testBit 7 = (u' && !d) ∧ r.testBit 3 = n ∧ r.testBit 6 = (a && w) ∧ r < 256 ∧
      ∀ i, i < 8 → r.testBit i = true → i = 3 ∨ i = 6 ∨ i = 7 := by
    intro d u' n a w r hr
    subst hr
    revert d u' n a w
    decide
  obtain ⟨k1, k2, k3, k4, k5⟩ := key o.odirect o.uncached o.nowait o.oatomic (decide (u.ddir = .write)) (rwFlags o u) (by
    unfold rwFlags
    simp)
  refine ⟨k1, k2, k3, fun i hi => ?_⟩
  by_cases hlt : i < 8
  · exact k5 i hlt hi
  · have : (rwFlags o u).testBit i = false :=
      Nat.testBit_lt_two_pow (Nat.lt_of_lt_of_le k4 (by
        have := Nat.pow_le_pow_right (n := 2) (by omega) (Nat.le_of_not_lt hlt)
        simpa using this))
    rw [this] at hi
    cases hi

theorem sqe_at (o : Opts) (ld : Ld) (f : File) (u : IoU) :
    (prep o ld (f, u)).sqes u.index =
      { (if isAsync o ld.prepped then
          { prepOp o ld f u (prepFile o f (ld.sqes u.index)) with
            flags := (prepOp o ld f u (prepFile o f (ld.sqes u.index))).flags ||| 16 }
          else prepOp o ld f u (prepFile o f (ld.sqes u.index))) with userData := u.ptr } := by
  unfold prep
  simp

/-- What an entry means does not depend on the flags and the address of the unit. -/
theorem means_flags (ld : Ld) (s : Sqe) (b : Bool) (p : Nat) :
    means ld { (if b then { s with flags := s.flags ||| 16 } else s) with userData := p } = means ld s := by
  cases b <;> rfl

theorem iov_of (ld : Ld) (a i : Nat) (h : ld.iovAt = a) : iovAt ld (a + 16 * i) = ld.iovs i := by
  unfold iovAt
  rw [h, Nat.add_sub_cancel_left, Nat.mul_div_cancel_left _ (by omega)]

/-- Whatever units have used the entry before, one for a read or a write means exactly what the job asks for: direction, data,
offset, flags, priority, metadata. -/
theorem C84_rw (o : Opts) (a : Nat) (xs : List (File × IoU)) (f : File) (u : IoU) (hd : u.ddir = .read ∨ u.ddir = .write)
    (hl : u.len < 2 ^ 32) (hi : u.index < 2 ^ 16) :
    means (preps o a (xs ++ [(f, u)])) ((preps o a (xs ++ [(f, u)])).sqes u.index) = asked o f u := by
  have hA := preps_always o a xs
  have hB := preps_always o a (xs ++ [(f, u)])
  have hp : preps o a (xs ++ [(f, u)]) = prep o (preps o a xs) (f, u) := by simp [preps]
  rw [hp] at hB ⊢
  generalize preps o a xs = ld at *
  have hiov : o.fixedbufs = false → (prep o ld (f, u)).iovs u.index = (u.buf, u.len) := by
    intro hf
    unfold prep prepIov
    simp [hf, hd]
  have hat := iov_of (prep o ld (f, u)) a u.index hB.iovAt
  have hla : ld.iovAt = a := hA.iovAt
  obtain ⟨b7, b3, b6, _⟩ := rwFlags_bits o u
  have hmask := hA.noMd
  rw [sqe_at, means_flags]
  generalize prep o ld (f, u) = ld' at *
  have hs := hA.file u.index
  have hm0 := fun e => hA.noMd e u.index
  have hx := fun e => hA.noFix e u.index
  generalize ld.sqes u.index = s at *
  rcases hd with hd | hd
  all_goals
    simp only [prepOp, hd, asked, prepBuf, prepMd, rwOp]
    rw [hd] at b6
    cases hfx : o.fixedbufs <;> cases hnv : o.nonvectored <;> cases hmd : o.md <;> cases hrf : o.registerfiles <;>
      simp_all [means, meansRw, prepFile, Nat.mod_eq_of_lt]

/-- The same for trims. -/
theorem C84_trim (o : Opts) (a : Nat) (xs : List (File × IoU)) (f : File) (u : IoU) (hd : u.ddir = .trim) :
    means (preps o a (xs ++ [(f, u)])) ((preps o a (xs ++ [(f, u)])).sqes u.index) = asked o f u := by
  have hp : preps o a (xs ++ [(f, u)]) = prep o (preps o a xs) (f, u) := by simp [preps]
  rw [hp]
  generalize preps o a xs = ld at *
  rw [sqe_at, means_flags]
  simp [prepOp, hd, asked, means]

/-- The file is the one meant, and what comes back names the unit. -/
theorem C84_file (o : Opts) (a : Nat) (xs : List (File × IoU)) (f : File) (u : IoU) :
    fileOf ((preps o a (xs ++ [(f, u)])).sqes u.index) = fileAsked o f ∧
      ((preps o a (xs ++ [(f, u)])).sqes u.index).userData = u.ptr := by
  have hp : preps o a (xs ++ [(f, u)]) = prep o (preps o a xs) (f, u) := by simp [preps]
  rw [hp]
  generalize preps o a xs = ld at *
  rw [sqe_at]
  refine ⟨?_, rfl⟩
  cases hr : o.registerfiles <;> cases hd : u.ddir <;> cases hb : isAsync o ld.prepped <;> cases hf : o.fixedbufs <;>
    cases hn : o.nonvectored <;> cases hm : o.md <;>
    simp [fileOf, fileAsked, prepOp, prepFile, prepMd, prepBuf, hr, hd, hf, hn, hm]

/-- A sync of the whole file means what was asked for exactly if the last units in the same place have left no flags and no
buffer number there. -/
theorem C84_sync (o : Opts) (a : Nat) (xs : List (File × IoU)) (f : File) (u : IoU) (hd : u.ddir = .sync ∨ u.ddir = .datasync) :
    means (preps o a (xs ++ [(f, u)])) ((preps o a (xs ++ [(f, u)])).sqes u.index) = asked o f u ↔
      ((preps o a xs).sqes u.index).bufIndex = 0 ∧
        (if u.ddir = .sync then ((preps o a xs).sqes u.index).rw = 0 else ((preps o a xs).sqes u.index).rw ≤ 1) := by
  have hA := preps_always o a xs
  have hp : preps o a (xs ++ [(f, u)]) = prep o (preps o a xs) (f, u) := by simp [preps]
  rw [hp]
  generalize preps o a xs = ld at *
  rw [sqe_at, means_flags]
  have hs := hA.file u.index
  generalize ld.sqes u.index = s at *
  have hpf : (prepFile o f s).bufIndex = s.bufIndex ∧ (prepFile o f s).fileIndex = 0 ∧ (prepFile o f s).rw = s.rw := by
    unfold prepFile
    split <;> simp [hs]
  obtain ⟨q1, q2, q3⟩ := hpf
  rcases hd with hd | hd
  · simp only [prepOp, hd, asked, means, q1, q2, q3, if_true]
    by_cases hb : s.bufIndex = 0 <;> by_cases hr : s.rw ≤ 1 <;> simp [hb, hr] <;> omega
  · have hor : ∀ n, n ||| 1 ≤ 1 ↔ n ≤ 1 := by
      intro n
      constructor
      · intro h; exact Nat.le_trans Nat.left_le_or h
      · intro h
        have : n = 0 ∨ n = 1 := by omega
        rcases this with rfl | rfl <;> decide
    have hor1 : ∀ n, n ≤ 1 → n ||| 1 = 1 := by
      intro n h
      have : n = 0 ∨ n = 1 := by omega
      rcases this with rfl | rfl <;> decide
    simp only [prepOp, hd, asked, means, q1, q2, q3]
    by_cases hb : s.bufIndex = 0 <;> by_cases hr : s.rw ≤ 1 <;> simp [hb, hr, hor, hor1]

/-- Options and a history that leave nothing behind. -/
structure Clean (o : Opts) (i : Nat) (xs : List (File × IoU)) : Prop where
  fixed : o.fixedbufs = false
  nowait : o.nowait = false
  uncached : o.uncached = false
  atomic : o.oatomic = false
  data : ∀ x ∈ xs, x.2.index = i → x.2.ddir ≠ .datasync
  range : ∀ x ∈ xs, x.2.index = i → x.2.ddir = .syncRange → o.syncRange = 0

/-- With none of these options and without `fdatasync`, a sync means what was asked for. -/
theorem C84_sync_clean (o : Opts) (a : Nat) (xs : List (File × IoU)) (f : File) (u : IoU)
    (hd : u.ddir = .sync ∨ u.ddir = .datasync) (hc : Clean o u.index xs) :
    means (preps o a (xs ++ [(f, u)])) ((preps o a (xs ++ [(f, u)])).sqes u.index) = asked o f u := by
  rw [C84_sync o a xs f u hd]
  have hA := preps_always o a xs
  have hrw : ((preps o a xs).sqes u.index).rw = 0 := by
    obtain ⟨c1, c2, c3, c4, c5, c6⟩ := hc
    have : ∀ (xs : List (File × IoU)) (ld : Ld), (ld.sqes u.index).rw = 0 →
        (∀ x ∈ xs, x.2.index = u.index → x.2.ddir ≠ .datasync) →
        (∀ x ∈ xs, x.2.index = u.index → x.2.ddir = .syncRange → o.syncRange = 0) →
        ((xs.foldl (prep o) ld).sqes u.index).rw = 0 := by
      intro xs
      induction xs with
      | nil => intro ld h _ _; exact h
      | cons x xs ih =>
        intro ld h h1 h2
        rw [List.foldl_cons]
        refine ih _ ?_ (fun y hy => h1 y (List.mem_cons_of_mem _ hy)) (fun y hy => h2 y (List.mem_cons_of_mem _ hy))
        obtain ⟨g, v⟩ := x
        have h1' := h1 _ (List.mem_cons_self ..)
        have h2' := h2 _ (List.mem_cons_self ..)
        dsimp only at h1' h2'
        by_cases hi : v.index = u.index
        · rw [← hi, sqe_at]
          rw [← hi] at h
          have hpf : (prepFile o g (ld.sqes v.index)).rw = 0 := by
            unfold prepFile
            split <;> exact h
          have h1'' := h1' hi
          have h2'' := h2' hi
          cases hb : isAsync o ld.prepped <;> cases hv : v.ddir <;>
            simp_all [prepOp, rwFlags]
        · unfold prep
          dsimp only
          rw [if_neg (fun h => hi h.symm)]
          exact h
    exact this xs (init a) rfl c5 c6
  refine ⟨hA.noFix hc.fixed _, ?_⟩
  rw [hrw]
  split <;> omega

/-- Preparing a unit leaves the entries and vectors of the others alone. -/
theorem C84_others (o : Opts) (ld : Ld) (f : File) (u : IoU) (i : Nat) (h : i ≠ u.index) :
    (prep o ld (f, u)).sqes i = ld.sqes i ∧ (prep o ld (f, u)).iovs i = ld.iovs i := by
  unfold prep prepIov
  dsimp only
  rw [if_neg h]
  refine ⟨rfl, ?_⟩
  split
  · dsimp only; rw [if_neg h]
  · rfl

theorem preps_prepped (o : Opts) (a : Nat) (xs : List (File × IoU)) (h : o.forceAsync ≠ 0) :
    (preps o a xs).prepped = xs.length % o.forceAsync := by
  have : ∀ (xs : List (File × IoU)) (ld : Ld) (k : Nat), ld.prepped = k % o.forceAsync →
      (xs.foldl (prep o) ld).prepped = (k + xs.length) % o.forceAsync := by
    intro xs
    induction xs with
    | nil => intro ld k hk; simpa using hk
    | cons x xs ih =>
      intro ld k hk
      rw [List.foldl_cons, List.length_cons, show k + (xs.length + 1) = (k + 1) + xs.length by omega]
      apply ih
      unfold prep
      dsimp only
      rw [if_neg h]
      have hlt := Nat.mod_lt k (Nat.pos_of_ne_zero h)
      cases hb : isAsync o ld.prepped with
      | true =>
        simp only [isAsync, ne_eq, h, not_false_eq_true, true_and, decide_eq_true_eq] at hb
        simp only [if_true]
        rw [hk] at hb
        rw [Nat.add_mod, show k % o.forceAsync + 1 % o.forceAsync = k % o.forceAsync + 1 % o.forceAsync from rfl]
        by_cases h1 : o.forceAsync = 1
        · simp [h1, Nat.mod_one]
        · rw [Nat.mod_eq_of_lt (show 1 < o.forceAsync by omega), hb, Nat.mod_self]
      | false =>
        simp only [isAsync, ne_eq, h, not_false_eq_true, true_and, decide_eq_false_iff_not] at hb
        simp only [Bool.false_eq_true, if_false]
        rw [hk] at hb ⊢
        have h1 : o.forceAsync ≠ 1 := by
          intro h1
          rw [h1, Nat.mod_one] at hb
          omega
        rw [Nat.add_mod, Nat.mod_eq_of_lt (show 1 < o.forceAsync by omega),
          Nat.mod_eq_of_lt (show k % o.forceAsync + 1 < o.forceAsync by omega)]
  have := this xs (init a) 0 (by simp [init])
  simpa [preps] using this

/-- With `force_async=N`, exactly every N-th unit prepared is issued asynchronously. -/
theorem C84_async (o : Opts) (a : Nat) (xs : List (File × IoU)) (f : File) (u : IoU) :
    ((preps o a (xs ++ [(f, u)])).sqes u.index).flags.testBit 4 =
      decide (o.forceAsync ≠ 0 ∧ o.forceAsync ∣ xs.length + 1) := by
  have hp : preps o a (xs ++ [(f, u)]) = prep o (preps o a xs) (f, u) := by simp [preps]
  rw [hp]
  have hfl : ∀ ld : Ld, (prepOp o ld f u (prepFile o f (ld.sqes u.index))).flags.testBit 4 = false := by
    intro ld
    cases hr : o.registerfiles <;> cases hd : u.ddir <;> cases hf : o.fixedbufs <;> cases hn : o.nonvectored <;> cases hm : o.md <;>
      simp [prepOp, prepFile, prepMd, prepBuf, hr, hd, hf, hn, hm] <;> decide
  have hiff : isAsync o (preps o a xs).prepped = decide (o.forceAsync ≠ 0 ∧ o.forceAsync ∣ xs.length + 1) := by
    unfold isAsync
    by_cases h : o.forceAsync = 0
    · simp [h]
    · rw [preps_prepped o a xs h]
      have hlt := Nat.mod_lt xs.length (Nat.pos_of_ne_zero h)
      have : (xs.length % o.forceAsync + 1 = o.forceAsync) ↔ o.forceAsync ∣ xs.length + 1 := by
        constructor
        · intro he
          rw [← Nat.div_add_mod xs.length o.forceAsync, Nat.add_assoc, he]
          exact Nat.dvd_add (Nat.dvd_mul_right _ _) (Nat.dvd_refl _)
        · intro he
          rw [← Nat.div_add_mod xs.length o.forceAsync, Nat.add_assoc] at he
          have h2 := (Nat.dvd_add_right (Nat.dvd_mul_right o.forceAsync _)).1 he
          have := Nat.le_of_dvd (by omega) h2
          omega
      simp only [this]
  rw [sqe_at]
  cases hb : isAsync o (preps o a xs).prepped with
  | true =>
    rw [← hiff, hb]
    simp [Nat.testBit_or, hfl]
    decide
  | false =>
    rw [← hiff, hb]
    simp [hfl]

/-! ## What comes back -/

/-- For everything but trims: an error of the kernel is the error of the unit; otherwise what is missing is what was not moved. -/
theorem C84_event (d : Ddir) (len : Nat) (res : Int) (hd : d ≠ .trim) (hlen : len < 2 ^ 63) (h1 : -2 ^ 31 ≤ res) (h2 : res < 2 ^ 31) :
    (res < 0 → ((event d len res).error : Int) = -res ∧ (event d len res).trimFail = false) ∧
    (0 ≤ res → res ≤ len → event d len res = ⟨0, len - res.toNat, false⟩) := by
  constructor
  · intro hn
    unfold event
    have e1 : (res % 2 ^ 64).toNat > len := by omega
    rw [if_neg (by
      rintro (h | h)
      · omega
      · exact hd h.1)]
    simp only [hd, if_false]
    rw [if_pos e1]
    dsimp only
    refine ⟨by omega, by simp⟩
  · intro h0 hle
    have e1 : (res % 2 ^ 64).toNat = res.toNat := by omega
    unfold event
    rw [e1]
    by_cases he : res.toNat = len
    · rw [if_pos (Or.inl he), he, Nat.sub_self]
    · rw [if_neg (by
        rintro (h | h)
        · exact he h
        · exact hd h.1)]
      simp only [hd, if_false]
      rw [e1, if_neg (by omega)]
      simp

/-- A trim has worked exactly if the kernel says so; otherwise later ones are done another way. -/
theorem C84_trim_event (len : Nat) (res : Int) (hlen : 2 ^ 31 ≤ len ∨ res < 0) (h63 : len < 2 ^ 63) (h1 : -2 ^ 31 ≤ res)
    (h2 : res < 2 ^ 31) : ((event .trim len res).trimFail = false ↔ res = 0) := by
  unfold event
  by_cases h0 : res = 0
  · subst h0
    simp
  · rw [if_neg (by
      rintro (h | h)
      · omega
      · exact h0 h.2)]
    simp only [if_true]
    split <;> simp [h0]

/-- Commands: an error of the kernel is negative, one of the device positive; both are reported as positive numbers, and told
apart. -/
theorem C84_cmd_event (res : Int) : (cmdEvent res none false) = (res.natAbs, decide (0 < res)) ∧
    (∀ bsg met, res ≠ 0 → cmdEvent res bsg met = (res.natAbs, decide (0 < res))) ∧
    (∀ st, cmdEvent 0 (some st) false = (st.natAbs, decide (0 < st))) ∧ cmdEvent 0 (some 4) true = (0, false) := by
  refine ⟨?_, ?_, ?_, by decide⟩
  · unfold cmdEvent
    by_cases h : res = 0 <;> simp [h]
  · intro bsg met h
    unfold cmdEvent
    simp [h]
  · intro st
    unfold cmdEvent
    by_cases h : st = 0 <;> simp [h]

end Fio.Sqe
