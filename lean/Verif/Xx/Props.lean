import Verif.Xx.Model
import Verif.Xx.Spec
/-
C62: xxHash.
-/
namespace Fio.Xx

/-! ## Words -/

theorem rotl_eq (x : Word) (n : Nat) (h : n < 32) : rotl x n = x.rotateLeft n := by
  simp [rotl, BitVec.rotateLeft, BitVec.rotateLeftAux, Nat.mod_eq_of_lt h]

theorem append8_toNat {w : Nat} (x : BitVec w) (y : Byte) : (x ++ y).toNat = 256 * x.toNat + y.toNat := by
  rw [BitVec.toNat_append, ← Nat.shiftLeft_add_eq_or_of_lt y.isLt, Nat.shiftLeft_eq]
  omega

theorem read32_eq {d : List Byte} {i : Nat} (h : i + 4 ≤ d.length) : read32 (d.drop i) = Spec.lane d i := by
  have e : d.drop i = d[i] :: d[i + 1] :: d[i + 2] :: d[i + 3] :: d.drop (i + 4) := by
    rw [List.drop_eq_getElem_cons (by omega), List.drop_eq_getElem_cons (show i + 1 < d.length by omega),
      List.drop_eq_getElem_cons (show i + 1 + 1 < d.length by omega),
      List.drop_eq_getElem_cons (show i + 1 + 1 + 1 < d.length by omega)]
  rw [e]
  apply BitVec.eq_of_toNat_eq
  have b0 := d[i].isLt
  have b1 := d[i + 1].isLt
  have b2 := d[i + 2].isLt
  have b3 := d[i + 3].isLt
  simp only [read32, append8_toNat, Spec.lane, Spec.w, Spec.byte, List.getD_eq_getElem?_getD,
    List.getElem?_eq_getElem (show i < d.length by omega), List.getElem?_eq_getElem (show i + 1 < d.length by omega),
    List.getElem?_eq_getElem (show i + 2 < d.length by omega), List.getElem?_eq_getElem (show i + 3 < d.length by omega),
    Option.getD_some, BitVec.toNat_ofNat]
  omega

theorem read32_append {x y : List Byte} {i : Nat} (h : i + 4 ≤ x.length) :
    read32 ((x ++ y).drop i) = read32 (x.drop i) := by
  rw [List.drop_append_of_le_length (by omega)]
  generalize hz : x.drop i = z
  have hl : 4 ≤ z.length := by rw [← hz, List.length_drop]; omega
  match z, hl with
  | _ :: _ :: _ :: _ :: _, _ => rfl

/-! ## The loops -/

/-- The four accumulators. -/
def accs (d : List Byte) (seed : Word) (n : Nat) : Lanes :=
  ⟨Spec.acc d (seed + Spec.w Spec.P1 + Spec.w Spec.P2) 0 n, Spec.acc d (seed + Spec.w Spec.P2) 1 n,
    Spec.acc d seed 2 n, Spec.acc d (seed - Spec.w Spec.P1) 3 n⟩

theorem start_eq (d : List Byte) (seed : Word) : start seed = accs d seed 0 := by
  simp [start, accs, Spec.acc, p1, p2, Spec.w, Spec.P1, Spec.P2]

theorem stripe_eq {d : List Byte} {seed : Word} {n : Nat} (h : 16 * n + 16 ≤ d.length) :
    stripe (accs d seed n) (d.drop (16 * n)) = accs d seed (n + 1) := by
  have hp2 : p2 = Spec.w Spec.P2 := rfl
  have hp1 : p1 = Spec.w Spec.P1 := rfl
  simp only [stripe, List.drop_drop, round, accs, Spec.acc]
  rw [read32_eq (by omega), read32_eq (by omega), read32_eq (by omega), read32_eq (by omega)]
  simp only [rotl_eq _ 13 (by omega), hp1, hp2, Nat.mul_zero, Nat.add_zero, Nat.mul_one]

theorem stripes_eq {d : List Byte} {seed : Word} : ∀ k n, n + k = d.length / 16 →
    stripes (accs d seed n) (d.drop (16 * n)) = (accs d seed (d.length / 16), d.drop (16 * (d.length / 16)))
  | 0, n, h => by
    rw [stripes, if_neg (by rw [List.length_drop]; omega)]
    simp only [Nat.add_zero] at h
    rw [h]
  | k + 1, n, h => by
    rw [stripes, if_pos (by rw [List.length_drop]; omega), stripe_eq (by omega), List.drop_drop,
      show 16 * n + 16 = 16 * (n + 1) by omega]
    exact stripes_eq k (n + 1) (by omega)

theorem words_eq {d : List Byte} {p : Nat} {h : Word} : ∀ k n, p + 4 * (n + k) ≤ d.length → d.length < p + 4 * (n + k) + 4 →
    words (Spec.tailWords d p h n) (d.drop (p + 4 * n)) = (Spec.tailWords d p h (n + k), d.drop (p + 4 * (n + k)))
  | 0, n, h1, h2 => by
    rw [words, if_neg (by rw [List.length_drop]; omega)]
    rfl
  | k + 1, n, h1, h2 => by
    have e := words_eq (d := d) (p := p) (h := h) k (n + 1) (by omega) (by omega)
    rw [show n + 1 + k = n + (k + 1) by omega] at e
    rw [words, if_pos (by rw [List.length_drop]; omega), List.drop_drop, read32_eq (by omega), rotl_eq _ 17 (by omega), ← e]
    rfl

theorem bytes_eq {d : List Byte} {p : Nat} {h : Word} : ∀ k n, p + (n + k) = d.length →
    bytes (Spec.tailBytes d p h n) (d.drop (p + n)) = Spec.tailBytes d p h (n + k)
  | 0, n, h1 => by
    rw [List.drop_of_length_le (by omega)]
    rfl
  | k + 1, n, h1 => by
    have e := bytes_eq (d := d) (p := p) (h := h) k (n + 1) (by omega)
    rw [show n + 1 + k = n + (k + 1) by omega] at e
    rw [← e, List.drop_eq_getElem_cons (by omega), bytes, rotl_eq _ 11 (by omega)]
    have hb : d[p + n].setWidth 32 = Spec.w (Spec.byte d (p + n)) := by
      simp only [Spec.w, Spec.byte, List.getD_eq_getElem?_getD, List.getElem?_eq_getElem (show p + n < d.length by omega),
        Option.getD_some]
      apply BitVec.eq_of_toNat_eq
      simp
    rw [hb]
    rfl

theorem finish_eq {d : List Byte} (h : Word) :
    finish h d.length (d.drop (16 * (d.length / 16))) =
      Spec.mix (Spec.tailBytes d (4 * (d.length / 4))
        (Spec.tailWords d (16 * (d.length / 16)) (h + Spec.w d.length) (d.length % 16 / 4)) (d.length % 4)) := by
  have e := words_eq (d := d) (p := 16 * (d.length / 16)) (h := h + Spec.w d.length) (d.length % 16 / 4) 0
    (by omega) (by omega)
  have hp : 16 * (d.length / 16) + 4 * (0 + d.length % 16 / 4) = 4 * (d.length / 4) := by omega
  rw [hp] at e
  simp only [Nat.mul_zero, Nat.add_zero, Nat.zero_add] at e
  have e2 := bytes_eq (d := d) (p := 4 * (d.length / 4))
    (h := Spec.tailWords d (16 * (d.length / 16)) (h + Spec.w d.length) (d.length % 16 / 4)) (d.length % 4) 0 (by omega)
  simp only [Nat.add_zero, Nat.zero_add] at e2
  have e3 : Spec.tailWords d (16 * (d.length / 16)) (h + Spec.w d.length) 0 = h + Spec.w d.length := rfl
  have e4 : ∀ x, Spec.tailBytes d (4 * (d.length / 4)) x 0 = x := fun _ => rfl
  rw [e3] at e
  rw [e4] at e2
  simp only [finish]
  rw [show BitVec.ofNat 32 d.length = Spec.w d.length from rfl, e, e2]
  rfl

theorem merge_eq {d : List Byte} {seed : Word} :
    (if 16 ≤ d.length then merge (accs d seed (d.length / 16)) else seed + p5) = Spec.converge d seed := by
  simp only [Spec.converge]
  by_cases h : 16 ≤ d.length
  · rw [if_pos h, if_neg (by omega)]
    simp only [merge, accs, rotl_eq _ 1 (by omega), rotl_eq _ 7 (by omega), rotl_eq _ 12 (by omega), rotl_eq _ 18 (by omega)]
  · rw [if_neg h, if_pos (by omega)]
    rfl

/-- **C62.** XXH32 is xxHash. -/
theorem one_shot (d : List Byte) (seed : Word) : xxh32 d seed = Spec.xxh32 d seed := by
  have hm := merge_eq (d := d) (seed := seed)
  simp only [Spec.xxh32, ← finish_eq, ← hm, xxh32]
  by_cases h : 16 ≤ d.length
  · have e := stripes_eq (d := d) (seed := seed) (d.length / 16) 0 (by omega)
    rw [Nat.mul_zero, List.drop_zero, ← start_eq] at e
    rw [if_pos h, if_pos h, e]
  · rw [if_neg h, if_neg h, show d.length / 16 = 0 by omega]
    rfl

/-! ## Parts -/

/-- What the state is after the data `d`. -/
def Has (s : State) (seed : Word) (d : List Byte) : Prop :=
  s.total = d.length ∧ s.seed = seed ∧ s.v = accs d seed (d.length / 16) ∧ s.mem = d.drop (16 * (d.length / 16))

theorem lane_append {d l : List Byte} {i : Nat} (h : i + 4 ≤ d.length) : Spec.lane (d ++ l) i = Spec.lane d i := by
  rw [← read32_eq (by simp; omega), ← read32_eq h, read32_append h]

theorem acc_append {d l : List Byte} {a : Word} {j : Nat} (hj : j < 4) : ∀ {n}, 16 * n ≤ d.length →
    Spec.acc (d ++ l) a j n = Spec.acc d a j n
  | 0, _ => rfl
  | n + 1, h => by
    rw [Spec.acc, Spec.acc, acc_append hj (by omega), lane_append (by omega)]

theorem accs_append {d l : List Byte} {seed : Word} {n : Nat} (h : 16 * n ≤ d.length) :
    accs (d ++ l) seed n = accs d seed n := by
  simp only [accs, acc_append (show 0 < 4 by omega) h, acc_append (show 1 < 4 by omega) h,
    acc_append (show 2 < 4 by omega) h, acc_append (show 3 < 4 by omega) h]

theorem stripe_append {v : Lanes} {x y : List Byte} (h : 16 ≤ x.length) : stripe v (x ++ y) = stripe v x := by
  have h0 := read32_append (x := x) (y := y) (i := 0) (by omega)
  rw [List.drop_zero, List.drop_zero] at h0
  simp only [stripe, h0, read32_append (x := x) (y := y) (i := 4) (by omega),
    read32_append (x := x) (y := y) (i := 8) (by omega), read32_append (x := x) (y := y) (i := 12) (by omega)]

theorem reset_has (seed : Word) : Has (reset seed) seed [] := ⟨rfl, rfl, start_eq [] seed, rfl⟩

theorem update_has {s : State} {seed : Word} {d l : List Byte} (h : Has s seed d) : Has (update s l) seed (d ++ l) := by
  obtain ⟨h1, h2, h3, h4⟩ := h
  have hml : s.mem.length = d.length % 16 := by rw [h4, List.length_drop]; omega
  have hd : (d ++ l).drop (16 * (d.length / 16)) = s.mem ++ l := by
    rw [h4, List.drop_append_of_le_length (by omega)]
  have hlen : (d ++ l).length = d.length + l.length := List.length_append
  simp only [update]
  split
  · rename_i hs
    have : (d ++ l).length / 16 = d.length / 16 := by omega
    refine ⟨by rw [hlen, h1], h2, ?_, ?_⟩
    · rw [this, accs_append (by omega)]; exact h3
    · rw [this, hd]
  · rename_i hs
    have ha : s.v = accs (d ++ l) seed (d.length / 16) := by rw [accs_append (by omega)]; exact h3
    split
    · have hsp : s.mem ++ l = (s.mem ++ l.take (16 - s.mem.length)) ++ l.drop (16 - s.mem.length) := by simp
      have hst : stripe s.v (s.mem ++ l.take (16 - s.mem.length)) = accs (d ++ l) seed (d.length / 16 + 1) := by
        rw [← stripe_append (y := l.drop (16 - s.mem.length)) (by simp; omega), ← hsp, ← hd, ha]
        exact stripe_eq (by omega)
      have hdr : l.drop (16 - s.mem.length) = (d ++ l).drop (16 * (d.length / 16 + 1)) := by
        rw [show 16 * (d.length / 16 + 1) = 16 * (d.length / 16) + 16 by omega, ← List.drop_drop, hd,
          List.drop_append, List.drop_of_length_le (l := s.mem) (by omega), List.nil_append]
      have e := stripes_eq (d := d ++ l) (seed := seed) ((d ++ l).length / 16 - (d.length / 16 + 1)) (d.length / 16 + 1) (by omega)
      simp only [updateTail, hst, hdr, e]
      exact ⟨by rw [hlen, h1], h2, rfl, rfl⟩
    · rename_i hm
      have hm : s.mem = [] := Classical.byContradiction hm
      have hdr : l = (d ++ l).drop (16 * (d.length / 16)) := by rw [hd, hm, List.nil_append]
      have e := stripes_eq (d := d ++ l) (seed := seed) ((d ++ l).length / 16 - d.length / 16) (d.length / 16) (by omega)
      rw [← hdr, ← ha] at e
      simp only [updateTail, e]
      exact ⟨by rw [hlen, h1], h2, rfl, rfl⟩

theorem parts_has {seed : Word} : ∀ (ps : List (List Byte)) (s : State) (d : List Byte), Has s seed d →
    Has (ps.foldl update s) seed (d ++ ps.flatten)
  | [], s, d, h => by simpa using h
  | p :: ps, s, d, h => by
    have := parts_has ps (update s p) (d ++ p) (update_has h)
    simpa using this

/-- **C62.** However the data is cut into parts, the digest is the xxHash of the whole. -/
theorem in_parts (ps : List (List Byte)) (seed : Word) :
    digest (ps.foldl update (reset seed)) = Spec.xxh32 ps.flatten seed := by
  obtain ⟨h1, h2, h3, h4⟩ := parts_has ps (reset seed) [] (reset_has seed)
  rw [List.nil_append] at h1 h3 h4
  rw [digest, h1, h2, h3, h4, finish_eq, merge_eq]
  rfl

/-- Vectors of the reference implementation: "", "abc", and "Nobody inspects the spammish repetition" in two parts. -/
example : Spec.xxh32 [] 0 = 0x02cc5d05#32 ∧ Spec.xxh32 [0x61, 0x62, 0x63] 0 = 0x32d153ff#32 ∧
    digest ([[0x4e, 0x6f, 0x62, 0x6f, 0x64, 0x79, 0x20, 0x69, 0x6e, 0x73], [0x70, 0x65, 0x63, 0x74, 0x73, 0x20, 0x74, 0x68, 0x65,
      0x20, 0x73, 0x70, 0x61, 0x6d, 0x6d, 0x69, 0x73, 0x68, 0x20, 0x72, 0x65, 0x70, 0x65, 0x74, 0x69, 0x74, 0x69, 0x6f, 0x6e]].foldl
      update (reset 0)) = 0xe2293b2f#32 := by
  rw [in_parts]
  decide +kernel

/-! ## Detection -/

theorem rot_inj {x y : BitVec 32} {r : Nat} (hr : r < 32) (h : x.rotateLeft r = y.rotateLeft r) : x = y := by
  apply BitVec.eq_of_getLsbD_eq
  intro i hi
  have := congrArg (fun z => z.getLsbD ((i + r) % 32)) h
  simp only [BitVec.getLsbD_rotateLeft, Nat.mod_eq_of_lt hr] at this
  by_cases hc : i + r < 32
  · rw [Nat.mod_eq_of_lt hc] at this
    simpa [show ¬ i + r < r by omega, hc] using this
  · rw [show (i + r) % 32 = i + r - 32 by omega] at this
    simpa [show i + r - 32 < r by omega, show 32 - r + (i + r - 32) = i by omega] using this

/-- One can divide by an odd number. -/
theorem mul_inj {x y p : BitVec 32} (q : BitVec 32) (hp : p * q = 1#32) (h : x * p = y * p) : x = y := by
  have h2 : x * p * q = y * p * q := by rw [h]
  rw [BitVec.mul_assoc, BitVec.mul_assoc, hp] at h2
  simpa using h2

theorem inv1 : Spec.w Spec.P1 * 0x0e8b2f51#32 = 1#32 := by decide +kernel
theorem inv2 : Spec.w Spec.P2 * 0xb6c92f47#32 = 1#32 := by decide +kernel
theorem inv3 : Spec.w Spec.P3 * 0xa89ed915#32 = 1#32 := by decide +kernel
theorem inv4 : Spec.w Spec.P4 * 0xa0fe3bcf#32 = 1#32 := by decide +kernel
theorem inv5 : Spec.w Spec.P5 * 0xae398151#32 = 1#32 := by decide +kernel

theorem xorshift_inj {x y : BitVec 32} {k : Nat} (hk : 11 ≤ k) (h : x ^^^ (x >>> k) = y ^^^ (y >>> k)) : x = y := by
  have hz : x ^^^ y = (x ^^^ y) >>> k := by
    have e : (x ^^^ y) >>> k = (x >>> k) ^^^ (y >>> k) := by
      ext i hi; simp
    rw [e]
    have h2 : x ^^^ x >>> k ^^^ (y ^^^ x >>> k) = y ^^^ y >>> k ^^^ (y ^^^ x >>> k) := by rw [h]
    have l : x ^^^ x >>> k ^^^ (y ^^^ x >>> k) = x ^^^ y := by
      ext i hi
      simp only [BitVec.getElem_xor]
      cases x[i] <;> cases y[i] <;> cases (x >>> k)[i] <;> rfl
    have r : y ^^^ y >>> k ^^^ (y ^^^ x >>> k) = x >>> k ^^^ y >>> k := by
      ext i hi
      simp only [BitVec.getElem_xor]
      cases (y >>> k)[i] <;> cases y[i] <;> cases (x >>> k)[i] <;> rfl
    rw [l, r] at h2
    exact h2
  have h3 : x ^^^ y = (x ^^^ y) >>> (k + k + k) := by
    rw [BitVec.shiftRight_add, BitVec.shiftRight_add, ← hz, ← hz, ← hz]
  have h4 : x ^^^ y = 0#32 := by
    rw [h3, BitVec.ushiftRight_eq_zero (by omega)]
  exact BitVec.xor_eq_zero_iff.1 h4

theorem mix_inj {x y : BitVec 32} (h : Spec.mix x = Spec.mix y) : x = y := by
  simp only [Spec.mix] at h
  exact xorshift_inj (by omega) (mul_inj _ inv2 (xorshift_inj (by omega) (mul_inj _ inv3 (xorshift_inj (by omega) h))))

/-- A step: injective in the accumulator ... -/
theorem turn_inj {h h' x p q : BitVec 32} {r : Nat} (hr : r < 32) (q' : BitVec 32) (hq : q * q' = 1#32)
    (e : (h + x * p).rotateLeft r * q = (h' + x * p).rotateLeft r * q) : h = h' :=
  (BitVec.add_left_inj _).1 (rot_inj hr (mul_inj q' hq e))

/-- ... and in the input. -/
theorem turn_inj' {h x x' p q : BitVec 32} {r : Nat} (hr : r < 32) (q' : BitVec 32) (hq : q * q' = 1#32) (p' : BitVec 32)
    (hp : p * p' = 1#32) (e : (h + x * p).rotateLeft r * q = (h + x' * p).rotateLeft r * q) : x = x' :=
  mul_inj p' hp ((BitVec.add_right_inj _).1 (rot_inj hr (mul_inj q' hq e)))

theorem acc_same {d d' : List Byte} {a : Word} {j : Nat} : ∀ {n}, (∀ k < n, Spec.lane d (16 * k + 4 * j) = Spec.lane d' (16 * k + 4 * j)) →
    Spec.acc d a j n = Spec.acc d' a j n
  | 0, _ => rfl
  | n + 1, h => by
    rw [Spec.acc, Spec.acc, acc_same (fun k hk => h k (by omega)), h n (by omega)]

theorem acc_ne {d d' : List Byte} {a : Word} {j k0 : Nat} (hne : Spec.lane d (16 * k0 + 4 * j) ≠ Spec.lane d' (16 * k0 + 4 * j)) :
    ∀ {n}, k0 < n → (∀ k < n, k ≠ k0 → Spec.lane d (16 * k + 4 * j) = Spec.lane d' (16 * k + 4 * j)) →
    Spec.acc d a j n ≠ Spec.acc d' a j n
  | n + 1, hk, h => by
    rw [Spec.acc, Spec.acc]
    by_cases hn : n = k0
    · subst hn
      rw [acc_same (d := d) (d' := d') (fun k hk => h k (by omega) (by omega))]
      exact fun e => hne (turn_inj' (by omega) _ inv1 _ inv2 e)
    · rw [h n (by omega) hn]
      exact fun e => acc_ne hne (by omega) (fun k hk => h k (by omega)) (turn_inj (by omega) _ inv1 e)

theorem tailWords_inj {d d' : List Byte} {p : Nat} {h h' : Word} : ∀ {n}, (∀ k < n, Spec.lane d (p + 4 * k) = Spec.lane d' (p + 4 * k)) →
    Spec.tailWords d p h n = Spec.tailWords d' p h' n → h = h'
  | 0, _, e => e
  | n + 1, hk, e => by
    rw [Spec.tailWords, Spec.tailWords, hk n (by omega)] at e
    exact tailWords_inj (fun k h => hk k (by omega)) (turn_inj (by omega) _ inv4 e)

theorem tailWords_same {d d' : List Byte} {p : Nat} {h : Word} : ∀ {n}, (∀ k < n, Spec.lane d (p + 4 * k) = Spec.lane d' (p + 4 * k)) →
    Spec.tailWords d p h n = Spec.tailWords d' p h n
  | 0, _ => rfl
  | n + 1, hk => by
    rw [Spec.tailWords, Spec.tailWords, hk n (by omega), tailWords_same (fun k h => hk k (by omega))]

theorem tailWords_ne {d d' : List Byte} {p : Nat} {h : Word} {k0 : Nat} (hne : Spec.lane d (p + 4 * k0) ≠ Spec.lane d' (p + 4 * k0)) :
    ∀ {n}, k0 < n → (∀ k < n, k ≠ k0 → Spec.lane d (p + 4 * k) = Spec.lane d' (p + 4 * k)) →
    Spec.tailWords d p h n ≠ Spec.tailWords d' p h n
  | n + 1, hk, hs => by
    rw [Spec.tailWords, Spec.tailWords]
    by_cases hn : n = k0
    · subst hn
      rw [tailWords_same (d := d) (d' := d') (fun k hk => hs k (by omega) (by omega))]
      exact fun e => hne (turn_inj' (by omega) _ inv4 _ inv3 e)
    · rw [hs n (by omega) hn]
      exact fun e => tailWords_ne hne (by omega) (fun k hk => hs k (by omega)) (turn_inj (by omega) _ inv4 e)

theorem tailBytes_inj {d d' : List Byte} {p : Nat} {h h' : Word} : ∀ {n}, (∀ k < n, Spec.byte d (p + k) = Spec.byte d' (p + k)) →
    Spec.tailBytes d p h n = Spec.tailBytes d' p h' n → h = h'
  | 0, _, e => e
  | n + 1, hk, e => by
    rw [Spec.tailBytes, Spec.tailBytes, hk n (by omega)] at e
    exact tailBytes_inj (fun k h => hk k (by omega)) (turn_inj (by omega) _ inv1 e)

theorem tailBytes_same {d d' : List Byte} {p : Nat} {h : Word} : ∀ {n}, (∀ k < n, Spec.byte d (p + k) = Spec.byte d' (p + k)) →
    Spec.tailBytes d p h n = Spec.tailBytes d' p h n
  | 0, _ => rfl
  | n + 1, hk => by
    rw [Spec.tailBytes, Spec.tailBytes, hk n (by omega), tailBytes_same (fun k h => hk k (by omega))]

theorem w_byte_inj {d d' : List Byte} {i : Nat} (h : Spec.w (Spec.byte d i) = Spec.w (Spec.byte d' i)) :
    Spec.byte d i = Spec.byte d' i := by
  have b := (d.getD i 0).isLt
  have b' := (d'.getD i 0).isLt
  have := congrArg BitVec.toNat h
  simp only [Spec.w, BitVec.toNat_ofNat] at this
  simp only [Spec.byte] at this ⊢
  omega

theorem tailBytes_ne {d d' : List Byte} {p : Nat} {h : Word} {k0 : Nat} (hne : Spec.byte d (p + k0) ≠ Spec.byte d' (p + k0)) :
    ∀ {n}, k0 < n → (∀ k < n, k ≠ k0 → Spec.byte d (p + k) = Spec.byte d' (p + k)) →
    Spec.tailBytes d p h n ≠ Spec.tailBytes d' p h n
  | n + 1, hk, hs => by
    rw [Spec.tailBytes, Spec.tailBytes]
    by_cases hn : n = k0
    · subst hn
      rw [tailBytes_same (d := d) (d' := d') (fun k hk => hs k (by omega) (by omega))]
      exact fun e => hne (w_byte_inj (turn_inj' (by omega) _ inv1 _ inv5 e))
    · rw [hs n (by omega) hn]
      exact fun e => tailBytes_ne hne (by omega) (fun k hk => hs k (by omega)) (turn_inj (by omega) _ inv1 e)

theorem lane_same {d d' : List Byte} {i : Nat} (h : ∀ q, i ≤ q → q < i + 4 → Spec.byte d q = Spec.byte d' q) :
    Spec.lane d i = Spec.lane d' i := by
  rw [Spec.lane, Spec.lane, h i (by omega) (by omega), h (i + 1) (by omega) (by omega), h (i + 2) (by omega) (by omega),
    h (i + 3) (by omega) (by omega)]

theorem lane_inj {d d' : List Byte} {i : Nat} (h : Spec.lane d i = Spec.lane d' i) (q : Nat) (h1 : i ≤ q) (h2 : q < i + 4) :
    Spec.byte d q = Spec.byte d' q := by
  have b : ∀ (d : List Byte) i, Spec.byte d i < 256 := fun d i => (d.getD i 0).isLt
  have := congrArg BitVec.toNat h
  simp only [Spec.lane, Spec.w, BitVec.toNat_ofNat] at this
  have := b d i; have := b d (i + 1); have := b d (i + 2); have := b d (i + 3)
  have := b d' i; have := b d' (i + 1); have := b d' (i + 2); have := b d' (i + 3)
  obtain rfl | rfl | rfl | rfl : q = i ∨ q = i + 1 ∨ q = i + 2 ∨ q = i + 3 := by omega
  all_goals omega

theorem converge_ne {d d' : List Byte} {seed : Word} {m : Nat} (hl : d'.length = d.length) (hm : m < 4 * (d.length / 16))
    (hne : Spec.lane d (4 * m) ≠ Spec.lane d' (4 * m))
    (hs : ∀ k < 4 * (d.length / 16), k ≠ m → Spec.lane d (4 * k) = Spec.lane d' (4 * k)) :
    Spec.converge d seed ≠ Spec.converge d' seed := by
  have same : ∀ j a, j < 4 → j ≠ m % 4 → Spec.acc d a j (d.length / 16) = Spec.acc d' a j (d.length / 16) := by
    intro j a h1 h2
    apply acc_same
    intro k hk
    rw [show 16 * k + 4 * j = 4 * (4 * k + j) by omega]
    exact hs _ (by omega) (by omega)
  have ne : ∀ a, Spec.acc d a (m % 4) (d.length / 16) ≠ Spec.acc d' a (m % 4) (d.length / 16) := by
    intro a
    apply acc_ne (k0 := m / 4)
    · rw [show 16 * (m / 4) + 4 * (m % 4) = 4 * m by omega]; exact hne
    · omega
    · intro k hk hkm
      rw [show 16 * k + 4 * (m % 4) = 4 * (4 * k + m % 4) by omega]
      exact hs _ (by omega) (by omega)
  simp only [Spec.converge, hl]
  rw [if_neg (by omega), if_neg (by omega)]
  have hm4 : m % 4 < 4 := by omega
  generalize m % 4 = j at *
  match j, hm4 with
  | 0, _ =>
    rw [same 1 _ (by omega) (by omega), same 2 _ (by omega) (by omega), same 3 _ (by omega) (by omega)]
    intro e
    exact ne _ (rot_inj (by omega) ((BitVec.add_left_inj _).1 ((BitVec.add_left_inj _).1 ((BitVec.add_left_inj _).1 e))))
  | 1, _ =>
    rw [same 0 _ (by omega) (by omega), same 2 _ (by omega) (by omega), same 3 _ (by omega) (by omega)]
    intro e
    exact ne _ (rot_inj (by omega) ((BitVec.add_right_inj _).1 ((BitVec.add_left_inj _).1 ((BitVec.add_left_inj _).1 e))))
  | 2, _ =>
    rw [same 0 _ (by omega) (by omega), same 1 _ (by omega) (by omega), same 3 _ (by omega) (by omega)]
    intro e
    exact ne _ (rot_inj (by omega) ((BitVec.add_right_inj _).1 ((BitVec.add_left_inj _).1 e)))
  | 3, _ =>
    rw [same 0 _ (by omega) (by omega), same 1 _ (by omega) (by omega), same 2 _ (by omega) (by omega)]
    intro e
    exact ne _ (rot_inj (by omega) ((BitVec.add_right_inj _).1 e))

theorem converge_same {d d' : List Byte} {seed : Word} (hl : d'.length = d.length)
    (hs : ∀ k < 4 * (d.length / 16), Spec.lane d (4 * k) = Spec.lane d' (4 * k)) :
    Spec.converge d seed = Spec.converge d' seed := by
  have same : ∀ j a, j < 4 → Spec.acc d a j (d.length / 16) = Spec.acc d' a j (d.length / 16) := by
    intro j a h1
    apply acc_same
    intro k hk
    rw [show 16 * k + 4 * j = 4 * (4 * k + j) by omega]
    exact hs _ (by omega)
  simp only [Spec.converge, hl, same 0 _ (show 0 < 4 by omega), same 1 _ (show 1 < 4 by omega), same 2 _ (show 2 < 4 by omega),
    same 3 _ (show 3 < 4 by omega)]

/-- **C62.** Data that differs from what was written in one aligned word of four bytes only, however many bits of it, has
another xxHash; and so has data that differs in one byte only. -/
theorem detects {d d' : List Byte} {seed : Word} {p : Nat} (hl : d'.length = d.length) (hp : p < d.length)
    (hne : d.getD p 0 ≠ d'.getD p 0)
    (hs : ∀ q, d.getD q 0 ≠ d'.getD q 0 → q / 4 = p / 4 ∧ (p / 4 < d.length / 4 ∨ q = p)) :
    Spec.xxh32 d seed ≠ Spec.xxh32 d' seed := by
  have hneb : Spec.byte d p ≠ Spec.byte d' p := fun e => hne (BitVec.eq_of_toNat_eq e)
  have hb : ∀ q, (q / 4 ≠ p / 4 ∨ ¬ p / 4 < d.length / 4 ∧ q ≠ p) → Spec.byte d q = Spec.byte d' q := by
    intro q hq
    apply Classical.byContradiction
    intro hc
    have := hs q (fun e => hc (by rw [Spec.byte, Spec.byte, e]))
    omega
  have hlane : ∀ k, k ≠ p / 4 → Spec.lane d (4 * k) = Spec.lane d' (4 * k) := by
    intro k hk
    exact lane_same (fun q h1 h2 => hb q (Or.inl (by omega)))
  have hlne : Spec.lane d (4 * (p / 4)) ≠ Spec.lane d' (4 * (p / 4)) :=
    fun e => hneb (lane_inj e p (by omega) (by omega))
  intro e
  simp only [Spec.xxh32, hl] at e
  have e := mix_inj e
  by_cases h1 : p / 4 < 4 * (d.length / 16)
  · have e := tailBytes_inj (fun k hk => hb _ (Or.inl (by omega))) e
    have e := tailWords_inj (fun k hk => by
      rw [show 16 * (d.length / 16) + 4 * k = 4 * (4 * (d.length / 16) + k) by omega]
      exact hlane _ (by omega)) e
    exact converge_ne hl h1 hlne (fun k _ hk => hlane k hk) ((BitVec.add_left_inj _).1 e)
  · rw [converge_same (d := d) (d' := d') hl (fun k hk => hlane k (by omega))] at e
    by_cases h2 : p / 4 < d.length / 4
    · have e := tailBytes_inj (fun k hk => hb _ (Or.inl (by omega))) e
      refine tailWords_ne (k0 := p / 4 - 4 * (d.length / 16)) ?_ (by omega) (fun k hk hkm => ?_) e
      · rw [show 16 * (d.length / 16) + 4 * (p / 4 - 4 * (d.length / 16)) = 4 * (p / 4) by omega]
        exact hlne
      · rw [show 16 * (d.length / 16) + 4 * k = 4 * (4 * (d.length / 16) + k) by omega]
        exact hlane _ (by omega)
    · rw [tailWords_same (d := d) (d' := d') (fun k hk => by
        rw [show 16 * (d.length / 16) + 4 * k = 4 * (4 * (d.length / 16) + k) by omega]
        exact hlane _ (by omega))] at e
      refine tailBytes_ne (k0 := p - 4 * (d.length / 4)) ?_ (by omega) (fun k hk hkm => ?_) e
      · rw [show 4 * (d.length / 4) + (p - 4 * (d.length / 4)) = p by omega]
        exact hneb
      · exact hb _ (Or.inr ⟨h2, by omega⟩)

/-- A case: the first word of 17 bytes is overwritten. -/
example : Spec.xxh32 (List.replicate 17 0) 1 ≠ Spec.xxh32 ([1, 2, 3, 4] ++ List.replicate 13 0) 1 := by
  refine detects (d := List.replicate 17 0) (d' := [1, 2, 3, 4] ++ List.replicate 13 0) (p := 0) rfl (by decide) (by decide) ?_
  intro q hq
  refine ⟨?_, Or.inl (by decide)⟩
  apply Classical.byContradiction
  intro h
  apply hq
  rcases q with _ | _ | _ | _ | q
  · omega
  · omega
  · omega
  · omega
  · simp [List.getD_eq_getElem?_getD]

end Fio.Xx
