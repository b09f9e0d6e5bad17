import Verif.Verify.Model
import Verif.Crc.Props
/-
C19: verify headers.
-/
namespace Fio.Verify

/-! ## Slices of concatenations -/

theorem field_append {pre mid post : List Byte} {off n : Nat} (ho : pre.length = off) (hn : mid.length = n) :
    field (pre ++ mid ++ post) off n = fromLe mid := by
  unfold field
  subst ho; subst hn
  rw [List.append_assoc, List.drop_append_of_le_length (Nat.le_refl _), List.drop_length, List.nil_append,
    List.take_append_of_le_length (Nat.le_refl _), List.take_length]

/-- The specification of an acceptable header: the checked fields have the expected values and the
checksum of the first 44 bytes matches. -/
structure Good (cfg : Cfg) (io : Io) (num len : Nat) (h : List Byte) : Prop where
  magic : field h 0 2 = 0xacca
  version : field h 2 1 = 0x81
  len : field h 4 4 = len
  seed : cfg.checkSeed = true → field h 8 8 = io.seed.toNat
  offset : field h 16 8 = (hdrOffset cfg io num).toNat
  seq : cfg.checkSeq = true → field h 32 8 = io.numberio.toNat
  crc : (Crc.crc32c (h.take 44)).toNat = field h 44 4

theorem verifyHeader_iff (cfg : Cfg) (io : Io) (num len : Nat) (h : List Byte) :
    verifyHeader cfg io num len h = true ↔ Good cfg io num len h := by
  unfold verifyHeader
  constructor
  · intro g
    repeat' split at g
    all_goals first
      | exact absurd g Bool.false_ne_true
      | skip
    rename_i h1 h2 h3 h4 h5 h6 h7
    exact ⟨Decidable.not_not.1 h1, Decidable.not_not.1 h2, Decidable.not_not.1 h3,
      fun hs => Decidable.not_not.1 fun hn => h4 ⟨hs, hn⟩, Decidable.not_not.1 h5,
      fun hs => Decidable.not_not.1 fun hn => h6 ⟨hs, hn⟩, Decidable.not_not.1 h7⟩
  · intro g
    rw [if_neg (by simp [g.magic]), if_neg (by simp [g.version]), if_neg (by simp [g.len]),
      if_neg (fun h => h.2 (g.seed h.1)), if_neg (by simp [g.offset]), if_neg (fun h => h.2 (g.seq h.1)),
      if_neg (by simp [g.crc])]

theorem fillHdr_length (cfg : Cfg) (io : Io) (num len : Nat) (old : List Byte) (ho : old.length = 48) :
    (fillHdr cfg io num len old).length = 48 := by
  simp [fillHdr, ho]

/-- The fields of a header that was just filled in. -/
theorem fillHdr_fields (cfg : Cfg) (io : Io) (num len : Nat) (old : List Byte) (ho : old.length = 48) (hl : len < 2 ^ 32) :
    Good cfg io num len (fillHdr cfg io num len old) ∧ field (fillHdr cfg io num len old) 3 1 = cfg.verify % 256 := by
  have hpad : ((old.drop 42).take 2).length = 2 := by simp [ho]
  obtain ⟨pad, hp⟩ : ∃ pad, pad = (old.drop 42).take 2 := ⟨_, rfl⟩
  rw [← hp] at hpad
  unfold fillHdr
  rw [← hp]
  dsimp only
  obtain ⟨m, hm⟩ : ∃ m, m = le 2 0xacca := ⟨_, rfl⟩
  obtain ⟨v, hv⟩ : ∃ m, m = le 1 0x81 := ⟨_, rfl⟩
  obtain ⟨t, ht⟩ : ∃ m, m = le 1 cfg.verify := ⟨_, rfl⟩
  obtain ⟨l, hle⟩ : ∃ m, m = le 4 len := ⟨_, rfl⟩
  obtain ⟨s, hs⟩ : ∃ m, m = le 8 io.seed.toNat := ⟨_, rfl⟩
  obtain ⟨o, hof⟩ : ∃ m, m = le 8 (hdrOffset cfg io num).toNat := ⟨_, rfl⟩
  obtain ⟨sec, hsec⟩ : ∃ m, m = le 4 io.sec.toNat := ⟨_, rfl⟩
  obtain ⟨ns, hns⟩ : ∃ m, m = le 4 io.nsec.toNat := ⟨_, rfl⟩
  obtain ⟨n, hn⟩ : ∃ m, m = le 8 io.numberio.toNat := ⟨_, rfl⟩
  obtain ⟨th, hth⟩ : ∃ m, m = le 2 cfg.thread.toNat := ⟨_, rfl⟩
  rw [← hm, ← hv, ← ht, ← hle, ← hs, ← hof, ← hsec, ← hns, ← hn, ← hth]
  have lm : m.length = 2 := by simp [hm]
  have lv : v.length = 1 := by simp [hv]
  have lt : t.length = 1 := by simp [ht]
  have ll : l.length = 4 := by simp [hle]
  have lse : s.length = 8 := by simp [hs]
  have lo : o.length = 8 := by simp [hof]
  have lsec : sec.length = 4 := by simp [hsec]
  have lns : ns.length = 4 := by simp [hns]
  have ln : n.length = 8 := by simp [hn]
  have lth : th.length = 2 := by simp [hth]
  obtain ⟨body, hb⟩ : ∃ b, b = m ++ v ++ t ++ l ++ s ++ o ++ sec ++ ns ++ n ++ th ++ pad := ⟨_, rfl⟩
  rw [← hb]
  have lb : body.length = 44 := by simp [hb, lm, lv, lt, ll, lse, lo, lsec, lns, ln, lth, hpad]
  obtain ⟨c, hc⟩ : ∃ c, c = le 4 (Crc.crc32c body).toNat := ⟨_, rfl⟩
  rw [← hc]
  have lc : c.length = 4 := by simp [hc]
  have e64 : ∀ x : BitVec 64, fromLe (le 8 x.toNat) = x.toNat := fun x => by
    rw [fromLe_le]; exact Nat.mod_eq_of_lt x.isLt
  have f1 : field (body ++ c) 0 2 = fromLe m := by
    have := field_append (pre := []) (mid := m) (post := v ++ t ++ l ++ s ++ o ++ sec ++ ns ++ n ++ th ++ pad ++ c) (off := 0) rfl lm
    rw [← this, hb]; simp only [List.append_assoc, List.nil_append]
  have f2 : field (body ++ c) 2 1 = fromLe v := by
    have := field_append (pre := m) (mid := v) (post := t ++ l ++ s ++ o ++ sec ++ ns ++ n ++ th ++ pad ++ c) lm lv
    rw [← this, hb]; simp only [List.append_assoc]
  have f3 : field (body ++ c) 3 1 = fromLe t := by
    have := field_append (pre := m ++ v) (mid := t) (post := l ++ s ++ o ++ sec ++ ns ++ n ++ th ++ pad ++ c) (off := 3) (by simp [lm, lv]) lt
    rw [← this, hb]; simp only [List.append_assoc]
  have f4 : field (body ++ c) 4 4 = fromLe l := by
    have := field_append (pre := m ++ v ++ t) (mid := l) (post := s ++ o ++ sec ++ ns ++ n ++ th ++ pad ++ c) (off := 4) (by simp [lm, lv, lt]) ll
    rw [← this, hb]; simp only [List.append_assoc]
  have f5 : field (body ++ c) 8 8 = fromLe s := by
    have := field_append (pre := m ++ v ++ t ++ l) (mid := s) (post := o ++ sec ++ ns ++ n ++ th ++ pad ++ c) (off := 8) (by simp [lm, lv, lt, ll]) lse
    rw [← this, hb]; simp only [List.append_assoc]
  have f6 : field (body ++ c) 16 8 = fromLe o := by
    have := field_append (pre := m ++ v ++ t ++ l ++ s) (mid := o) (post := sec ++ ns ++ n ++ th ++ pad ++ c) (off := 16) (by simp [lm, lv, lt, ll, lse]) lo
    rw [← this, hb]; simp only [List.append_assoc]
  have f7 : field (body ++ c) 32 8 = fromLe n := by
    have := field_append (pre := m ++ v ++ t ++ l ++ s ++ o ++ sec ++ ns) (mid := n) (post := th ++ pad ++ c) (off := 32) (by simp [lm, lv, lt, ll, lse, lo, lsec, lns]) ln
    rw [← this, hb]; simp only [List.append_assoc]
  have f8 : field (body ++ c) 44 4 = fromLe c := by
    have := field_append (pre := body) (mid := c) (post := []) lb lc
    rw [← this]; simp only [List.append_nil]
  have f9 : (body ++ c).take 44 = body := by rw [← lb, List.take_append_of_le_length (Nat.le_refl _), List.take_length]
  refine ⟨⟨?_, ?_, ?_, fun _ => ?_, ?_, fun _ => ?_, ?_⟩, ?_⟩
  · rw [f1, hm, fromLe_le]
  · rw [f2, hv, fromLe_le]
  · rw [f4, hle, fromLe_le]; exact Nat.mod_eq_of_lt hl
  · rw [f5, hs, e64]
  · rw [f6, hof, e64]
  · rw [f7, hn, e64]
  · rw [f8, f9, hc, fromLe_le]; exact (Nat.mod_eq_of_lt (Crc.crc32c body).isLt).symm
  · rw [f3, ht, fromLe_le]

/-! ## One flipped bit -/

/-- `y` is `x` with bit `j` of byte `i` inverted. -/
def FlipAt (x y : List Byte) (i j : Nat) : Prop :=
  j < 8 ∧ y.length = x.length ∧ (∃ d, x[i]? = some d ∧ y[i]? = some (d ^^^ BitVec.twoPow 8 j)) ∧ ∀ k, k ≠ i → y[k]? = x[k]?

theorem FlipAt.lt {x y : List Byte} {i j : Nat} (h : FlipAt x y i j) : i < x.length := by
  obtain ⟨d, hd, -⟩ := h.2.2.1
  exact (List.getElem?_eq_some_iff.1 hd).1

/-- A flipped bit seen as a replacement in the middle. -/
theorem FlipAt.split {x y : List Byte} {i j : Nat} (h : FlipAt x y i j) :
    ∃ a d z, x = a ++ d :: z ∧ y = a ++ (d ^^^ BitVec.twoPow 8 j) :: z ∧ a.length = i := by
  obtain ⟨hj, hl, ⟨d, hd, hd'⟩, hk⟩ := h
  obtain ⟨hi, hdx⟩ := List.getElem?_eq_some_iff.1 hd
  refine ⟨x.take i, d, x.drop (i + 1), ?_, ?_, by simp; omega⟩
  · apply List.ext_getElem?
    intro k
    rcases Nat.lt_trichotomy k i with h1 | h1 | h1
    · rw [List.getElem?_append_left (by simp; omega), List.getElem?_take_of_lt h1]
    · subst h1
      rw [List.getElem?_append_right (by simp), List.length_take, Nat.min_eq_left (by omega), Nat.sub_self]
      simpa using hd
    · rw [List.getElem?_append_right (by simp; omega), List.length_take, Nat.min_eq_left (by omega),
        show k - i = (k - i - 1) + 1 by omega, List.getElem?_cons_succ, List.getElem?_drop]
      congr 1; omega
  · apply List.ext_getElem?
    intro k
    rcases Nat.lt_trichotomy k i with h1 | h1 | h1
    · rw [List.getElem?_append_left (by simp; omega), List.getElem?_take_of_lt h1, hk k (by omega)]
    · subst h1
      rw [List.getElem?_append_right (by simp), List.length_take, Nat.min_eq_left (by omega), Nat.sub_self]
      simpa using hd'
    · rw [List.getElem?_append_right (by simp; omega), List.length_take, Nat.min_eq_left (by omega),
        show k - i = (k - i - 1) + 1 by omega, List.getElem?_cons_succ, List.getElem?_drop, hk k (by omega)]
      congr 1; omega

theorem xor_bit_ne (d : Byte) (j : Nat) (hj : j < 8) : d ^^^ BitVec.twoPow 8 j ≠ d := by
  intro h
  have := congrArg (fun b : Byte => b.getLsbD j) h
  simp [hj] at this

theorem FlipAt.ne {x y : List Byte} {i j : Nat} (h : FlipAt x y i j) : x ≠ y := by
  obtain ⟨hj, -, ⟨d, hd, hd'⟩, -⟩ := h
  intro e
  rw [e, hd'] at hd
  exact xor_bit_ne d j hj (Option.some.inj hd)

/-- Restriction of a flip to a slice. -/
theorem FlipAt.slice {x y : List Byte} {i j : Nat} (h : FlipAt x y i j) (off n : Nat) (hx : off + n ≤ x.length) :
    (off ≤ i ∧ i < off + n → FlipAt ((x.drop off).take n) ((y.drop off).take n) (i - off) j) ∧
    (¬ (off ≤ i ∧ i < off + n) → (y.drop off).take n = (x.drop off).take n) := by
  obtain ⟨hj, hl, ⟨d, hd, hd'⟩, hk⟩ := h
  constructor
  · intro hi
    refine ⟨hj, by simp; omega, ⟨d, ?_, ?_⟩, ?_⟩
    · rw [List.getElem?_take_of_lt (by omega), List.getElem?_drop, show off + (i - off) = i by omega, hd]
    · rw [List.getElem?_take_of_lt (by omega), List.getElem?_drop, show off + (i - off) = i by omega, hd']
    · intro k hk'
      by_cases hkn : k < n
      · rw [List.getElem?_take_of_lt hkn, List.getElem?_take_of_lt hkn, List.getElem?_drop, List.getElem?_drop, hk _ (by omega)]
      · rw [List.getElem?_eq_none (by simp; omega), List.getElem?_eq_none (by simp; omega)]
  · intro hi
    apply List.ext_getElem?
    intro k
    by_cases hkn : k < n
    · rw [List.getElem?_take_of_lt hkn, List.getElem?_take_of_lt hkn, List.getElem?_drop, List.getElem?_drop, hk _ (by omega)]
    · rw [List.getElem?_eq_none (by simp; omega), List.getElem?_eq_none (by simp; omega)]

theorem crc32c_flip {x y : List Byte} {i j : Nat} (h : FlipAt x y i j) : Crc.crc32c x ≠ Crc.crc32c y := by
  obtain ⟨a, d, z, rfl, rfl, -⟩ := h.split
  exact (Crc.C20_single_bit a z d j h.1).1

/-- A header that is acceptable to some verifier is rejected by every verifier once a bit is flipped. -/
theorem flip_rejected (cfg cfg' : Cfg) (io io' : Io) (num num' len len' : Nat) (h h' : List Byte) (hl : h.length = 48)
    (g : Good cfg io num len h) (i j : Nat) (hf : FlipAt h h' i j) : ¬ Good cfg' io' num' len' h' := by
  intro g'
  have hi := hf.lt
  by_cases hb : i < 44
  · -- covered by the checksum
    have h1 := (hf.slice 0 44 (by omega)).1 ⟨by omega, by omega⟩
    have h2 := (hf.slice 44 4 (by omega)).2 (by omega)
    rw [List.drop_zero, List.drop_zero] at h1
    refine crc32c_flip h1 (BitVec.eq_of_toNat_eq ?_)
    rw [g.crc, g'.crc]
    unfold field; rw [h2]
  · -- the checksum itself
    have h1 := (hf.slice 0 44 (by omega)).2 (by omega)
    have h2 := (hf.slice 44 4 (by omega)).1 ⟨by omega, by omega⟩
    rw [List.drop_zero, List.drop_zero] at h1
    refine h2.ne (fromLe_inj _ _ (by simp [hl, hf.2.1]) ?_)
    have e1 := g.crc
    have e2 := g'.crc
    rw [h1, e1] at e2
    exact e2

/-! ## C19 -/

/-- **C19**, acceptance: the header filled in for a block is accepted when the block is re-read, for every
job configuration, header number, block and previous buffer contents. -/
theorem C19_accept (cfg : Cfg) (io : Io) (num len : Nat) (old : List Byte) (ho : old.length = 48) (hl : len < 2 ^ 32) :
    verifyHeader cfg io num len (fillHdr cfg io num len old) = true :=
  (verifyHeader_iff ..).2 (fillHdr_fields cfg io num len old ho hl).1

/-- **C19**, fields: a header is rejected as soon as its magic, version, length or offset is not the
expected one, or its seed or sequence number when these are checked. -/
theorem C19_fields (cfg : Cfg) (io : Io) (num len : Nat) (h : List Byte)
    (hbad : field h 0 2 ≠ 0xacca ∨ field h 2 1 ≠ 0x81 ∨ field h 4 4 ≠ len ∨
      (cfg.checkSeed = true ∧ field h 8 8 ≠ io.seed.toNat) ∨
      field h 16 8 ≠ (io.offset.toNat + num * cfg.interval.toNat % 2 ^ 32) % 2 ^ 64 ∨
      (cfg.checkSeq = true ∧ field h 32 8 ≠ io.numberio.toNat)) :
    verifyHeader cfg io num len h = false := by
  rw [Bool.eq_false_iff]
  intro g
  have g := (verifyHeader_iff ..).1 g
  have eo : (hdrOffset cfg io num).toNat = (io.offset.toNat + num * cfg.interval.toNat % 2 ^ 32) % 2 ^ 64 := by
    unfold hdrOffset
    rw [BitVec.toNat_add, BitVec.toNat_setWidth, BitVec.toNat_mul, BitVec.toNat_ofNat, Nat.mod_mul_mod]
    congr 2
    apply Nat.mod_eq_of_lt
    have : num * cfg.interval.toNat % 2 ^ 32 < 2 ^ 32 := Nat.mod_lt _ (by decide)
    omega
  rcases hbad with h1 | h1 | h1 | ⟨h1, h2⟩ | h1 | ⟨h1, h2⟩
  · exact h1 g.magic
  · exact h1 g.version
  · exact h1 g.len
  · exact h2 (g.seed h1)
  · rw [← eo] at h1; exact h1 g.offset
  · exact h2 (g.seq h1)

/-- **C19**, single bits: a filled header with any one bit inverted — padding and checksum included — is
rejected by every verifier, whatever it expects. -/
theorem C19_single_bit (cfg cfg' : Cfg) (io io' : Io) (num num' len len' : Nat) (old h' : List Byte) (ho : old.length = 48)
    (hl : len < 2 ^ 32) (i j : Nat) (hf : FlipAt (fillHdr cfg io num len old) h' i j) :
    verifyHeader cfg' io' num' len' h' = false := by
  rw [Bool.eq_false_iff]
  intro g
  exact flip_rejected cfg cfg' io io' num num' len len' _ h' (fillHdr_length cfg io num len old ho)
    (fillHdr_fields cfg io num len old ho hl).1 i j hf ((verifyHeader_iff ..).1 g)

/-! ### Non-trivial cases -/

def exCfg : Cfg :=
  { verify := 5, interval := 512#32, voffset := 0, unaligned := false, checkSeed := true, checkSeq := true,
    fatal := false, thread := 3#16, pattern := [], fmts := [], pinterval := 0 }
def exIo : Io := { offset := 0x12345000#64, seed := 0xdeadbeefcafe#64, numberio := 77#64, sec := 1000#32, nsec := 5#32 }

example : verifyHeader exCfg exIo 3 512 (fillHdr exCfg exIo 3 512 (List.replicate 48 0xaa#8)) = true ∧
    verifyHeader exCfg exIo 2 512 (fillHdr exCfg exIo 3 512 (List.replicate 48 0xaa#8)) = false ∧
    field (fillHdr exCfg exIo 3 512 (List.replicate 48 0xaa#8)) 16 8 = 0x12345600 := by decide +kernel

example : FlipAt [1#8, 2#8] [1#8, 0x82#8] 1 7 :=
  ⟨by decide, rfl, ⟨2#8, rfl, by decide⟩, fun k hk => by
    match k, hk with
    | 0, _ => rfl
    | 1, h => exact absurd rfl h
    | k + 2, _ => rfl⟩

end Fio.Verify
