import Verif.Hash.Upd

/-! # The final functions -/

namespace Fio.Hash
open Spec (blocks Regs Regs4 Regs5 sha256P sha512P toBe toLe)

/-! ## Bytes of numbers -/

theorem ofNat_congr (a b : Nat) (h : a % 256 = b % 256) : BitVec.ofNat 8 a = BitVec.ofNat 8 b := by
  apply BitVec.eq_of_toNat_eq
  simpa using h

theorem toBe4 (n : Nat) : toBe 4 n = [BitVec.ofNat 8 (n / 16777216), BitVec.ofNat 8 (n / 65536), BitVec.ofNat 8 (n / 256),
    BitVec.ofNat 8 n] := by
  simp only [toBe, Nat.div_div_eq_div_mul, List.nil_append, List.cons_append, Nat.reduceMul]

theorem toLe4 (n : Nat) : toLe 4 n = [BitVec.ofNat 8 n, BitVec.ofNat 8 (n / 256), BitVec.ofNat 8 (n / 65536),
    BitVec.ofNat 8 (n / 16777216)] := by
  simp only [toLe, Nat.div_div_eq_div_mul, Nat.reduceMul]

theorem toBe8 (n : Nat) : toBe 8 n = toBe 4 (n / 4294967296) ++ toBe 4 n := by
  simp only [toBe, Nat.div_div_eq_div_mul, List.nil_append, List.cons_append, Nat.reduceMul]

theorem toLe8 (n : Nat) : toLe 8 n = toLe 4 n ++ toLe 4 (n / 4294967296) := by
  simp only [toLe, Nat.div_div_eq_div_mul, List.nil_append, List.cons_append, Nat.reduceMul]

theorem toBe4_mod (a b : Nat) (h : a % 4294967296 = b % 4294967296) : toBe 4 a = toBe 4 b := by
  rw [toBe4, toBe4, ofNat_congr (a / 16777216) (b / 16777216) (by omega), ofNat_congr (a / 65536) (b / 65536) (by omega),
    ofNat_congr (a / 256) (b / 256) (by omega), ofNat_congr a b (by omega)]

theorem toLe4_mod (a b : Nat) (h : a % 4294967296 = b % 4294967296) : toLe 4 a = toLe 4 b := by
  rw [toLe4, toLe4, ofNat_congr (a / 16777216) (b / 16777216) (by omega), ofNat_congr (a / 65536) (b / 65536) (by omega),
    ofNat_congr (a / 256) (b / 256) (by omega), ofNat_congr a b (by omega)]

theorem byte_shift {w : Nat} (x : BitVec w) (k : Nat) : (x >>> k).setWidth 8 = BitVec.ofNat 8 (x.toNat / 2 ^ k) := by
  apply BitVec.eq_of_toNat_eq
  simp [Nat.shiftRight_eq_div_pow]

theorem st32_eq (x : BitVec 32) : st32 x = toLe 4 x.toNat := by
  rw [toLe4]
  show [_, _, _, _] = _
  simp only [byte_shift, Nat.reduceMul, Nat.reducePow, Nat.pow_zero, Nat.div_one]

theorem st64_eq (x : BitVec 64) : st64 x = toLe 8 x.toNat := by
  rw [toLe8, toLe4, toLe4]
  show [_, _, _, _, _, _, _, _] = _
  simp only [byte_shift, Nat.reduceMul, Nat.reducePow, Nat.pow_zero, Nat.div_one, List.cons_append, List.nil_append,
    Nat.div_div_eq_div_mul]

theorem out512_eq (x : BitVec 64) : out512 x = toBe 8 x.toNat := by
  rw [toBe8, toBe4, toBe4]
  show [_, _, _, _, _, _, _, _] = _
  simp only [byte_shift, Nat.reduceMul, Nat.reducePow, Nat.pow_zero, Nat.div_one, List.cons_append, List.nil_append,
    Nat.div_div_eq_div_mul, Nat.reduceSub]

theorem st32_be32 (x : BitVec 32) : st32 (be32 x) = toBe 4 x.toNat := by
  rw [toBe4]
  show [_, _, _, _] = _
  have h : ∀ k, BitVec.ofNat 8 (x.toNat / 2 ^ k) = (x >>> k).setWidth 8 := fun k => (byte_shift x k).symm
  rw [show x.toNat / 16777216 = x.toNat / 2 ^ 24 from rfl, show x.toNat / 65536 = x.toNat / 2 ^ 16 from rfl,
    show x.toNat / 256 = x.toNat / 2 ^ 8 from rfl, show BitVec.ofNat 8 x.toNat = (x >>> 0).setWidth 8 by
      rw [byte_shift, Nat.pow_zero, Nat.div_one], h, h, h]
  have key : ∀ (y z : BitVec 8), (∀ i < 8, y.getLsbD i = z.getLsbD i) → y = z := by
    intro y z hh
    exact BitVec.eq_of_getLsbD_eq (fun i hi => hh i hi)
  simp only [List.cons.injEq, and_true]
  refine ⟨?_, ?_, ?_, ?_⟩ <;>
  · apply key
    intro i hi
    simp only [be32, BitVec.getLsbD_setWidth, BitVec.getLsbD_or, BitVec.getLsbD_and, BitVec.getLsbD_shiftLeft,
      BitVec.getLsbD_ushiftRight]
    match i, hi with
    | 0, _ | 1, _ | 2, _ | 3, _ | 4, _ | 5, _ | 6, _ | 7, _ => simp
    | n + 8, h => omega

/-! ## Padding -/

theorem padding_take (n k : Nat) (h : k < n) : (padding n).take (1 + k) = 0x80#8 :: List.replicate k 0#8 := by
  rw [padding, Nat.add_comm, List.take_succ_cons, List.take_replicate, Nat.min_eq_left (by omega)]

theorem put_app (a t xs : List Byte) (n : Nat) (hn : n = a.length) (h : xs.length ≤ t.length) :
    put (a ++ t) n xs = some (a ++ (xs ++ t.drop xs.length)) := by
  rw [put, if_pos (by rw [List.length_append]; omega), hn, List.take_left, List.drop_append, List.drop_eq_nil_of_le (by omega),
    List.nil_append, Nat.add_sub_cancel_left]

theorem blocks_one (B : Nat) (hB : 0 < B) (l : List Byte) (h : l.length = B) : blocks B l = [l] := by
  rw [blocks_cons B hB l (by omega), List.take_of_length_le (by omega), List.drop_eq_nil_of_le (by omega),
    blocks_lt B [] hB]

/-! ## SHA-1 -/

theorem final1_inv (junk : List (BitVec 32)) (hj : junk.length = 16) {m : List Byte} {c : Ctx1} (h : Inv1 m c)
    (hm : m.length < 2305843009213693952) : ∃ c', final1 junk c = some c' ∧ c'.H = Spec.sha1 m := by
  have hz : c.size = m.length := by rw [h.size]; omega
  have hp : st32 (be32 ((BitVec.ofNat 64 m.length >>> 29).setWidth 32)) ++
      st32 (be32 ((BitVec.ofNat 64 m.length <<< 3).setWidth 32)) = toBe 8 (8 * m.length) := by
    rw [st32_be32, st32_be32, toBe8]
    congr 1
    · apply toBe4_mod
      simp only [BitVec.toNat_setWidth, BitVec.toNat_ushiftRight, BitVec.toNat_ofNat, Nat.shiftRight_eq_div_pow]
      omega
    · apply toBe4_mod
      simp only [BitVec.toNat_setWidth, BitVec.toNat_shiftLeft, BitVec.toNat_ofNat, Nat.shiftLeft_eq]
      omega
  have hk : ((55 - ((m.length % 64 : Nat) : Int)) % 64).toNat = (64 - (m.length + 1 + 8) % 64) % 64 := by omega
  simp only [final1, hz, hk, hp]
  rw [padding_take 64 _ (by omega)]
  obtain ⟨c1, u1, i1⟩ := update1_inv junk hj h (0x80#8 :: List.replicate ((64 - (m.length + 1 + 8) % 64) % 64) 0#8)
  obtain ⟨c2, u2, i2⟩ := update1_inv junk hj i1 (toBe 8 (8 * m.length))
  simp only [u1, Option.bind_eq_bind, Option.bind_some, u2]
  refine ⟨c2, rfl, ?_⟩
  rw [i2.str.st, Spec.sha1, Spec.pad, List.append_assoc, List.cons_append]

/-! ## SHA-512 -/

theorem bits512_eq (c : Count) (h : c.Ok) : bits512 c = toBe 16 c.num := by
  obtain ⟨h0, h1, h2, h3⟩ := h
  have e : toBe 16 c.num = toBe 4 (c.num / 79228162514264337593543950336) ++ (toBe 4 (c.num / 18446744073709551616) ++
      (toBe 4 (c.num / 4294967296) ++ toBe 4 c.num)) := by
    simp only [toBe, Nat.div_div_eq_div_mul, List.nil_append, List.cons_append, Nat.reduceMul]
  rw [e, toBe4_mod (c.num / 79228162514264337593543950336) c.c3 (by rw [Count.num]; omega),
    toBe4_mod (c.num / 18446744073709551616) c.c2 (by rw [Count.num]; omega),
    toBe4_mod (c.num / 4294967296) c.c1 (by rw [Count.num]; omega), toBe4_mod c.num c.c0 (by rw [Count.num]; omega)]
  simp only [toBe4]
  show [_, _, _, _, _, _, _, _, _, _, _, _, _, _, _, _] = _
  simp only [Nat.reduceLT, if_true, if_false, Nat.reduceMod, Nat.reduceSub, Nat.reducePow, List.cons_append,
    List.nil_append, Nat.pow_zero, Nat.div_one]

/-- An update that fills the buffer exactly leaves the block in it. -/
theorem update512_exact {m : List Byte} {c : Ctx512} (h : Inv512 m c) (hl : c.buf.length = 128) (data : List Byte)
    (hd : m.length % 128 + data.length = 128) {c' : Ctx512} (hu : update512 c data = some c') :
    c'.buf = rest 128 m ++ data := by
  have hlt := Nat.mod_lt m.length (show 128 > 0 by decide)
  simp only [update512, h.idx] at hu
  rw [if_pos (by omega), cpy_eq _ _ _ _ _ (by omega) (by omega)] at hu
  simp only [Option.bind_eq_bind, Option.bind_some, List.drop_zero] at hu
  obtain ⟨f1, f2⟩ := first_block (d := data) (by decide) h.str.len rfl h.str.buf (by omega)
  rw [transform512_eq _ _ f2, Option.bind_some, loop512_inv data (by omega) _ _ _ (by omega) (by omega)] at hu
  simp only [Option.bind_some, show (data.length - (128 - m.length % 128)) / 128 = 0 by omega, Nat.mul_zero,
    Nat.add_zero] at hu
  rw [cpy_eq _ _ _ _ _ (by omega) (by omega), show data.length - (128 - m.length % 128) = 0 by omega, List.take_zero,
    List.take_zero, List.nil_append, List.nil_append] at hu
  simp only [Option.bind_some, Option.some.injEq, Nat.zero_add, List.drop_zero] at hu
  rw [← hu]
  simp only
  rw [h.str.buf, List.take_of_length_le (l := data) (by omega), List.drop_eq_nil_of_le (by omega), List.append_nil]

theorem update512_len {c c' : Ctx512} {data : List Byte} (h : update512 c data = some c') :
    c'.buf.length = c.buf.length := by
  simp only [update512] at h
  split at h
  · simp only [Option.bind_eq_bind, Option.bind_eq_some_iff, Option.some.injEq] at h
    obtain ⟨b, hb, st, hs, ⟨st2, i⟩, hl, b2, hb2, rfl⟩ := h
    exact (cpy_len hb2).trans (cpy_len hb)
  · simp only [Option.bind_eq_bind, Option.bind_eq_some_iff, Option.some.injEq] at h
    obtain ⟨b, hb, rfl⟩ := h
    exact cpy_len hb

theorem regs_bytes (s : Regs 64) : [s.a, s.b, s.c, s.d, s.e, s.f, s.g, s.h].flatMap out512 = s.bytes := by
  simp only [Spec.Regs.bytes, List.flatMap_cons, List.flatMap_nil, out512_eq, Nat.reduceDiv]

theorem regs_bytes_len (s : Regs 64) : s.bytes.length = 64 := by
  simp [Spec.Regs.bytes, toBe]

/-- The last block of a string. -/
def lastBlock (B : Nat) (l : List Byte) : List Byte := l.drop (l.length - B)

theorem final512_inv {m : List Byte} {c : Ctx512} (h : Inv512 m c) (hl : c.buf.length = 128)
    (hm : 8 * m.length < 340282366920938463463374607431768211456) :
    ∃ c', final512 c = some c' ∧
      c'.buf = Spec.sha2 sha512P m ++ (lastBlock 128 (Spec.pad 128 16 (toBe 16) m)).drop 64 := by
  have hz : c.count.num = 8 * m.length := by rw [h.num]; exact Nat.mod_eq_of_lt hm
  have hk : (if m.length % 128 < 112 then 112 - m.length % 128 else 128 + 112 - m.length % 128) =
      1 + (128 - (m.length + 1 + 16) % 128) % 128 := by
    by_cases hc : m.length % 128 < 112
    · rw [if_pos hc]; omega
    · rw [if_neg hc]; omega
  simp only [final512, h.idx, hk, bits512_eq _ h.ok, hz]
  rw [padding_take 128 _ (by omega)]
  obtain ⟨c1, u1, i1⟩ := update512_inv h (0x80#8 :: List.replicate ((128 - (m.length + 1 + 16) % 128) % 128) 0#8)
    (by simp; omega)
  obtain ⟨c2, u2, i2⟩ := update512_inv i1 (toBe 16 (8 * m.length)) (by simp [toBe])
  have hml : (m ++ 0x80#8 :: List.replicate ((128 - (m.length + 1 + 16) % 128) % 128) 0#8).length % 128 = 112 := by
    simp; omega
  have e := update512_exact i1 ((update512_len u1).trans hl) _ (by rw [hml]; simp [toBe]) u2
  simp only [u1, Option.bind_eq_bind, Option.bind_some, u2, regs_bytes]
  rw [put, if_pos (by rw [regs_bytes_len, update512_len u2, update512_len u1]; omega)]
  refine ⟨_, rfl, ?_⟩
  simp only [List.take_zero, List.nil_append, regs_bytes_len, Nat.zero_add]
  have hpad : (m ++ 0x80#8 :: List.replicate ((128 - (m.length + 1 + 16) % 128) % 128) 0#8) ++ toBe 16 (8 * m.length) =
      Spec.pad 128 16 (toBe 16) m := by
    rw [Spec.pad, List.append_assoc, List.cons_append]
  have hst : c2.state.bytes = Spec.sha2 sha512P m := by
    rw [i2.str.st, hpad]; rfl
  rw [hst, e]
  refine congrArg (fun l => Spec.sha2 sha512P m ++ List.drop 64 l) ?_
  rw [← hpad, lastBlock]
  have hrl := rest_length 128 (m ++ 0x80#8 :: List.replicate ((128 - (m.length + 1 + 16) % 128) % 128) 0#8)
  have htl : (toBe 16 (8 * m.length)).length = 16 := by simp [toBe]
  generalize m ++ 0x80#8 :: List.replicate ((128 - (m.length + 1 + 16) % 128) % 128) 0#8 = p at *
  have hp : 112 ≤ p.length := by omega
  rw [List.length_append, htl, show p.length + 16 - 128 = p.length - 112 by omega,
    List.drop_append_of_le_length (by omega), rest]
  congr 2
  omega

/-! ## MD5 -/

theorem final5_inv {m : List Byte} {c : Ctx5} (h : Inv5 m c) (hm : m.length < 2305843009213693952) :
    ∃ c', final5 c = some c' ∧ c'.hash = Spec.md5 m := by
  have hz : c.byteCount = m.length := by rw [h.count]; omega
  have hlt := Nat.mod_lt m.length (show 64 > 0 by decide)
  have hr := rest_length 64 m
  have hlo : st32 ((BitVec.ofNat 64 m.length <<< 3).setWidth 32) = toLe 4 (8 * m.length) := by
    rw [st32_eq]
    apply toLe4_mod
    simp only [BitVec.toNat_setWidth, BitVec.toNat_shiftLeft, BitVec.toNat_ofNat, Nat.shiftLeft_eq]
    omega
  have hhi : st32 ((BitVec.ofNat 64 m.length >>> 29).setWidth 32) = toLe 4 (8 * m.length / 4294967296) := by
    rw [st32_eq]
    apply toLe4_mod
    simp only [BitVec.toNat_setWidth, BitVec.toNat_ushiftRight, BitVec.toNat_ofNat, Nat.shiftRight_eq_div_pow]
    omega
  have hb : c.block = rest 64 m ++ c.block.drop (m.length % 64) := by
    rw [← h.str.buf, List.take_append_drop]
  have ht : (c.block.drop (m.length % 64)).length = 64 - m.length % 64 := by rw [List.length_drop, h.len]
  generalize c.block.drop (m.length % 64) = t at *
  have l4 : ∀ n, (toLe 4 n).length = 4 := fun n => by simp [toLe]
  -- the last block
  have hlast : ∀ (hash : Regs4) (a u : List Byte), a.length = 56 → u.length = 8 →
      (do let block ← put (a ++ u) 56 (toLe 4 (8 * m.length))
          let block ← put block 60 (toLe 4 (8 * m.length / 4294967296))
          let hash ← transform5 hash block
          some { c with hash, block : Ctx5 }) =
        some ⟨Spec.comp5 hash (a ++ toLe 8 (8 * m.length)), a ++ toLe 8 (8 * m.length), c.byteCount⟩ := by
    intro hash a u ha hu
    rw [put_app a u _ 56 ha.symm (by rw [l4]; omega)]
    simp only [Option.bind_eq_bind, Option.bind_some]
    rw [← List.append_assoc, put_app _ _ _ 60 (by rw [List.length_append, l4]; omega) (by rw [List.length_drop, l4, l4]; omega)]
    simp only [Option.bind_some]
    have e : a ++ toLe 4 (8 * m.length) ++ (toLe 4 (8 * m.length / 4294967296) ++
        (u.drop (toLe 4 (8 * m.length)).length).drop (toLe 4 (8 * m.length / 4294967296)).length) =
        a ++ toLe 8 (8 * m.length) := by
      rw [l4, l4, List.drop_drop, List.drop_eq_nil_of_le (by omega), List.append_nil, List.append_assoc, toLe8]
    have el : (a ++ toLe 8 (8 * m.length)).length = 64 := by rw [List.length_append, toLe8, List.length_append, l4, l4]; omega
    rw [e, transform5_eq _ _ (by omega), List.take_of_length_le (by omega)]
    rfl
  simp only [Option.bind_eq_bind, hz] at hlast
  have hmd : ∀ x, Spec.md5 m = x ↔ (blocks 64 (rest 64 m ++ (0x80#8 ::
      (List.replicate ((64 - (m.length + 1 + 8) % 64) % 64) 0#8 ++ toLe 8 (8 * m.length))))).foldl Spec.comp5 c.hash = x := by
    intro x
    rw [Spec.md5, Spec.pad, (blocks_more 64 (by decide) m _).1, List.foldl_append, ← h.str.st]
  simp only [final5, hz, hlo, hhi]
  rw [hb, put_app _ _ _ _ hr.symm (by simp; omega)]
  simp only [Option.bind_eq_bind, Option.bind_some, List.length_cons, List.length_nil, Nat.zero_add]
  by_cases hc : (56 : Int) - (((m.length % 64 : Nat) : Int) + 1) < 0
  · rw [if_pos hc, ← List.append_assoc, put_app _ _ _ _ (by simp [hr]) (by simp [ht]; omega)]
    simp only [Option.bind_some]
    have hn : ((56 : Int) - (((m.length % 64 : Nat) : Int) + 1) + 8).toNat = 63 - m.length % 64 := by omega
    rw [hn, List.length_replicate, List.drop_drop, List.drop_eq_nil_of_le (by omega), List.append_nil]
    have hbl : (rest 64 m ++ [0x80#8] ++ List.replicate (63 - m.length % 64) 0#8).length = 64 := by simp [hr]; omega
    rw [transform5_eq _ _ (by omega), List.take_of_length_le (by omega)]
    simp only [Option.bind_some]
    rw [put, if_pos (by rw [List.length_replicate]; omega), List.take_zero, List.nil_append, List.length_replicate]
    simp only [Option.bind_some]
    rw [hlast _ _ _ (List.length_replicate ..) (by rw [List.length_drop]; omega)]
    refine ⟨_, rfl, Eq.symm ((hmd _).mpr ?_)⟩
    have hl2 : rest 64 m ++ (0x80#8 :: (List.replicate ((64 - (m.length + 1 + 8) % 64) % 64) 0#8 ++ toLe 8 (8 * m.length)))
        = (rest 64 m ++ [0x80#8] ++ List.replicate (63 - m.length % 64) 0#8) ++
          (List.replicate 56 0#8 ++ toLe 8 (8 * m.length)) := by
      rw [show (64 - (m.length + 1 + 8) % 64) % 64 = 63 - m.length % 64 + 56 by omega, ← List.replicate_append_replicate]
      simp
    rw [hl2, (blocks_append 64 (by decide) 1 _ _ (by omega)).1, blocks_one 64 (by decide) _ hbl,
      blocks_one 64 (by decide) _ (by rw [List.length_append, List.length_replicate, toLe8, List.length_append, l4, l4])]
    rfl
  · rw [if_neg hc]
    rw [← List.append_assoc, put_app _ _ _ _ (by simp [hr]) (by simp [ht]; omega)]
    simp only [Option.bind_some]
    rw [← List.append_assoc, hlast _ _ _ (by simp [hr]; omega) (by simp [ht]; omega)]
    refine ⟨_, rfl, Eq.symm ((hmd _).mpr ?_)⟩
    have hn : ((56 : Int) - (((m.length % 64 : Nat) : Int) + 1)).toNat = (64 - (m.length + 1 + 8) % 64) % 64 := by omega
    rw [hn]
    have hl2 : rest 64 m ++ (0x80#8 :: (List.replicate ((64 - (m.length + 1 + 8) % 64) % 64) 0#8 ++ toLe 8 (8 * m.length)))
        = rest 64 m ++ [0x80#8] ++ List.replicate ((64 - (m.length + 1 + 8) % 64) % 64) 0#8 ++ toLe 8 (8 * m.length) := by
      simp
    rw [hl2, blocks_one 64 (by decide) _ (by
      simp only [List.length_append, List.length_replicate, toLe8, l4, hr, List.length_cons, List.length_nil]; omega)]
    rfl

/-! ## SHA-3 -/

theorem put_len {b : List Byte} {off : Nat} {xs b' : List Byte} (h : put b off xs = some b') : b'.length = b.length := by
  rw [put] at h
  split at h
  · cases h
    simp only [List.length_append, List.length_take, List.length_drop]
    omega
  · cases h

theorem inv3_init (k d : Nat) (hk : 0 < k) (hk2 : 8 * k ≤ 144) (hd : 200 - 2 * d = 8 * k) : Inv3 k d [] (init3 d) := by
  refine ⟨⟨⟨List.length_replicate .., ?_⟩, ?_, by simp [rest]⟩, ?_, hd, ?_, rfl⟩
  · rw [blocks_lt _ [] (by simp; omega)]
    intro x hx y hy
    simp only [init3, lanes, ln]
    rw [List.getD_eq_getElem?_getD, List.getElem?_replicate]
    split <;> rfl
  · rw [show (init3 d).buf = List.replicate 144 0 from rfl, List.length_replicate]; exact hk2
  · simp [init3]
  · simp only [init3, hd]; omega

theorem words_eq (st : List (BitVec 64)) (h : st.length = 25) : st = (List.range 25).map (ln st) := by
  apply List.ext_getElem
  · simp [h]
  · intro i h1 h2
    simp [ln, List.getD_eq_getElem?_getD, List.getElem?_eq_getElem h1]

theorem squeeze_eq (st : List (BitVec 64)) (a : Spec.Lanes) (h : R3 st a) (d : Nat) (hd : d ≤ 200) :
    rd (st.flatMap st64) 0 d = some (Spec.squeeze d a) := by
  have e : st.flatMap st64 = (List.range 25).flatMap fun i => toLe 8 (a (i % 5) (i / 5)).toNat := by
    have e0 : st.flatMap st64 = (List.range 25).flatMap fun i => st64 (ln st i) := by
      conv => lhs; rw [words_eq st h.1]
      rw [List.flatMap_map]
    rw [e0]
    have : ∀ i ∈ List.range 25, st64 (ln st i) = toLe 8 (a (i % 5) (i / 5)).toNat := by
      intro i hi
      have hi : i < 25 := List.mem_range.mp hi
      have := h.2 (i % 5) (by omega) (i / 5) (by omega)
      rw [lanes, show 5 * (i / 5) + i % 5 = i by omega] at this
      rw [st64_eq, this]
    simp only [List.flatMap_def]
    rw [List.map_congr_left this]
  have hl : ((List.range 25).flatMap fun i => toLe 8 (a (i % 5) (i / 5)).toNat).length = 200 := by
    simp [List.length_flatMap, toLe]
    decide
  rw [rd, e, if_pos (by omega), List.drop_zero, Spec.squeeze]

theorem final3_inv {k d : Nat} (hk : 0 < k) (hd : 200 - 2 * d = 8 * k) (hd2 : d ≤ 100) {m : List Byte} {c : Ctx3}
    (h : Inv3 k d m c) : final3 c = some (Spec.sha3 d m) := by
  have hlt := Nat.mod_lt m.length (show 8 * k > 0 by omega)
  have hr := rest_length (8 * k) m
  have hl := h.str.len
  have hb : c.buf = rest (8 * k) m ++ c.buf.drop (m.length % (8 * k)) := by
    rw [← h.str.buf, List.take_append_drop]
  have ht : (c.buf.drop (m.length % (8 * k))).length = c.buf.length - m.length % (8 * k) := by rw [List.length_drop]
  have hcl : c.buf.length ≥ 8 * k := hl
  generalize c.buf.length = L at *
  generalize c.buf.drop (m.length % (8 * k)) = t at *
  -- what the buffer holds in the end
  have hfin : ∀ (b : List Byte), b.take (8 * k) = rest (8 * k) m ++ (Spec.pad3 (8 * k) m).drop m.length →
      (do let st ← absorb3 k c.st b; rd (st.flatMap st64) 0 d) = some (Spec.sha3 d m) := by
    intro b hbt
    have hp : Spec.pad3 (8 * k) m = m ++ (Spec.pad3 (8 * k) m).drop m.length := by
      rw [Spec.pad3, List.drop_left]
    have hpl : ((Spec.pad3 (8 * k) m).drop m.length).length = 8 * k - m.length % (8 * k) := by
      rw [Spec.pad3, List.drop_left]
      split
      · simp; omega
      · simp; omega
    have hbl : (b.take (8 * k)).length = 8 * k := by rw [hbt, List.length_append, hpl]; omega
    obtain ⟨st', h1, h2⟩ := htr3 k c.st _ b h.str.st (by rw [List.length_take] at hbl; omega)
    rw [h1]
    simp only [Option.bind_eq_bind, Option.bind_some]
    rw [squeeze_eq st' _ h2 d (by omega), Spec.sha3, hd, show 8 * k / 8 = k by omega, hp,
      (blocks_more (8 * k) (by omega) m _).1, List.foldl_append,
      blocks_one (8 * k) (by omega) (rest (8 * k) m ++ _) (by rw [← hbt]; exact hbl), hbt]
    rfl
  simp only [final3, h.part, h.rsiz, h.rsizw, h.mdLen]
  rw [hb, put_app _ _ _ _ hr.symm (by simp; omega)]
  simp only [Option.bind_eq_bind, Option.bind_some, List.length_cons, List.length_nil, Nat.zero_add]
  rw [← List.append_assoc, put_app _ _ _ _ (by simp [hr]) (by simp [ht]; omega)]
  simp only [Option.bind_some, List.length_replicate]
  by_cases hq : 8 * k - m.length % (8 * k) = 1
  · have hz : 8 * k - (m.length % (8 * k) + 1) = 0 := by omega
    have hi : 8 * k - 1 = m.length % (8 * k) := by omega
    rw [hz, hi, List.replicate_zero, List.nil_append, List.drop_zero]
    have hg : (rest (8 * k) m ++ [6#8] ++ t.drop 1)[m.length % (8 * k)]? = some 6#8 := by
      rw [List.append_assoc, List.getElem?_append_right (by omega), hr, Nat.sub_self]; rfl
    rw [hg]
    simp only [Option.bind_some]
    rw [List.append_assoc, put_app _ _ _ _ hr.symm (by simp)]
    simp only [Option.bind_some, List.length_cons, List.length_nil, Nat.zero_add]
    apply hfin
    rw [Spec.pad3, List.drop_left, if_pos hq, List.take_append, hr, List.take_of_length_le (by omega), hq]
    rfl
  · have hn : 8 * k - (m.length % (8 * k) + 1) = (8 * k - m.length % (8 * k) - 2) + 1 := by omega
    generalize hz : 8 * k - m.length % (8 * k) - 2 = z at *
    have hi : 8 * k - 1 = (rest (8 * k) m ++ [6#8] ++ List.replicate z 0#8).length := by simp [hr]; omega
    have es : rest (8 * k) m ++ [6#8] ++ (List.replicate (z + 1) 0#8 ++ (t.drop 1).drop (z + 1)) =
        (rest (8 * k) m ++ [6#8] ++ List.replicate z 0#8) ++ (0#8 :: (t.drop 1).drop (z + 1)) := by
      rw [List.replicate_succ', List.append_assoc, List.append_assoc, List.append_assoc, List.append_assoc]
      simp
    rw [hn, es]
    have hg : ((rest (8 * k) m ++ [6#8] ++ List.replicate z 0#8) ++ (0#8 :: (t.drop 1).drop (z + 1)))[8 * k - 1]? =
        some 0#8 := by
      rw [List.getElem?_append_right (by omega), hi, Nat.sub_self]; rfl
    rw [hg]
    simp only [Option.bind_some]
    rw [put_app _ _ _ _ hi (by simp)]
    simp only [Option.bind_some, List.length_cons, List.length_nil, Nat.zero_add, List.drop_succ_cons, List.drop_zero]
    apply hfin
    rw [Spec.pad3, List.drop_left, if_neg hq, hz, ← List.append_assoc, List.take_append, List.take_of_length_le (by
      rw [List.length_append, ← hi]; simp; omega)]
    rw [show 8 * k - (rest (8 * k) m ++ [6#8] ++ List.replicate z 0#8 ++ [0#8 ||| 128#8]).length = 0 by
      rw [List.length_append, ← hi]; simp; omega, List.take_zero, List.append_nil]
    simp

/-! ## SHA-256 -/

theorem update256_len {c c' : Ctx256} {data : List Byte} (h : update256 c data = some c') :
    c'.buf.length = c.buf.length := by
  simp only [update256] at h
  split at h
  · split at h
    · simp only [Option.bind_eq_bind, Option.bind_eq_some_iff, Option.some.injEq] at h
      obtain ⟨b', hb, ⟨b, s, dn⟩, he, ⟨st2, i⟩, hl, b2, hb2, rfl⟩ := h
      simp only [Prod.mk.injEq] at he
      obtain ⟨rfl, _, _⟩ := he
      exact (cpy_len hb2).trans (cpy_len hb)
    · simp only [Option.bind_eq_bind, Option.bind_eq_some_iff, Option.some.injEq] at h
      obtain ⟨⟨b, s, dn⟩, he, ⟨st2, i⟩, hl, b2, hb2, rfl⟩ := h
      cases he
      exact cpy_len hb2
  · simp only [Option.bind_eq_bind, Option.bind_eq_some_iff, Option.some.injEq] at h
    obtain ⟨b, hb, rfl⟩ := h
    exact cpy_len hb

/-- An update that fills the buffer exactly leaves the block in it. -/
theorem update256_exact {m : List Byte} {c : Ctx256} (h : Inv256 m c) (hl : c.buf.length = 64) (data : List Byte)
    (hd : m.length % 64 + data.length = 64) (hp : m.length % 64 ≠ 0) {c' : Ctx256} (hu : update256 c data = some c') :
    c'.buf = rest 64 m ++ data := by
  have hlt := Nat.mod_lt m.length (show 64 > 0 by decide)
  have hm : c.count % 64 = m.length % 64 := by rw [h.count, u32]; omega
  have u1 : u32 (m.length % 64 + data.length) = 64 := by rw [u32]; omega
  have u2 : u32 (4294967296 - m.length % 64) = 4294967296 - m.length % 64 := by rw [u32]; omega
  have u3 : u32 (4294967296 - m.length % 64 + 64) = 64 - m.length % 64 := by rw [u32]; omega
  simp only [update256, hm, u1, u2, u3] at hu
  rw [if_pos (by decide), if_pos hp, cpy_eq _ _ _ _ _ (by omega) (by omega)] at hu
  simp only [Option.bind_eq_bind, Option.bind_some, List.drop_zero] at hu
  obtain ⟨f1, f2⟩ := first_block (d := data) (by decide) h.str.len rfl h.str.buf (by omega)
  obtain ⟨st', l1, _⟩ := loopG_eq (by decide) htr256 data (by omega) (data.length + 1) c.state c.state _
    (4294967296 - m.length % 64) (64 - m.length % 64) rfl f2 u3 (by omega) (by omega)
  rw [loop256_eq, l1] at hu
  simp only [Option.bind_some, show (data.length - (64 - m.length % 64)) / 64 = 0 by omega, Nat.mul_zero,
    Nat.add_zero] at hu
  rw [cpy_eq _ _ _ _ _ (by omega) (by omega), show data.length - (64 - m.length % 64) = 0 by omega, List.take_zero,
    List.take_zero, List.nil_append, List.nil_append] at hu
  simp only [Option.bind_some, Option.some.injEq, Nat.zero_add, List.drop_zero] at hu
  rw [← hu]
  simp only
  rw [h.str.buf, List.take_of_length_le (l := data) (by omega), List.drop_eq_nil_of_le (by omega), List.append_nil]

theorem final256_inv {m : List Byte} {c : Ctx256} (h : Inv256 m c) (hl : c.buf.length = 64)
    (hm : m.length < 4294967296) :
    ∃ c', final256 c = some c' ∧
      c'.state = (blocks 64 (Spec.pad 64 8 (toLe 8) m)).foldl (Spec.comp2 sha256P) (Spec.init2 sha256P) ∧
      c'.buf = ([c'.state.a, c'.state.b, c'.state.c, c'.state.d, c'.state.e, c'.state.f, c'.state.g, c'.state.h].map
        fun x => x.setWidth 8) ++ (lastBlock 64 (Spec.pad 64 8 (toLe 8) m)).drop 8 := by
  have hz : c.count = m.length := by rw [h.count, u32]; omega
  have hk : (if m.length % 64 < 56 then 56 - m.length % 64 else 64 + 56 - m.length % 64) =
      1 + (64 - (m.length + 1 + 8) % 64) % 64 := by
    by_cases hc : m.length % 64 < 56
    · rw [if_pos hc]; omega
    · rw [if_neg hc]; omega
  have hbits : st64 (BitVec.ofNat 64 m.length <<< 3) = toLe 8 (8 * m.length) := by
    rw [st64_eq]
    congr 1
    simp only [BitVec.toNat_shiftLeft, BitVec.toNat_ofNat, Nat.shiftLeft_eq]
    omega
  simp only [final256, hz, hk, hbits]
  rw [padding_take 64 _ (by omega)]
  obtain ⟨c1, u1, i1⟩ := update256_inv h (0x80#8 :: List.replicate ((64 - (m.length + 1 + 8) % 64) % 64) 0#8)
    (by simp; omega)
  have l8 : (toLe 8 (8 * m.length)).length = 8 := by simp [toLe]
  obtain ⟨c2, u2, i2⟩ := update256_inv i1 (toLe 8 (8 * m.length)) (by omega)
  have hml : (m ++ 0x80#8 :: List.replicate ((64 - (m.length + 1 + 8) % 64) % 64) 0#8).length % 64 = 56 := by
    simp; omega
  have e := update256_exact i1 ((update256_len u1).trans hl) _ (by omega) (by omega) u2
  simp only [u1, Option.bind_eq_bind, Option.bind_some, u2]
  rw [put, if_pos (by rw [List.length_map, update256_len u2, update256_len u1]; simp; omega)]
  have hpad : (m ++ 0x80#8 :: List.replicate ((64 - (m.length + 1 + 8) % 64) % 64) 0#8) ++ toLe 8 (8 * m.length) =
      Spec.pad 64 8 (toLe 8) m := by
    rw [Spec.pad, List.append_assoc, List.cons_append]
  refine ⟨_, rfl, by rw [← hpad]; exact i2.str.st, ?_⟩
  simp only [List.take_zero, List.nil_append, List.length_map, List.length_cons, List.length_nil, Nat.zero_add]
  rw [e]
  simp only [Nat.reduceAdd]
  rw [← hpad, lastBlock]
  refine congrArg (fun l => ([c2.state.a, c2.state.b, c2.state.c, c2.state.d, c2.state.e, c2.state.f, c2.state.g,
    c2.state.h].map fun x => x.setWidth 8) ++ List.drop 8 l) ?_
  have hrl := rest_length 64 (m ++ 0x80#8 :: List.replicate ((64 - (m.length + 1 + 8) % 64) % 64) 0#8)
  generalize m ++ 0x80#8 :: List.replicate ((64 - (m.length + 1 + 8) % 64) % 64) 0#8 = p at *
  have hp : 56 ≤ p.length := by omega
  rw [List.length_append, l8, show p.length + 8 - 64 = p.length - 56 by omega,
    List.drop_append_of_le_length (by omega), rest]
  congr 2
  omega

end Fio.Hash
