import Verif.Hash.Stream
import Verif.Hash.Sha2
import Verif.Hash.Sha1
import Verif.Hash.Md5
import Verif.Hash.Keccak

/-! # The update functions -/

namespace Fio.Hash
open Spec (blocks Regs Regs4 Regs5 sha256P sha512P)

/-! ## SHA-256 -/

theorem loop256_eq (data : List Byte) (n : Nat) : loop256 data n = loopG transform256 64 data n := by
  induction n with
  | zero => rfl
  | succ n ih =>
    funext st src done
    simp only [loop256, loopG, ih, Nat.reduceSub]

theorem update256_eq (c : Ctx256) (data : List Byte) :
    update256 c data = (updG transform256 64 (c.count % 64) c.state c.buf data).map
      fun r => ⟨u32 (c.count + data.length), r.1, r.2.1⟩ := by
  simp only [update256, updG, loop256_eq, Nat.reduceSub]
  by_cases h1 : u32 (c.count % 64 + data.length) > 63
  · simp only [if_pos h1]
    by_cases h2 : c.count % 64 = 0
    · simp only [h2, ne_eq, not_true_eq_false, if_false, Option.bind_eq_bind, Option.bind_some, Option.map_bind,
        Function.comp_def, Option.map_some]
    · simp only [h2, ne_eq, not_false_eq_true, if_true, Option.bind_eq_bind, Option.map_bind, Option.bind_some,
        Function.comp_def, Option.map_some]
  · simp only [if_neg h1, Option.bind_eq_bind, Option.map_bind, Function.comp_def, Option.map_some]

/-- The context after the string `m`. -/
structure Inv256 (m : List Byte) (c : Ctx256) : Prop where
  str : Str 64 Eq (Spec.comp2 sha256P) (Spec.init2 sha256P) m c.state c.buf
  count : c.count = u32 m.length

theorem htr256 (st a : Regs 32) (src : List Byte) (h : st = a) (hs : 64 ≤ src.length) :
    ∃ st', transform256 st src = some st' ∧ st' = Spec.comp2 sha256P a (src.take 64) :=
  ⟨_, transform256_eq st src hs, by rw [h]⟩

theorem inv256_init (buf : List Byte) (h : 64 ≤ buf.length) : Inv256 [] (init256 buf) :=
  ⟨⟨by rw [blocks_lt 64 [] (by decide)]; exact init256_eq buf, h, rfl⟩, rfl⟩

theorem update256_inv {m : List Byte} {c : Ctx256} (h : Inv256 m c) (data : List Byte)
    (hd : data.length + 128 ≤ 4294967296) : ∃ c', update256 c data = some c' ∧ Inv256 (m ++ data) c' := by
  have hm : c.count % 64 = m.length % 64 := by rw [h.count, u32]; omega
  obtain ⟨st', buf', h1, h2⟩ := updG_eq (by decide) (by decide) htr256 h.str data hd
  refine ⟨_, by rw [update256_eq, hm, h1, Option.map_some], h2, ?_⟩
  simp only [h.count, u32, List.length_append]
  omega

/-! ## SHA-3 -/

theorem loop3_eq (rsiz rsizw : Nat) (data : List Byte) (n : Nat) :
    loop3 rsiz rsizw data n = loopG (absorb3 rsizw) rsiz data n := by
  induction n with
  | zero => rfl
  | succ n ih =>
    funext st src done
    simp only [loop3, loopG, ih]

theorem update3_eq (c : Ctx3) (data : List Byte) :
    update3 c data = (updG (absorb3 c.rsizw) c.rsiz c.part c.st c.buf data).map
      fun r => { c with st := r.1, buf := r.2.1, part := r.2.2 } := by
  simp only [update3, updG, loop3_eq]
  by_cases h1 : u32 (c.part + data.length) > c.rsiz - 1
  · simp only [if_pos h1]
    by_cases h2 : c.part = 0
    · simp only [h2, ne_eq, not_true_eq_false, if_false, Option.bind_eq_bind, Option.bind_some, Option.map_bind,
        Function.comp_def, Option.map_some]
    · simp only [h2, ne_eq, not_false_eq_true, if_true, Option.bind_eq_bind, Option.map_bind, Option.bind_some,
        Function.comp_def, Option.map_some]
  · simp only [if_neg h1, Option.bind_eq_bind, Option.map_bind, Function.comp_def, Option.map_some]

/-- The state of the program and the one of the standard. -/
def R3 (st : List (BitVec 64)) (a : Spec.Lanes) : Prop := st.length = 25 ∧ Same (lanes st) a

/-- The context after the string `m`, for a rate of `8 * k` bytes and a digest of `d`. -/
structure Inv3 (k d : Nat) (m : List Byte) (c : Ctx3) : Prop where
  str : Str (8 * k) R3 (Spec.absorb k) (fun _ _ => 0) m c.st c.buf
  part : c.part = m.length % (8 * k)
  rsiz : c.rsiz = 8 * k
  rsizw : c.rsizw = k
  mdLen : c.mdLen = d

theorem htr3 (k : Nat) (st : List (BitVec 64)) (a : Spec.Lanes) (src : List Byte) (h : R3 st a)
    (hs : 8 * k ≤ src.length) :
    ∃ st', absorb3 k st src = some st' ∧ R3 st' (Spec.absorb k a (src.take (8 * k))) := by
  obtain ⟨st', h1, h2, h3⟩ := absorb3_same k st h.1 src hs
  exact ⟨st', h1, h2, h3.trans (h.2.absorb k _)⟩

theorem update3_inv {k d : Nat} (hk : 0 < k) (hk2 : k ≤ 25) {m : List Byte} {c : Ctx3} (h : Inv3 k d m c)
    (data : List Byte) (hd : data.length + 400 ≤ 4294967296) :
    ∃ c', update3 c data = some c' ∧ Inv3 k d (m ++ data) c' := by
  obtain ⟨st', buf', h1, h2⟩ := updG_eq (by omega) (by omega) (htr3 k) h.str data (by omega)
  refine ⟨⟨st', c.mdLen, 8 * k, k, (m ++ data).length % (8 * k), buf'⟩, ?_, ⟨h2, rfl, rfl, rfl, h.mdLen⟩⟩
  rw [update3_eq, h.part, h.rsiz, h.rsizw, h1, Option.map_some]

/-! ## SHA-512 -/

theorem loop512_inv (data : List Byte) (hd : data.length + 256 ≤ 4294967296) (n : Nat) :
    ∀ (st : Regs 64) (i : Nat), i ≤ data.length → (data.length - i) / 128 < n →
      loop512 data n st i = some ((blocks 128 (data.drop i)).foldl (Spec.comp2 sha512P) st,
        i + 128 * ((data.length - i) / 128)) := by
  induction n with
  | zero => intro _ _ _ h; exact absurd h (Nat.not_lt_zero _)
  | succ n ih =>
    intro st i hi hn
    have hu : u32 (i + 127) = i + 127 := by rw [u32]; omega
    rw [loop512, hu]
    by_cases hc : i + 127 < data.length
    · have hu2 : u32 (i + 128) = i + 128 := by rw [u32]; omega
      rw [if_pos hc, hu2, transform512_eq _ _ (by rw [List.length_drop]; omega)]
      simp only [Option.bind_eq_bind, Option.bind_some]
      rw [ih _ _ (by omega) (by omega), blocks_cons 128 (by decide) (data.drop i) (by rw [List.length_drop]; omega),
        List.drop_drop, List.foldl_cons]
      congr 2
      omega
    · rw [if_neg hc, blocks_lt 128 _ (by rw [List.length_drop]; omega),
        show (data.length - i) / 128 = 0 by omega]
      rfl

/-- The number of bits. -/
def Count.num (c : Count) : Nat :=
  c.c0 + 4294967296 * c.c1 + 18446744073709551616 * c.c2 + 79228162514264337593543950336 * c.c3

/-- Four words below 2 ^ 32. -/
structure Count.Ok (c : Count) : Prop where
  c0 : c.c0 < 4294967296
  c1 : c.c1 < 4294967296
  c2 : c.c2 < 4294967296
  c3 : c.c3 < 4294967296

theorem addCount_num (c : Count) (hc : c.Ok) (len : Nat) (hl : len < 536870912) :
    (addCount c len).Ok ∧
      (addCount c len).num = (c.num + 8 * len) % 340282366920938463463374607431768211456 := by
  obtain ⟨c0, c1, c2, c3⟩ := c
  obtain ⟨h0, h1, h2, h3⟩ := hc
  simp only at h0 h1 h2 h3
  have hl3 : u32 (8 * len) = 8 * len := by rw [u32]; omega
  have hz : len / 536870912 = 0 := by omega
  simp only [addCount, hl3, hz, Nat.add_zero]
  by_cases a : u32 (c0 + 8 * len) < 8 * len
  · rw [if_pos a]
    by_cases b : u32 (c1 + 1) < 1
    · rw [if_pos b]
      by_cases d : u32 (c2 + 1) < 1
      · rw [if_pos d]
        refine ⟨⟨?_, ?_, ?_, ?_⟩, ?_⟩ <;> simp only [u32, Count.num] at * <;> omega
      · rw [if_neg d]
        refine ⟨⟨?_, ?_, ?_, ?_⟩, ?_⟩ <;> simp only [u32, Count.num] at * <;> omega
    · rw [if_neg b]
      refine ⟨⟨?_, ?_, ?_, ?_⟩, ?_⟩ <;> simp only [u32, Count.num] at * <;> omega
  · rw [if_neg a]
    refine ⟨⟨?_, ?_, ?_, ?_⟩, ?_⟩ <;> simp only [u32, Count.num] at * <;> omega

/-- The context after the string `m`. -/
structure Inv512 (m : List Byte) (c : Ctx512) : Prop where
  str : Str 128 Eq (Spec.comp2 sha512P) (Spec.init2 sha512P) m c.state c.buf
  ok : c.count.Ok
  num : c.count.num = 8 * m.length % 340282366920938463463374607431768211456

theorem inv512_init (buf : List Byte) (h : 128 ≤ buf.length) : Inv512 [] (init512 buf) :=
  ⟨⟨by rw [blocks_lt 128 [] (by decide)]; exact init512_eq buf, h, rfl⟩, by
    constructor <;> exact (by decide : 0 < 4294967296), rfl⟩

theorem Inv512.idx {m : List Byte} {c : Ctx512} (h : Inv512 m c) : c.count.c0 / 8 % 128 = m.length % 128 := by
  have h1 := h.num
  have h2 := h.ok.c0
  rw [Count.num] at h1
  omega

theorem update512_inv {m : List Byte} {c : Ctx512} (h : Inv512 m c) (data : List Byte) (hd : data.length < 536870912) :
    ∃ c', update512 c data = some c' ∧ Inv512 (m ++ data) c' := by
  obtain ⟨k1, k2⟩ := addCount_num c.count h.ok data.length hd
  have k3 : (addCount c.count data.length).num = 8 * (m ++ data).length % 340282366920938463463374607431768211456 := by
    rw [k2, h.num, List.length_append]; omega
  have hl := h.str.len
  have hlt := Nat.mod_lt m.length (show 128 > 0 by decide)
  simp only [update512, h.idx]
  by_cases hc : data.length ≥ 128 - m.length % 128
  · rw [if_pos hc]
    have hge : 128 ≤ m.length % 128 + data.length := by omega
    obtain ⟨f1, f2⟩ := first_block (by decide) hl rfl h.str.buf hge
    rw [cpy_eq _ _ _ _ _ (by omega) (by omega)]
    simp only [Option.bind_eq_bind, Option.bind_some, List.drop_zero]
    rw [transform512_eq _ _ f2, f1, Option.bind_some, loop512_inv data (by omega) _ _ _ (by omega) (by omega)]
    simp only [Option.bind_some]
    rw [cpy_eq _ _ _ _ _ (by omega) (by omega), List.take_zero, List.nil_append, Nat.zero_add,
      List.take_of_length_le (Nat.le_of_eq List.length_drop)]
    simp only [Option.bind_some]
    exact ⟨_, rfl, Str.big (by decide) data hge (by rw [h.str.st]) _ rfl f2, k1, k3⟩
  · rw [if_neg hc, cpy_eq _ _ _ _ _ (by omega) (by omega), List.drop_zero, List.take_length]
    exact ⟨_, rfl, h.str.small (by decide) data (by omega), k1, k3⟩

/-! ## SHA-1 -/

theorem loop1_inv (junk : List (BitVec 32)) (hj : junk.length = 16) (n : Nat) : ∀ (h : Regs5) (data : List Byte),
    data.length / 64 < n →
      loop1 junk n h data = some ((blocks 64 data).foldl Spec.comp1 h, rest 64 data) := by
  induction n with
  | zero => intro _ _ h; exact absurd h (Nat.not_lt_zero _)
  | succ n ih =>
    intro h data hn
    rw [loop1]
    by_cases hc : data.length ≥ 64
    · rw [if_pos hc, block1_eq junk hj _ _ hc]
      simp only [Option.bind_eq_bind, Option.bind_some]
      rw [ih _ _ (by rw [List.length_drop]; omega), blocks_cons 64 (by decide) data hc, List.foldl_cons,
        rest_step 64 (by decide) data hc]
    · rw [if_neg hc, blocks_lt 64 _ (by omega), rest_lt 64 _ (by omega)]; rfl

/-- The context after the string `m`. -/
structure Inv1 (m : List Byte) (c : Ctx1) : Prop where
  str : Str 64 Eq Spec.comp1 Spec.init1 m c.H c.W
  size : c.size = m.length % 18446744073709551616

theorem inv1_init (w : List Byte) (h : 64 ≤ w.length) : Inv1 [] (init1 w) :=
  ⟨⟨by rw [blocks_lt 64 [] (by decide)]; rfl, h, rfl⟩, rfl⟩

theorem tail1_eq (junk : List (BitVec 32)) (hj : junk.length = 16) (c : Ctx1) (hw : 64 ≤ c.W.length) (data : List Byte) :
    tail1 junk c data = some ⟨(blocks 64 data).foldl Spec.comp1 c.H,
      rest 64 data ++ c.W.drop (rest 64 data).length, c.size⟩ := by
  have hr := rest_length 64 data
  rw [tail1, loop1_inv junk hj _ _ _ (by omega)]
  simp only [Option.bind_eq_bind, Option.bind_some]
  by_cases h0 : (rest 64 data).length = 0
  · have : rest 64 data = [] := List.length_eq_zero_iff.mp h0
    simp [this]
  · rw [if_pos h0, cpy_eq _ _ _ _ _ (by omega) (by omega), List.take_zero, List.nil_append, Nat.zero_add, List.drop_zero,
      List.take_length]
    rfl

theorem update1_inv (junk : List (BitVec 32)) (hj : junk.length = 16) {m : List Byte} {c : Ctx1} (h : Inv1 m c)
    (data : List Byte) : ∃ c', update1 junk c data = some c' ∧ Inv1 (m ++ data) c' := by
  have hz : (c.size + data.length) % 18446744073709551616 = (m ++ data).length % 18446744073709551616 := by
    rw [h.size, List.length_append]; omega
  have hp : c.size % 64 = m.length % 64 := by rw [h.size]; omega
  have hl := h.str.len
  have hlt := Nat.mod_lt m.length (show 64 > 0 by decide)
  have hr := rest_length 64 m
  have hb := h.str.buf
  simp only [update1, hp, hz]
  by_cases h0 : m.length % 64 = 0
  · rw [if_neg (by omega), tail1_eq junk hj ⟨c.H, c.W, (m ++ data).length % 18446744073709551616⟩ hl]
    refine ⟨_, rfl, ?_, rfl⟩
    have hr0 : rest 64 m = [] := List.length_eq_zero_iff.mp (by omega)
    obtain ⟨e1, e2⟩ := blocks_more 64 (by decide) m data
    rw [hr0, List.nil_append] at e1 e2
    have hrd := rest_length 64 data
    have hrl := rest_length 64 (m ++ data)
    refine ⟨by rw [e1, List.foldl_append]; simp only [h.str.st], ?_, ?_⟩
    · simp only [List.length_append, List.length_drop]; omega
    · rw [← e2, ← hrl, List.take_left]
  · rw [if_pos h0]
    by_cases hs : data.length < 64 - m.length % 64
    · rw [if_pos hs, cpy_eq _ _ _ _ _ (by omega) (by omega), List.drop_zero, List.take_length]
      simp only [Option.bind_eq_bind, Option.bind_some]
      rw [if_pos (by omega)]
      exact ⟨_, rfl, h.str.small (by decide) data (by omega), rfl⟩
    · have hge : 64 ≤ m.length % 64 + data.length := by omega
      obtain ⟨f1, f2⟩ := first_block (by decide) hl rfl hb hge
      rw [if_neg hs, cpy_eq _ _ _ _ _ (by omega) (by omega), List.drop_zero]
      simp only [Option.bind_eq_bind, Option.bind_some]
      rw [if_neg (by omega), block1_eq junk hj _ _ f2, f1, Option.bind_some, tail1_eq junk hj ⟨_, _, _⟩ f2]
      refine ⟨_, rfl, ?_, rfl⟩
      simp only
      have := Str.big (R := Eq) (comp := Spec.comp1) (s0 := Spec.init1) (B := 64) (m := m) (by decide) data hge rfl _ rfl f2
      rw [h.str.st]
      have e : rest 64 (data.drop (64 - m.length % 64)) =
          data.drop (64 - m.length % 64 + 64 * ((data.length - (64 - m.length % 64)) / 64)) := by
        rw [rest, List.drop_drop, List.length_drop]
      rw [e, List.length_drop]
      exact this

/-! ## MD5 -/

theorem loop5_inv (n : Nat) : ∀ (h : Regs4) (block data : List Byte), block.length = 64 → data.length / 64 < n →
    ∃ block', loop5 n h block data = some ((blocks 64 data).foldl Spec.comp5 h, block', rest 64 data) ∧
      block'.length = 64 := by
  induction n with
  | zero => intro _ _ _ _ h; exact absurd h (Nat.not_lt_zero _)
  | succ n ih =>
    intro h block data hb hn
    rw [loop5]
    by_cases hc : data.length ≥ 64
    · rw [if_pos hc, cpy_eq _ _ _ _ _ (by omega) (by omega)]
      have e : block.take 0 ++ ((data.drop 0).take 64 ++ block.drop (0 + 64)) = data.take 64 := by
        rw [List.take_zero, List.nil_append, List.drop_zero, List.drop_eq_nil_of_le (by omega), List.append_nil]
      have e2 : (data.take 64).length = 64 := by rw [List.length_take]; omega
      rw [e]
      simp only [Option.bind_eq_bind, Option.bind_some]
      rw [transform5_eq _ _ (by omega), Option.bind_some, List.take_take, Nat.min_self]
      obtain ⟨b', h1, h2⟩ := ih (Spec.comp5 h (data.take 64)) (data.take 64) (data.drop 64) e2
        (by rw [List.length_drop]; omega)
      rw [h1, blocks_cons 64 (by decide) data hc, List.foldl_cons, rest_step 64 (by decide) data hc]
      exact ⟨b', rfl, h2⟩
    · rw [if_neg hc, blocks_lt 64 _ (by omega), rest_lt 64 _ (by omega)]
      exact ⟨block, rfl, hb⟩

/-- The context after the string `m`. -/
structure Inv5 (m : List Byte) (c : Ctx5) : Prop where
  str : Str 64 Eq Spec.comp5 Spec.init5 m c.hash c.block
  len : c.block.length = 64
  count : c.byteCount = m.length % 18446744073709551616

theorem inv5_init (b : List Byte) (h : b.length = 64) : Inv5 [] (init5 b) :=
  ⟨⟨by rw [blocks_lt 64 [] (by decide)]; rfl, Nat.le_of_eq h.symm, rfl⟩, h, rfl⟩

theorem update5_inv {m : List Byte} {c : Ctx5} (h : Inv5 m c) (data : List Byte) :
    ∃ c', update5 c data = some c' ∧ Inv5 (m ++ data) c' := by
  have hz : (c.byteCount + data.length) % 18446744073709551616 = (m ++ data).length % 18446744073709551616 := by
    rw [h.count, List.length_append]; omega
  have hp : c.byteCount % 64 = m.length % 64 := by rw [h.count]; omega
  have hl := h.len
  have hlt := Nat.mod_lt m.length (show 64 > 0 by decide)
  have hpp : 64 - (64 - m.length % 64) = m.length % 64 := by omega
  simp only [update5, hp, hz, hpp]
  by_cases hs : 64 - m.length % 64 > data.length
  · have hlen : (c.block.take (m.length % 64) ++ (data ++ c.block.drop (m.length % 64 + data.length))).length = 64 := by
      simp only [List.length_append, List.length_take, List.length_drop]; omega
    rw [if_pos hs, cpy_eq _ _ _ _ _ (by omega) (by omega), List.drop_zero, List.take_length]
    exact ⟨_, rfl, h.str.small (by decide) data (by omega), hlen, rfl⟩
  · have hge : 64 ≤ m.length % 64 + data.length := by omega
    obtain ⟨f1, f2⟩ := first_block (by decide) h.str.len rfl h.str.buf hge
    have f3 : (c.block.take (m.length % 64) ++ (data.take (64 - m.length % 64) ++
        c.block.drop (m.length % 64 + (64 - m.length % 64)))).length = 64 := by
      simp only [List.length_append, List.length_take, List.length_drop]; omega
    rw [if_neg hs, cpy_eq _ _ _ _ _ (by omega) (by omega), List.drop_zero]
    simp only [Option.bind_eq_bind, Option.bind_some]
    rw [transform5_eq _ _ f2, f1, Option.bind_some]
    have hrl := rest_length 64 (data.drop (64 - m.length % 64))
    obtain ⟨b', l1, l2⟩ := loop5_inv (data.length + 1) (Spec.comp5 c.hash ((rest 64 m ++ data).take 64)) _
      (data.drop (64 - m.length % 64)) f3 (by rw [List.length_drop]; omega)
    rw [l1]
    simp only [Option.bind_some]
    have e : rest 64 (data.drop (64 - m.length % 64)) =
        data.drop (64 - m.length % 64 + 64 * ((data.length - (64 - m.length % 64)) / 64)) := by
      rw [rest, List.drop_drop, List.length_drop]
    have hrl2 := hrl
    rw [e, List.length_drop] at hrl2
    rw [cpy_eq _ _ _ _ _ (by omega) (by omega), List.take_zero, List.nil_append, Nat.zero_add, List.drop_zero,
      List.take_length, e, List.length_drop]
    have hbig := Str.big (R := Eq) (comp := Spec.comp5) (s0 := Spec.init5) (B := 64) (m := m) (by decide) data hge rfl _
      rfl (Nat.le_of_eq l2.symm)
    refine ⟨_, rfl, by rw [h.str.st]; exact hbig, ?_, rfl⟩
    simp only [List.length_append, List.length_drop]
    omega

end Fio.Hash
