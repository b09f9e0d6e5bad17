import Verif.Hash.Fin

/-!
# C47: the hash functions compute their standards

fio uses these functions to check data it reads back.  A string is given in any number of pieces.
-/

namespace Fio.Hash
open Spec (sha256P sha512P toBe toLe)

/-- The pieces of a string, one after the other. -/
def feed {C : Type} (upd : C → List Byte → Option C) : C → List (List Byte) → Option C
  | c, [] => some c
  | c, d :: ds => (upd c d).bind fun c => feed upd c ds

theorem feed_inv {C : Type} {upd : C → List Byte → Option C} {I : List Byte → C → Prop} {P : List Byte → Prop}
    (h : ∀ m c d, I m c → P d → ∃ c', upd c d = some c' ∧ I (m ++ d) c') (ds : List (List Byte)) :
    ∀ m c, I m c → (∀ d ∈ ds, P d) → ∃ c', feed upd c ds = some c' ∧ I (m ++ ds.flatten) c' := by
  induction ds with
  | nil => intro m c hI _; exact ⟨c, rfl, by simpa using hI⟩
  | cons d ds ih =>
    intro m c hI hP
    obtain ⟨c1, h1, h2⟩ := h m c d hI (hP d (by simp))
    obtain ⟨c2, h3, h4⟩ := ih (m ++ d) c1 h2 (fun x hx => hP x (by simp [hx]))
    exact ⟨c2, by simp [feed, h1, h3], by simpa [List.append_assoc] using h4⟩

/-- The string "abc". -/
def abc : List Byte := [0x61#8, 0x62#8, 0x63#8]

/-! ## MD5 -/

/-- MD5, for any contents of the buffer at first, and any pieces, up to 2 ^ 61 bytes (where the 64 bits for the length
in bits end). -/
theorem C47_md5 (block : List Byte) (hb : block.length = 64) (ds : List (List Byte))
    (hl : ds.flatten.length < 2305843009213693952) :
    ∃ c, ((feed update5 (init5 block) ds).bind final5) = some c ∧ c.hash = Spec.md5 ds.flatten := by
  obtain ⟨c, h1, h2⟩ := feed_inv (I := Inv5) (P := fun _ => True) (fun m c d h _ => update5_inv h d) ds [] _
    (inv5_init block hb) (fun _ _ => trivial)
  rw [List.nil_append] at h2
  obtain ⟨c', h3, h4⟩ := final5_inv h2 hl
  exact ⟨c', by rw [h1]; exact h3, h4⟩

/-- The test vector of RFC 1321, A.5; the model is run, the theorem carries it over to the standard. -/
theorem md5_abc : Spec.md5 abc = ⟨0x98500190#32, 0xb04fd23c#32, 0x7d3f96d6#32, 0x727fe128#32⟩ := by
  obtain ⟨c, h1, h2⟩ := C47_md5 (List.replicate 64 7#8) (by decide) [[0x61#8], [0x62#8, 0x63#8]] (by decide)
  have e : ((feed update5 (init5 (List.replicate 64 7#8)) [[0x61#8], [0x62#8, 0x63#8]]).bind final5).map
      (fun c => c.hash) = some ⟨0x98500190#32, 0xb04fd23c#32, 0x7d3f96d6#32, 0x727fe128#32⟩ := by decide +kernel
  rw [h1, Option.map_some, h2] at e
  exact Option.some.inj e

/-! ## SHA-1 -/

/-- SHA-1. -/
theorem C47_sha1 (junk : List (BitVec 32)) (hj : junk.length = 16) (w : List Byte) (hw : 64 ≤ w.length)
    (ds : List (List Byte)) (hl : ds.flatten.length < 2305843009213693952) :
    ∃ c, ((feed (update1 junk) (init1 w) ds).bind (final1 junk)) = some c ∧ c.H = Spec.sha1 ds.flatten := by
  obtain ⟨c, h1, h2⟩ := feed_inv (I := Inv1) (P := fun _ => True) (fun m c d h _ => update1_inv junk hj h d) ds [] _
    (inv1_init w hw) (fun _ _ => trivial)
  rw [List.nil_append] at h2
  obtain ⟨c', h3, h4⟩ := final1_inv junk hj h2 hl
  exact ⟨c', by rw [h1]; exact h3, h4⟩

/-- The test vector of FIPS 180. -/
theorem sha1_abc : Spec.sha1 abc = ⟨0xa9993e36#32, 0x4706816a#32, 0xba3e2571#32, 0x7850c26c#32, 0x9cd0d89d#32⟩ := by
  obtain ⟨c, h1, h2⟩ := C47_sha1 (List.replicate 16 5#32) (by decide) (List.replicate 64 7#8) (by decide)
    [[0x61#8], [0x62#8, 0x63#8]] (by decide)
  have e : ((feed (update1 (List.replicate 16 5#32)) (init1 (List.replicate 64 7#8)) [[0x61#8], [0x62#8, 0x63#8]]).bind
      (final1 (List.replicate 16 5#32))).map (fun c => c.H) =
      some ⟨0xa9993e36#32, 0x4706816a#32, 0xba3e2571#32, 0x7850c26c#32, 0x9cd0d89d#32⟩ := by decide +kernel
  rw [h1, Option.map_some, h2] at e
  exact Option.some.inj e

/-! ## SHA-512 -/

/-- SHA-512, if no piece has 2 ^ 29 bytes or more.  The buffer of 128 bytes, which fio stores and compares, is the
digest and the second half of the last padded block: a function of the string alone. -/
theorem C47_sha512 (buf : List Byte) (hb : buf.length = 128) (ds : List (List Byte))
    (hd : ∀ d ∈ ds, d.length < 536870912) (hl : 8 * ds.flatten.length < 340282366920938463463374607431768211456) :
    ∃ c, ((feed update512 (init512 buf) ds).bind final512) = some c ∧
      c.buf = Spec.sha2 sha512P ds.flatten ++ (lastBlock 128 (Spec.pad 128 16 (toBe 16) ds.flatten)).drop 64 := by
  obtain ⟨c, h1, h2⟩ := feed_inv (I := fun m c => Inv512 m c ∧ c.buf.length = 128)
    (P := fun d => d.length < 536870912)
    (fun m c d h hp => by
      obtain ⟨c', u, i⟩ := update512_inv h.1 d hp
      exact ⟨c', u, i, (update512_len u).trans h.2⟩) ds [] _ ⟨inv512_init buf (by omega), hb⟩ hd
  rw [List.nil_append] at h2
  obtain ⟨c', h3, h4⟩ := final512_inv h2.1 h2.2 hl
  exact ⟨c', by rw [h1]; exact h3, h4⟩

/-- The test vector of FIPS 180. -/
theorem sha512_abc : (Spec.sha2 sha512P abc).take 8 =
    [0xdd#8, 0xaf#8, 0x35#8, 0xa1#8, 0x93#8, 0x61#8, 0x7a#8, 0xba#8] := by
  obtain ⟨c, h1, h2⟩ := C47_sha512 (List.replicate 128 7#8) List.length_replicate [[0x61#8], [0x62#8, 0x63#8]] (by decide)
    (by decide)
  have e : ((feed update512 (init512 (List.replicate 128 7#8)) [[0x61#8], [0x62#8, 0x63#8]]).bind final512).map
      (fun c => c.buf.take 8) = some [0xdd#8, 0xaf#8, 0x35#8, 0xa1#8, 0x93#8, 0x61#8, 0x7a#8, 0xba#8] := by
    decide +kernel
  rw [h1, Option.map_some, h2] at e
  have hl : (Spec.sha2 sha512P [[0x61#8], [0x62#8, 0x63#8]].flatten).length = 64 := regs_bytes_len _
  rw [List.take_append_of_le_length (by rw [hl]; decide)] at e
  exact Option.some.inj e

/-- Counting bits: after one update of 2 ^ 29 bytes the number of bits is 0, not 2 ^ 32 (`len << 3` has 32 bits, and
`len >> 29` is added only after a carry).  The length in the padding is then that of the empty string. -/
theorem C47_sha512_len_counterexample (buf data : List Byte) (hb : buf.length = 128) (hd : data.length = 536870912) :
    ∃ c, update512 (init512 buf) data = some c ∧ c.count = ⟨0, 0, 0, 0⟩ ∧ bits512 c.count = toBe 16 0 ∧
      bits512 c.count ≠ toBe 16 (8 * data.length) := by
  have hi : (init512 buf).count.c0 / 8 % 128 = 0 := by simp [init512]
  have hc : addCount (init512 buf).count data.length = ⟨0, 0, 0, 0⟩ := by
    rw [hd]; show addCount ⟨0, 0, 0, 0⟩ 536870912 = _; decide
  have hbl : (init512 buf).buf.length = 128 := hb
  simp only [update512, hi, hc, Nat.sub_zero]
  rw [if_pos (by omega), cpy_eq _ _ _ _ _ (by omega) (by omega)]
  simp only [Option.bind_eq_bind, Option.bind_some]
  rw [transform512_eq _ _ (by simp; omega), Option.bind_some, loop512_inv data (by omega) _ _ _ (by omega) (by omega)]
  simp only [Option.bind_some]
  rw [cpy_eq _ _ _ _ _ (by omega) (by simp; omega)]
  have hz : bits512 ⟨0, 0, 0, 0⟩ = toBe 16 0 := by decide +kernel
  have hn : bits512 ⟨0, 0, 0, 0⟩ ≠ toBe 16 (8 * 536870912) := by decide +kernel
  rw [← hd] at hn
  exact ⟨_, rfl, rfl, hz, hn⟩

/-! ## SHA-3 -/

/-- SHA3-224, SHA3-256, SHA3-384, SHA3-512: `d` is the number of bytes of the digest. -/
theorem C47_sha3 (d : Nat) (hd : d = 28 ∨ d = 32 ∨ d = 48 ∨ d = 64) (ds : List (List Byte))
    (hl : ∀ x ∈ ds, x.length + 400 ≤ 4294967296) :
    ((feed update3 (init3 d) ds).bind final3) = some (Spec.sha3 d ds.flatten) := by
  have key : ∀ k, 0 < k → 8 * k ≤ 144 → 200 - 2 * d = 8 * k → d ≤ 100 →
      ((feed update3 (init3 d) ds).bind final3) = some (Spec.sha3 d ds.flatten) := by
    intro k k0 k1 k2 k3
    obtain ⟨c, h1, h2⟩ := feed_inv (I := Inv3 k d) (P := fun x => x.length + 400 ≤ 4294967296)
      (fun m c x h hp => update3_inv k0 (by omega) h x hp) ds [] _ (inv3_init k d k0 k1 k2) hl
    rw [List.nil_append] at h2
    rw [h1]
    exact final3_inv k0 k2 k3 h2
  rcases hd with rfl | rfl | rfl | rfl
  · exact key 18 (by decide) (by decide) (by decide) (by decide)
  · exact key 17 (by decide) (by decide) (by decide) (by decide)
  · exact key 13 (by decide) (by decide) (by decide) (by decide)
  · exact key 9 (by decide) (by decide) (by decide) (by decide)

set_option maxRecDepth 1000000 in
/-- The test vector of FIPS 202. -/
theorem sha3_abc : (Spec.sha3 32 abc).take 8 = [0x3a#8, 0x98#8, 0x5d#8, 0xa7#8, 0x4f#8, 0xe2#8, 0x25#8, 0xb2#8] := by
  have h := C47_sha3 32 (by decide) [[0x61#8], [0x62#8, 0x63#8]] (by decide)
  have e : ((feed update3 (init3 32) [[0x61#8], [0x62#8, 0x63#8]]).bind final3).map (fun l => l.take 8) =
      some [0x3a#8, 0x98#8, 0x5d#8, 0xa7#8, 0x4f#8, 0xe2#8, 0x25#8, 0xb2#8] := by decide +kernel
  rw [h] at e
  exact Option.some.inj e

/-! ## SHA-256 -/

/-- What `fio_sha256` computes: the block function is the one of SHA-256, but the length is appended with its least
significant byte first, and of each word of the result only the lowest byte is kept; the rest of the 64 bytes fio
stores and compares is the rest of the last padded block.  A function of the string alone. -/
theorem C47_sha256_partial (buf : List Byte) (hb : buf.length = 64) (ds : List (List Byte))
    (hd : ∀ d ∈ ds, d.length + 128 ≤ 4294967296) (hl : ds.flatten.length < 4294967296) :
    let s := (Spec.blocks 64 (Spec.pad 64 8 (toLe 8) ds.flatten)).foldl (Spec.comp2 sha256P) (Spec.init2 sha256P)
    ∃ c, ((feed update256 (init256 buf) ds).bind final256) = some c ∧
      c.buf = ([s.a, s.b, s.c, s.d, s.e, s.f, s.g, s.h].map fun x => x.setWidth 8) ++
        (lastBlock 64 (Spec.pad 64 8 (toLe 8) ds.flatten)).drop 8 := by
  obtain ⟨c, h1, h2⟩ := feed_inv (I := fun m c => Inv256 m c ∧ c.buf.length = 64)
    (P := fun d => d.length + 128 ≤ 4294967296)
    (fun m c d h hp => by
      obtain ⟨c', u, i⟩ := update256_inv h.1 d hp
      exact ⟨c', u, i, (update256_len u).trans h.2⟩) ds [] _ ⟨inv256_init buf (by omega), hb⟩ hd
  rw [List.nil_append] at h2
  obtain ⟨c', h3, h4, h5⟩ := final256_inv h2.1 h2.2 hl
  rw [h4] at h5
  exact ⟨c', by rw [h1]; exact h3, h5⟩

/-- The standard on "abc", by running the block function of the code. -/
theorem sha256_abc : (Spec.sha2 sha256P abc).take 8 =
    [0xba#8, 0x78#8, 0x16#8, 0xbf#8, 0x8f#8, 0x01#8, 0xcf#8, 0xea#8] := by
  have h := transform256_eq (init256 []).state (Spec.pad 64 8 (toBe 8) abc) (by decide +kernel)
  have e : (transform256 (init256 []).state (Spec.pad 64 8 (toBe 8) abc)).map (fun s => s.bytes.take 8) =
      some [0xba#8, 0x78#8, 0x16#8, 0xbf#8, 0x8f#8, 0x01#8, 0xcf#8, 0xea#8] := by decide +kernel
  rw [h, init256_eq, Option.map_some] at e
  have hs : Spec.sha2 sha256P abc =
      (Spec.comp2 sha256P (Spec.init2 sha256P) ((Spec.pad 64 8 (toBe 8) abc).take 64)).bytes := by
    show (((Spec.blocks 64 (Spec.pad 64 8 (toBe 8) abc)).foldl (Spec.comp2 sha256P) (Spec.init2 sha256P)).bytes) = _
    rw [blocks_one 64 (by decide) _ (by decide +kernel), List.foldl_cons, List.foldl_nil,
      List.take_of_length_le (by decide +kernel)]
  rw [hs]
  exact Option.some.inj e

/-- It is not SHA-256: the first bytes for "abc" are others. -/
theorem C47_sha256_counterexample : ∃ c,
    ((feed update256 (init256 (List.replicate 64 0#8)) [abc]).bind final256) = some c ∧
      c.buf.take 8 = [0xec#8, 0xd7#8, 0x46#8, 0xf4#8, 0x0a#8, 0x9b#8, 0xf5#8, 0x68#8] ∧
      c.buf.take 32 ≠ Spec.sha2 sha256P abc := by
  have e : (((feed update256 (init256 (List.replicate 64 0#8)) [abc]).bind final256).map fun c => c.buf.take 8) =
      some [0xec#8, 0xd7#8, 0x46#8, 0xf4#8, 0x0a#8, 0x9b#8, 0xf5#8, 0x68#8] := by decide +kernel
  obtain ⟨c, h1, h2⟩ := Option.map_eq_some_iff.mp e
  refine ⟨c, h1, h2, fun h => ?_⟩
  have := sha256_abc
  rw [← h, List.take_take, show min 8 32 = 8 from rfl, h2] at this
  exact absurd this (by decide)

end Fio.Hash
