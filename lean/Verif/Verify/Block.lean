import Verif.Verify.Header
import Verif.Pattern.Props
/-
Lemmas for C33: whole blocks with one header per interval.
-/
namespace Fio.Verify

/-! ## Slices -/

def slice (b : List Byte) (off n : Nat) : List Byte := (b.drop off).take n

theorem slice_get (b : List Byte) (off n k : Nat) : (slice b off n)[k]? = if k < n then b[off + k]? else none := by
  unfold slice
  split
  · rename_i h; rw [List.getElem?_take_of_lt h, List.getElem?_drop]
  · rename_i h; exact List.getElem?_eq_none (by simp; omega)

theorem slice_length {b : List Byte} {off n : Nat} (h : off + n ≤ b.length) : (slice b off n).length = n := by
  unfold slice; simp; omega

theorem slice_slice {b : List Byte} {p m k n : Nat} (h : k + n ≤ m) : slice (slice b p m) k n = slice b (p + k) n := by
  apply List.ext_getElem?
  intro i
  rw [slice_get, slice_get, slice_get]
  split
  · rw [if_pos (by omega), Nat.add_assoc]
  · rfl

theorem slice_ext {b c : List Byte} {o o' n : Nat} (h : ∀ k < n, b[o + k]? = c[o' + k]?) : slice b o n = slice c o' n := by
  apply List.ext_getElem?
  intro i
  rw [slice_get, slice_get]
  split
  · rename_i hi; exact h i hi
  · rfl

theorem slice_ext_get {b c : List Byte} {o o' n k : Nat} (h : slice b o n = slice c o' n) (hk : k < n) : b[o + k]? = c[o' + k]? := by
  have := congrArg (fun l => l[k]?) h
  simp only [slice_get, hk, if_true] at this
  exact this

theorem memRead_slice {b : List Byte} {off n : Nat} (h : off + n ≤ b.length) : memRead b off n = some (slice b off n) := if_pos h

/-! ## The swap of the header -/

/-- Where byte `i` of an interval comes from after swapping the first `hs` bytes with those at `v`. -/
def sg (v hs i : Nat) : Nat :=
  if v = 0 then i else if i < hs then i + v else if v ≤ i ∧ i < v + hs then i - v else i

/-- The header and its swapped position do not overlap and stay inside the interval. -/
def VOk (v hs n : Nat) : Prop := v = 0 ∨ hs = 0 ∨ (hs ≤ v ∧ v + hs ≤ n)

theorem sg_lt {v hs n i : Nat} (h : VOk v hs n) (hi : i < n) : sg v hs i < n := by
  unfold sg
  rcases h with h | h | h
  · rw [if_pos h]; exact hi
  · split
    · exact hi
    · split
      · omega
      · split
        · omega
        · exact hi
  · split
    · exact hi
    · split
      · omega
      · split
        · omega
        · exact hi

theorem sg_sg {v hs n i : Nat} (h : VOk v hs n) : sg v hs (sg v hs i) = i := by
  unfold sg
  rcases h with h | h | h
  · simp [h]
  · subst h; split
    · rfl
    · rw [if_neg (by omega)]
      have : ¬ (v ≤ i ∧ i < v + 0) := by omega
      rw [if_neg this, if_neg (by omega), if_neg (by omega)]
  · by_cases h0 : v = 0
    · simp [h0]
    · simp only [h0, if_false]
      by_cases h1 : i < hs
      · rw [if_pos h1, if_neg (by omega), if_pos (by omega)]; omega
      · rw [if_neg h1]
        by_cases h2 : v ≤ i ∧ i < v + hs
        · rw [if_pos h2, if_pos (by omega)]; omega
        · rw [if_neg h2, if_neg h1, if_neg h2]

/-- The interval with the two places exchanged. -/
def unsw (v hs : Nat) (c : List Byte) : List Byte := (List.range c.length).map fun i => c.getD (sg v hs i) 0

theorem unsw_length (v hs : Nat) (c : List Byte) : (unsw v hs c).length = c.length := by simp [unsw]

theorem unsw_get {v hs : Nat} {c : List Byte} (h : VOk v hs c.length) {i : Nat} (hi : i < c.length) :
    (unsw v hs c)[i]? = c[sg v hs i]? := by
  have := sg_lt h hi
  simp [unsw, hi, this]

theorem unsw_unsw {v hs : Nat} {c : List Byte} (h : VOk v hs c.length) : unsw v hs (unsw v hs c) = c := by
  apply List.ext_getElem?
  intro i
  by_cases hi : i < c.length
  · have h' : VOk v hs (unsw v hs c).length := by rw [unsw_length]; exact h
    rw [unsw_get h' (by rw [unsw_length]; exact hi), unsw_get h (sg_lt h hi), sg_sg h]
  · rw [List.getElem?_eq_none (by simp [unsw_length]; omega), List.getElem?_eq_none (by omega)]

theorem unsw_flip {v hs : Nat} {x y : List Byte} {i j : Nat} (h : VOk v hs x.length) (hf : FlipAt x y i j) :
    FlipAt (unsw v hs x) (unsw v hs y) (sg v hs i) j := by
  have hi := hf.lt
  obtain ⟨hj, hl, ⟨d, hd, hd'⟩, hk⟩ := hf
  have hy : VOk v hs y.length := by rw [hl]; exact h
  refine ⟨hj, by rw [unsw_length, unsw_length, hl], ⟨d, ?_, ?_⟩, fun k hne => ?_⟩
  · rw [unsw_get h (sg_lt h hi), sg_sg h, hd]
  · rw [unsw_get hy (by rw [hl]; exact sg_lt h hi), sg_sg h, hd']
  · by_cases hkl : k < x.length
    · rw [unsw_get h hkl, unsw_get hy (by omega)]
      exact hk _ fun e => hne (by rw [← e, sg_sg h])
    · rw [List.getElem?_eq_none (by rw [unsw_length]; omega), List.getElem?_eq_none (by rw [unsw_length]; omega)]

theorem memswp_spec {buf : List Byte} {p v hs inc : Nat} (hv : VOk v hs inc) (hp : p + inc ≤ buf.length) (h200 : hs ≤ 200) :
    ∃ b, (if v ≠ 0 then memswp buf p (p + v) hs else some buf) = some b ∧ b.length = buf.length ∧
      slice b p inc = unsw v hs (slice buf p inc) ∧ ∀ i, i < p ∨ p + inc ≤ i → b[i]? = buf[i]? := by
  have hlen : (slice buf p inc).length = inc := slice_length hp
  have hv' : VOk v hs (slice buf p inc).length := by rw [hlen]; exact hv
  -- it is enough to describe the bytes
  suffices h : ∃ b, (if v ≠ 0 then memswp buf p (p + v) hs else some buf) = some b ∧ b.length = buf.length ∧
      (∀ i < inc, b[p + i]? = buf[p + sg v hs i]?) ∧ ∀ i, i < p ∨ p + inc ≤ i → b[i]? = buf[i]? by
    obtain ⟨b, h1, h2, h3, h4⟩ := h
    refine ⟨b, h1, h2, ?_, h4⟩
    apply List.ext_getElem?
    intro i
    rw [slice_get]
    split
    · rename_i hi
      rw [unsw_get hv' (by omega), slice_get, if_pos (sg_lt hv hi), h3 i hi]
    · exact (List.getElem?_eq_none (by rw [unsw_length]; omega)).symm
  by_cases h0 : v = 0
  · refine ⟨buf, by rw [if_neg (by simpa using h0)], rfl, fun i _ => ?_, fun i _ => rfl⟩
    simp [sg, h0]
  · rw [if_pos h0]
    unfold memswp
    rw [if_neg (by omega)]
    by_cases hz : hs = 0
    · rw [if_pos hz]
      refine ⟨buf, rfl, rfl, fun i _ => ?_, fun i _ => rfl⟩
      have : ¬ (v ≤ i ∧ i < v + hs) := by omega
      have h2 : ¬ i < hs := by omega
      simp [sg, h0, this, h2]
    · obtain ⟨hv1, hv2⟩ : hs ≤ v ∧ v + hs ≤ inc := by rcases hv with h | h | h <;> omega
      rw [if_neg hz, if_pos (by omega)]
      obtain ⟨x, hx, hxl, hxg⟩ := memRead_some (buf := buf) (off := p) (len := hs) (by omega)
      obtain ⟨y, hy, hyl, hyg⟩ := memRead_some (buf := buf) (off := p + v) (len := hs) (by omega)
      obtain ⟨b1, h1, h1l, h1g⟩ := memWrite_some (buf := buf) (off := p) (src := y) (by omega)
      obtain ⟨b2, h2, h2l, h2g⟩ := memWrite_some (buf := b1) (off := p + v) (src := x) (by omega)
      rw [hx, Option.bind_some, hy, Option.bind_some, h1, Option.bind_some, h2]
      refine ⟨b2, rfl, by omega, fun i hi => ?_, fun i hi => ?_⟩
      · rw [h2g, h1g, hxl, hyl]
        unfold sg
        rw [if_neg h0]
        by_cases c1 : i < hs
        · rw [if_neg (by omega), if_pos (by omega), if_pos c1, hyg _ (by omega)]
          congr 1; omega
        · by_cases c2 : v ≤ i ∧ i < v + hs
          · rw [if_pos (by omega), if_neg c1, if_pos c2, hxg _ (by omega)]
            congr 1; omega
          · rw [if_neg (by omega), if_neg (by omega), if_neg c1, if_neg c2]
      · rw [h2g, h1g, hxl, hyl, if_neg (by omega), if_neg (by omega)]

/-! ## Configurations -/

/-- A supported verify type: its checksum length. -/
def Ty (t dl : Nat) : Prop := 1 ≤ t ∧ t ≤ 18 ∧ digLen t = some dl

/-- `H` produces checksums of the right length. -/
def HLen (H : Nat → List Byte → List Byte) : Prop :=
  ∀ t dl l, Ty t dl → hasDigest t = true → (H t l).length = dl

theorem digest_length {H : Nat → List Byte → List Byte} (hH : HLen H) {t dl : Nat} (ht : Ty t dl) (hd : hasDigest t = true)
    (l : List Byte) : (digest H t l).length = dl := by
  have hl := hH t dl l ht hd
  obtain ⟨h1, h2, h3⟩ := ht
  unfold digest
  split <;> first
    | (simp only [le_length]; simp [digLen] at h3; exact h3)
    | exact hl

/-- The size of the header for a supported type. -/
theorem hdrSize_ty {t dl : Nat} (ht : Ty t dl) : hdrSize t = some (if t = 18 then 0 else 48 + dl) := by
  obtain ⟨_, _, h3⟩ := ht
  unfold hdrSize
  rw [h3]
  split <;> rfl

theorem dl_le {t dl : Nat} (ht : Ty t dl) : dl ≤ 128 := by
  obtain ⟨h1, h2, h3⟩ := ht
  unfold digLen at h3
  split at h3 <;> first | (cases h3; omega) | exact absurd h3 (by simp)

theorem dl_zero {t dl : Nat} (ht : Ty t dl) (hd : hasDigest t = false) : dl = 0 := by
  obtain ⟨h1, h2, h3⟩ := ht
  unfold hasDigest at hd
  have : t = 1 ∨ t = 17 ∨ t = 18 := by
    simp only [Bool.and_eq_false_iff, decide_eq_false_iff_not] at hd
    omega
  rcases this with rfl | rfl | rfl <;> · simp [digLen] at h3; exact h3.symm

/-- Header size of a supported type. -/
def hsz (t dl : Nat) : Nat := if t = 18 then 0 else 48 + dl

theorem hsz_le {t dl : Nat} (ht : Ty t dl) : hsz t dl ≤ 200 := by
  have := dl_le ht
  unfold hsz; split <;> omega

/-! ## One interval on the write side -/

/-- What one interval `c` (with its header back in front) contains after populate_hdr, `orig` being its
previous contents. -/
structure Chunk (H : Nat → List Byte → List Byte) (cfg : Cfg) (io : Io) (dl num inc : Nat) (orig c : List Byte) : Prop where
  len : c.length = inc
  hdr : cfg.verify ≠ 18 → ∃ old : List Byte, old.length = 48 ∧ slice c 0 48 = fillHdr cfg io num inc old
  dig : hasDigest cfg.verify = true → slice c 48 dl = digest H cfg.verify (slice c (hsz cfg.verify dl) (inc - hsz cfg.verify dl))
  pay : slice c (hsz cfg.verify dl) (inc - hsz cfg.verify dl) = slice orig (hsz cfg.verify dl) (inc - hsz cfg.verify dl)

theorem populateHdr_spec {H : Nat → List Byte → List Byte} (hH : HLen H) {cfg : Cfg} {io : Io} {dl : Nat} (ht : Ty cfg.verify dl)
    {inc : Nat} (hinc : hsz cfg.verify dl < inc) (hv : VOk cfg.voffset (hsz cfg.verify dl) inc) {buf : List Byte} {num : Nat}
    (hb : num * inc + inc ≤ buf.length) :
    ∃ b, populateHdr H cfg io buf (num * inc) num inc = some b ∧ b.length = buf.length ∧
      (∀ i, i < num * inc ∨ num * inc + inc ≤ i → b[i]? = buf[i]?) ∧
      Chunk H cfg io dl num inc (slice buf (num * inc) inc) (unsw cfg.voffset (hsz cfg.verify dl) (slice b (num * inc) inc)) := by
  obtain ⟨p, hp⟩ : ∃ p, p = num * inc := ⟨_, rfl⟩
  rw [← hp] at hb ⊢
  have hhs : hdrSize cfg.verify = some (hsz cfg.verify dl) := hdrSize_ty ht
  have h200 := hsz_le ht
  have hs48 : cfg.verify ≠ 18 → 48 + dl = hsz cfg.verify dl := fun h => by unfold hsz; rw [if_neg h]
  have hd18 : hasDigest cfg.verify = true → cfg.verify ≠ 18 := fun h e => by rw [e] at h; simp [hasDigest] at h
  obtain ⟨hs, hhs'⟩ : ∃ hs, hs = hsz cfg.verify dl := ⟨_, rfl⟩
  rw [← hhs'] at hhs hinc hv h200 hs48
  unfold populateHdr
  -- the header
  obtain ⟨b1, e1, l1, g1, k1⟩ : ∃ b1, (if cfg.verify ≠ 18 then
        (memRead buf p 48).bind fun old => memWrite buf p (fillHdr cfg io num inc old) else some buf) = some b1 ∧
      b1.length = buf.length ∧ (∀ i, ¬ (p ≤ i ∧ i < p + hs) → b1[i]? = buf[i]?) ∧
      (cfg.verify ≠ 18 → ∃ old : List Byte, old.length = 48 ∧ slice b1 p 48 = fillHdr cfg io num inc old) := by
    by_cases h18 : cfg.verify = 18
    · exact ⟨buf, by rw [if_neg (by simpa using h18)], rfl, fun i _ => rfl, fun h => absurd h18 h⟩
    · rw [if_pos h18]
      have := hs48 h18
      have hbd : p + 48 ≤ buf.length := by omega
      rw [memRead_slice hbd, Option.bind_some]
      have lo : (slice buf p 48).length = 48 := slice_length hbd
      have lf := fillHdr_length cfg io num inc _ lo
      obtain ⟨b, hb, hl, hg⟩ := memWrite_some (buf := buf) (off := p) (src := fillHdr cfg io num inc (slice buf p 48)) (by omega)
      refine ⟨b, hb, hl, fun i hi => ?_, fun _ => ⟨_, lo, ?_⟩⟩
      · rw [hg, if_neg (by omega)]
      · apply List.ext_getElem?
        intro i
        rw [slice_get]
        split
        · rw [hg, if_pos (by omega), Nat.add_sub_cancel_left]
        · exact (List.getElem?_eq_none (by omega)).symm
  rw [e1, Option.bind_some, hhs, Option.bind_some, if_neg (by omega), memRead_slice (by omega), Option.bind_some]
  have hdata : slice b1 (p + hs) (inc - hs) = slice buf (p + hs) (inc - hs) :=
    slice_ext fun k hk => g1 _ (by omega)
  -- the checksum
  obtain ⟨b2, e2, l2, g2, k2, d2⟩ : ∃ b2, (if hasDigest cfg.verify = true then
        memWrite b1 (p + 48) (digest H cfg.verify (slice b1 (p + hs) (inc - hs))) else some b1) = some b2 ∧
      b2.length = buf.length ∧ (∀ i, ¬ (p ≤ i ∧ i < p + hs) → b2[i]? = buf[i]?) ∧
      (cfg.verify ≠ 18 → ∃ old : List Byte, old.length = 48 ∧ slice b2 p 48 = fillHdr cfg io num inc old) ∧
      (hasDigest cfg.verify = true → slice b2 (p + 48) dl = digest H cfg.verify (slice b1 (p + hs) (inc - hs))) := by
    by_cases hd : hasDigest cfg.verify = true
    · rw [if_pos hd]
      have h18 := hd18 hd
      have := hs48 h18
      have ld := digest_length hH ht hd (slice b1 (p + hs) (inc - hs))
      obtain ⟨b, hb, hl, hg⟩ := memWrite_some (buf := b1) (off := p + 48) (src := digest H cfg.verify (slice b1 (p + hs) (inc - hs))) (by omega)
      refine ⟨b, hb, by omega, fun i hi => ?_, fun _ => ?_, fun _ => ?_⟩
      · rw [hg, if_neg (by omega), g1 i hi]
      · obtain ⟨old, lo, ho⟩ := k1 h18
        refine ⟨old, lo, ?_⟩
        rw [← ho]
        exact slice_ext fun k hk => by rw [hg, if_neg (by omega)]
      · apply List.ext_getElem?
        intro i
        rw [slice_get]
        split
        · rw [hg, if_pos (by omega), Nat.add_sub_cancel_left]
        · exact (List.getElem?_eq_none (by omega)).symm
    · exact ⟨b1, by rw [if_neg hd], l1, g1, k1, fun h => absurd h hd⟩
  rw [e2, Option.bind_some]
  -- the swap
  have esw : (if cfg.voffset ≠ 0 ∧ hs ≠ 0 then memswp b2 p (p + cfg.voffset) hs else some b2) =
      (if cfg.voffset ≠ 0 then memswp b2 p (p + cfg.voffset) hs else some b2) := by
    by_cases h0 : hs = 0
    · rw [if_neg (by simp [h0])]
      split
      · unfold memswp; rw [if_neg (by omega), if_pos h0]
      · rfl
    · simp [h0]
  rw [esw]
  obtain ⟨b3, e3, l3, u3, g3⟩ := memswp_spec (buf := b2) (p := p) hv (by omega) h200
  have hsl : (slice b2 p inc).length = inc := slice_length (by omega)
  have hc : unsw cfg.voffset hs (slice b3 p inc) = slice b2 p inc := by
    rw [u3]; exact unsw_unsw (by rw [hsl]; exact hv)
  refine ⟨b3, e3, by omega, fun i hi => ?_, ?_⟩
  · rw [g3 i hi, g2 i (by omega)]
  · rw [← hhs', hc]
    refine ⟨hsl, fun h => ?_, fun h => ?_, ?_⟩
    · obtain ⟨old, lo, ho⟩ := k2 h
      have := hs48 h
      exact ⟨old, lo, by rw [slice_slice (by omega), Nat.add_zero, ho]⟩
    · have := hs48 (hd18 h)
      rw [← hhs', slice_slice (by omega), slice_slice (by omega), d2 h, hdata]
      congr 1
      exact slice_ext fun k hk => (g2 _ (by omega)).symm
    · rw [← hhs', slice_slice (by omega), slice_slice (by omega)]
      exact slice_ext fun k hk => g2 _ (by omega)

theorem populateLoop_spec {H : Nat → List Byte → List Byte} (hH : HLen H) {cfg : Cfg} {io : Io} {dl : Nat} (ht : Ty cfg.verify dl)
    {inc n : Nat} (hinc : hsz cfg.verify dl < inc) (hv : VOk cfg.voffset (hsz cfg.verify dl) inc) (orig : List Byte) :
    ∀ (fuel num : Nat) (buf : List Byte), buf.length = n * inc → num ≤ n → n ≤ num + fuel →
      (∀ m < num, Chunk H cfg io dl m inc (slice orig (m * inc) inc) (unsw cfg.voffset (hsz cfg.verify dl) (slice buf (m * inc) inc))) →
      (∀ m, num ≤ m → m < n → slice buf (m * inc) inc = slice orig (m * inc) inc) →
      ∃ b, populateLoop H cfg io inc fuel buf num = some b ∧ b.length = buf.length ∧
        ∀ m < n, Chunk H cfg io dl m inc (slice orig (m * inc) inc) (unsw cfg.voffset (hsz cfg.verify dl) (slice b (m * inc) inc)) := by
  intro fuel
  induction fuel with
  | zero =>
    intro num buf hl h1 h2 h3 h4
    have : num = n := by omega
    subst this
    unfold populateLoop
    rw [if_neg (by omega)]
    exact ⟨buf, rfl, rfl, h3⟩
  | succ fuel ih =>
    intro num buf hl h1 h2 h3 h4
    unfold populateLoop
    by_cases hn : num = n
    · subst hn
      rw [if_neg (by omega)]
      exact ⟨buf, rfl, rfl, h3⟩
    · have hbd : ∀ m < n, m * inc + inc ≤ n * inc := fun m hm => by
        have := Nat.mul_le_mul_right inc (show m + 1 ≤ n by omega)
        rw [Nat.add_mul, Nat.one_mul] at this; exact this
      have hb1 := hbd num (by omega)
      rw [if_pos (by omega)]
      dsimp only
      obtain ⟨b, hb, hbl, hbo, hbc⟩ := populateHdr_spec hH (io := io) ht hinc hv (buf := buf) (num := num) (by omega)
      rw [hb, Option.bind_some]
      -- other intervals are untouched
      have hoth : ∀ m, m ≠ num → slice b (m * inc) inc = slice buf (m * inc) inc := fun m hm => by
        apply slice_ext
        intro k hk
        apply hbo
        rcases Nat.lt_or_gt_of_ne hm with h | h
        · left
          have := Nat.mul_le_mul_right inc (show m + 1 ≤ num by omega)
          rw [Nat.add_mul, Nat.one_mul] at this; omega
        · right
          have := Nat.mul_le_mul_right inc (show num + 1 ≤ m by omega)
          rw [Nat.add_mul, Nat.one_mul] at this; omega
      have := ih (num + 1) b (by omega) (by omega) (by omega) (fun m hm => ?_) (fun m hm1 hm2 => ?_)
      · rw [hbl] at this; exact this
      · rcases Nat.lt_or_eq_of_le (Nat.lt_succ_iff.1 hm) with h | h
        · rw [hoth m (by omega)]; exact h3 m h
        · subst h; rw [← h4 m (Nat.le_refl _) (by omega)]; exact hbc
      · rw [hoth m (by omega)]; exact h4 m (by omega) hm2

/-! ## One interval on the read side -/

/-- Does this job check a pattern? -/
def usesPattern (cfg : Cfg) : Prop := cfg.verify = 17 ∨ cfg.verify = 18 ∨ (cfg.verify = 1 ∧ cfg.pattern ≠ [])

/-- The payload check of interval `num`, `c` having its header in front. -/
def PayloadOk (H : Nat → List Byte → List Byte) (cfg : Cfg) (io : Io) (dl num inc : Nat) (c : List Byte) : Prop :=
  (hasDigest cfg.verify = true → slice c 48 dl = digest H cfg.verify (slice c (hsz cfg.verify dl) (inc - hsz cfg.verify dl))) ∧
  (usesPattern cfg → ∀ i, hsz cfg.verify dl ≤ i → i < inc →
    c[i]? = Pattern.wanted cfg.pattern cfg.fmts cfg.pinterval io.offset (inc * num + i))

/-- The pattern options are usable. -/
def PatOk (cfg : Cfg) : Prop := usesPattern cfg → cfg.pattern ≠ [] ∧ Pattern.Sorted cfg.fmts

theorem verifyOne_spec {H : Nat → List Byte → List Byte} {cfg : Cfg} {io : Io} {dl : Nat} (ht : Ty cfg.verify dl)
    {inc : Nat} (hinc : hsz cfg.verify dl < inc) (h32 : inc < 2 ^ 32) (hv : VOk cfg.voffset (hsz cfg.verify dl) inc) (hpat : PatOk cfg)
    {buf : List Byte} {num : Nat} (hb : num * inc + inc ≤ buf.length) (c : List Byte)
    (hc : c = unsw cfg.voffset (hsz cfg.verify dl) (slice buf (num * inc) inc)) :
    ∃ b, b.length = buf.length ∧ (∀ i, i < num * inc ∨ num * inc + inc ≤ i → b[i]? = buf[i]?) ∧
      (cfg.verify ≠ 18 ∧ ¬ Good cfg io num inc (slice c 0 48) → verifyOne H cfg io inc buf num = some (b, .badHeader)) ∧
      ((cfg.verify ≠ 18 → Good cfg io num inc (slice c 0 48) ∧ field (slice c 0 48) 3 1 = cfg.verify) →
        ∃ ok, verifyOne H cfg io inc buf num = some (b, .data ok) ∧ (ok = true ↔ PayloadOk H cfg io dl num inc c)) := by
  have hhs : hdrSize cfg.verify = some (hsz cfg.verify dl) := hdrSize_ty ht
  have h200 := hsz_le ht
  have hs48 : cfg.verify ≠ 18 → 48 + dl = hsz cfg.verify dl := fun h => by unfold hsz; rw [if_neg h]
  have hd18 : hasDigest cfg.verify = true → cfg.verify ≠ 18 := fun h e => by rw [e] at h; simp [hasDigest] at h
  unfold PayloadOk
  obtain ⟨hs, hhs'⟩ : ∃ hs, hs = hsz cfg.verify dl := ⟨_, rfl⟩
  rw [← hhs'] at hhs hinc hv h200 hs48 hc ⊢
  unfold verifyOne
  dsimp only
  obtain ⟨p, hp⟩ : ∃ p, p = num * inc := ⟨_, rfl⟩
  rw [← hp] at hb hc ⊢
  obtain ⟨b, e, l, u, g⟩ := memswp_spec (buf := buf) (p := p) hv hb h200
  rw [← hc] at u
  have hcg : ∀ i < inc, b[p + i]? = c[i]? := fun i hi => by rw [← u, slice_get, if_pos hi]
  have hsl : ∀ o n, o + n ≤ inc → slice b (p + o) n = slice c o n := fun o n h => by rw [← u, slice_slice h]
  refine ⟨b, l, g, fun hbad => ?_, fun hgood => ?_⟩
  · have := hs48 hbad.1
    rw [hhs, Option.bind_some, e, Option.bind_some, if_pos hbad.1, memRead_slice (by omega), Option.bind_some, Option.bind_some]
    rw [if_pos]
    rw [Bool.eq_false_iff]
    intro hok
    have := hsl 0 48 (by omega)
    rw [Nat.add_zero] at this
    rw [this] at hok
    exact hbad.2 ((verifyHeader_iff ..).1 hok)
  · rw [hhs, Option.bind_some, e, Option.bind_some]
    have e0 : (if cfg.verify ≠ 18 then (memRead b p 48).bind fun h => some (verifyHeader cfg io num inc h) else some true) = some true := by
      split
      · rename_i h18
        have := hs48 h18
        have h3 := hsl 0 48 (by omega)
        rw [Nat.add_zero] at h3
        rw [memRead_slice (by omega), Option.bind_some, h3, (verifyHeader_iff ..).2 (hgood h18).1]
      · rfl
    obtain ⟨h1, h2, h3⟩ := ht
    rw [e0, Option.bind_some, if_neg (by decide), if_pos (by omega), Option.bind_some]
    -- the pattern check
    have hpc : usesPattern cfg → ∃ r, Pattern.verifyIoUPattern cfg.pattern cfg.fmts cfg.pinterval b inc hs num io.offset = some r ∧
        (r = true ↔ ∀ i, hs ≤ i → i < inc → c[i]? = Pattern.wanted cfg.pattern cfg.fmts cfg.pinterval io.offset (inc * num + i)) := by
      intro hu
      obtain ⟨hp1, hp2⟩ := hpat hu
      have hpm : inc * num = p := by rw [hp, Nat.mul_comm]
      obtain ⟨r, hr, hri⟩ := Pattern.C21_verify cfg.pattern cfg.fmts cfg.pinterval b inc hs num io.offset hp1 hp2 hinc (by omega)
      refine ⟨r, hr, hri.trans ⟨fun h i h1 h2 => ?_, fun h i h1 h2 => ?_⟩⟩
      · rw [← h (inc * num + i) (by omega) (by omega), hpm, hcg i h2]
      · have := h (i - inc * num) (by omega) (by omega)
        rw [← hcg _ (by omega), show p + (i - inc * num) = i by omega, show inc * num + (i - inc * num) = i by omega] at this
        exact this
    by_cases c1 : cfg.verify = 1
    · rw [if_pos c1]
      have hnd : hasDigest cfg.verify = false := by rw [c1]; rfl
      by_cases c2 : cfg.pattern.length = 0
      · rw [if_neg (by simpa using c2)]
        refine ⟨true, rfl, by simp only [hnd]; simp [usesPattern, c1, List.length_eq_zero_iff.1 c2]⟩
      · rw [if_pos c2]
        have hu : usesPattern cfg := Or.inr (Or.inr ⟨c1, fun h => c2 (by simp [h])⟩)
        obtain ⟨r, hr, hri⟩ := hpc hu
        rw [hr, Option.bind_some]
        exact ⟨r, rfl, by simp only [hnd]; simp only [hri, hu, true_implies]; simp⟩
    · rw [if_neg c1]
      by_cases c2 : cfg.verify = 17 ∨ cfg.verify = 18
      · rw [if_pos c2]
        have hnd : hasDigest cfg.verify = false := by rcases c2 with h | h <;> · rw [h]; rfl
        have hu : usesPattern cfg := by rcases c2 with h | h <;> simp [usesPattern, h]
        obtain ⟨r, hr, hri⟩ := hpc hu
        rw [hr, Option.bind_some]
        exact ⟨r, rfl, by simp only [hnd]; simp only [hri, hu, true_implies]; simp⟩
      · rw [if_neg c2]
        have hd : hasDigest cfg.verify = true := by simp [hasDigest]; omega
        have hnu : ¬ usesPattern cfg := by simp only [usesPattern]; omega
        rw [if_pos hd]
        have h18 := hd18 hd
        have := hs48 h18
        obtain ⟨hg, hty⟩ := hgood h18
        unfold checkDigest
        have hh : slice b p 48 = slice c 0 48 := by have := hsl 0 48 (by omega); rwa [Nat.add_zero] at this
        rw [memRead_slice (by omega), Option.bind_some, hh, hty, hhs, Option.bind_some, h3, Option.bind_some, hg.len, ← hp,
          show (inc + 2 ^ 32 - hs) % 2 ^ 32 = inc - hs by
            rw [show inc + 2 ^ 32 - hs = inc - hs + 2 ^ 32 by omega, Nat.add_mod_right]; exact Nat.mod_eq_of_lt (by omega),
          memRead_slice (by omega), Option.bind_some, memRead_slice (by omega), Option.bind_some, Option.bind_some,
          hsl _ _ (by omega), hsl _ _ (by omega)]
        exact ⟨_, rfl, by simp only [hd, hnu, false_implies, and_true, true_implies, beq_iff_eq]⟩

/-! ## The loop -/

/-- The result of verify_io_u from the results of the intervals `num, …, num + k - 1`. -/
def loopRes (fatal : Bool) (R : Nat → Res) : Nat → Nat → Bool → Bool
  | 0, _, ret => ret
  | k + 1, num, ret =>
    if ret = false ∧ fatal = true then false
    else match R num with
      | .badHeader => false
      | .data ok => loopRes fatal R k (num + 1) ok

theorem verifyLoop_spec {H : Nat → List Byte → List Byte} {cfg : Cfg} {io : Io} {inc n : Nat} (hi : 0 < inc) (orig : List Byte) (R : Nat → Res)
    (hR : ∀ m < n, ∀ cur : List Byte, cur.length = n * inc → slice cur (m * inc) inc = slice orig (m * inc) inc →
      ∃ b, verifyOne H cfg io inc cur m = some (b, R m) ∧ b.length = cur.length ∧
        ∀ i, i < m * inc ∨ m * inc + inc ≤ i → b[i]? = cur[i]?) :
    ∀ (fuel num : Nat) (cur : List Byte) (ret : Bool), cur.length = n * inc → num ≤ n → n ≤ num + fuel →
      (∀ m, num ≤ m → m < n → slice cur (m * inc) inc = slice orig (m * inc) inc) →
      verifyLoop H cfg io inc fuel cur num ret = some (loopRes cfg.fatal R (n - num) num ret) := by
  intro fuel
  induction fuel with
  | zero =>
    intro num cur ret hl h1 h2 _
    have : num = n := by omega
    subst this
    unfold verifyLoop
    rw [if_neg (by omega), Nat.sub_self]; rfl
  | succ fuel ih =>
    intro num cur ret hl h1 h2 h3
    unfold verifyLoop
    by_cases hn : num = n
    · subst hn
      rw [if_neg (by omega), Nat.sub_self]; rfl
    · have hlt : num * inc < n * inc := Nat.mul_lt_mul_of_pos_right (by omega) hi
      rw [if_pos (by omega), show n - num = (n - (num + 1)) + 1 by omega, loopRes]
      by_cases hf : ret = false ∧ cfg.fatal = true
      · rw [if_pos hf, if_pos hf, hf.1]
      · rw [if_neg hf, if_neg hf]
        dsimp only
        obtain ⟨b, e, bl, bo⟩ := hR num (by omega) cur hl (h3 num (Nat.le_refl _) (by omega))
        rw [e, Option.bind_some]
        dsimp only
        cases hr : R num with
        | badHeader => rfl
        | data ok =>
          dsimp only
          apply ih _ _ _ (by omega) (by omega) (by omega)
          intro m hm1 hm2
          rw [← h3 m (by omega) hm2]
          apply slice_ext
          intro k hk
          apply bo
          right
          have := Nat.mul_le_mul_right inc (show num + 1 ≤ m by omega)
          rw [Nat.add_mul, Nat.one_mul] at this; omega

theorem loopRes_ok (fatal : Bool) (R : Nat → Res) : ∀ k num, (∀ m, num ≤ m → m < num + k → R m = .data true) →
    loopRes fatal R k num true = true := by
  intro k
  induction k with
  | zero => intro num _; rfl
  | succ k ih =>
    intro num h
    rw [loopRes, if_neg (by simp), h num (Nat.le_refl _) (by omega)]
    exact ih _ fun m h1 h2 => h m (by omega) (by omega)

/-- A bad header is always reported. -/
theorem loopRes_bad (fatal : Bool) (R : Nat → Res) : ∀ k num ret m, num ≤ m → m < num + k → R m = .badHeader →
    loopRes fatal R k num ret = false := by
  intro k
  induction k with
  | zero => intro num ret m h1 h2; omega
  | succ k ih =>
    intro num ret m h1 h2 hm
    rw [loopRes]
    split
    · rfl
    · split
      · rfl
      · rename_i ok hok
        refine ih _ _ m ?_ (by omega) hm
        rcases Nat.lt_or_eq_of_le h1 with h | h
        · omega
        · rw [h, hm] at hok; exact absurd hok (by simp)

/-- Bad data is reported with verify_fatal. -/
theorem loopRes_fatal (R : Nat → Res) : ∀ k num ret m, num ≤ m → m < num + k → R m = .data false →
    loopRes true R k num ret = false := by
  intro k
  induction k with
  | zero => intro num ret m h1 h2; omega
  | succ k ih =>
    intro num ret m h1 h2 hm
    rw [loopRes]
    split
    · rfl
    · split
      · rfl
      · rename_i ok hok
        rcases Nat.lt_or_eq_of_le h1 with h | h
        · exact ih _ _ m (by omega) (by omega) hm
        · rw [h, hm] at hok
          cases hok
          cases k with
          | zero => rfl
          | succ k => rw [loopRes, if_pos ⟨rfl, rfl⟩]

/-- Bad data in the last interval is reported. -/
theorem loopRes_last (fatal : Bool) (R : Nat → Res) : ∀ k num ret, R (num + k) = .data false →
    loopRes fatal R (k + 1) num ret = false := by
  intro k
  induction k with
  | zero =>
    intro num ret h
    rw [loopRes]
    split
    · rfl
    · rw [show num = num + 0 by rfl, h]; rfl
  | succ k ih =>
    intro num ret h
    rw [loopRes]
    split
    · rfl
    · split
      · rfl
      · exact ih _ _ (by rw [← h]; congr 1; omega)

/-- Without verify_fatal, bad data followed only by good intervals is forgotten. -/
theorem loopRes_masked (R : Nat → Res) : ∀ k num ret, (∀ m, num ≤ m → m < num + k → ∃ ok, R m = .data ok) →
    R (num + k) = .data true → loopRes false R (k + 1) num ret = true := by
  intro k
  induction k with
  | zero =>
    intro num ret _ h
    rw [loopRes, if_neg (by simp), show num = num + 0 by rfl, h]; rfl
  | succ k ih =>
    intro num ret h1 h
    rw [loopRes, if_neg (by simp)]
    obtain ⟨ok, e⟩ := h1 num (Nat.le_refl _) (by omega)
    rw [e]
    exact ih _ _ (fun m hm1 hm2 => h1 m (by omega) (by omega)) (by rw [← h]; congr 1; omega)

end Fio.Verify
