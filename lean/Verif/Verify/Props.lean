import Verif.Verify.Block
/-
C33: a block with its verify headers, written and read back.
-/
namespace Fio.Verify

/-- The circumstances of C33: verify type `cfg.verify` with a checksum of `dl` bytes, a block of `n`
intervals of `inc` bytes, header shorter than the interval and, when it is moved, moved to a disjoint
place inside it; pattern options usable, and the block holding the pattern where one is used. -/
structure Job (H : Nat → List Byte → List Byte) (cfg : Cfg) (io : Io) (dl inc n : Nat) (buf : List Byte) : Prop where
  hlen : HLen H
  ty : Ty cfg.verify dl
  inc_eq : inc = hdrInc cfg buf.length
  len : buf.length = n * inc
  small : buf.length < 2 ^ 32
  fits : hsz cfg.verify dl < inc
  off : VOk cfg.voffset (hsz cfg.verify dl) inc
  pat : PatOk cfg
  filled : usesPattern cfg → ∀ i < buf.length, buf[i]? = Pattern.wanted cfg.pattern cfg.fmts cfg.pinterval io.offset i

variable {H : Nat → List Byte → List Byte} {cfg : Cfg} {io : Io} {dl inc n : Nat} {buf : List Byte}

theorem Job.bound (J : Job H cfg io dl inc n buf) {m : Nat} (hm : m < n) : m * inc + inc ≤ buf.length := by
  have := Nat.mul_le_mul_right inc (show m + 1 ≤ n by omega)
  rw [Nat.add_mul, Nat.one_mul, ← J.len] at this; exact this

theorem Job.inc32 (J : Job H cfg io dl inc n buf) (hn : 0 < n) : inc < 2 ^ 32 := by
  have := J.bound hn; have := J.small; omega

theorem Job.fuel (J : Job H cfg io dl inc n buf) : n ≤ 0 + buf.length := by
  rw [J.len, Nat.zero_add]; exact Nat.le_mul_of_pos_right n (by have := J.fits; omega)

theorem Job.populate (J : Job H cfg io dl inc n buf) :
    ∃ b, populate H cfg io buf = some b ∧ b.length = buf.length ∧ ∀ m < n,
      Chunk H cfg io dl m inc (slice buf (m * inc) inc) (unsw cfg.voffset (hsz cfg.verify dl) (slice b (m * inc) inc)) := by
  unfold Verify.populate
  rw [← J.inc_eq]
  exact populateLoop_spec J.hlen J.ty J.fits J.off buf _ _ _ J.len (Nat.zero_le _) J.fuel (fun m hm => by omega) (fun _ _ _ => rfl)

theorem ty_mod {t dl : Nat} (h : Ty t dl) : t % 256 = t := Nat.mod_eq_of_lt (by have := h.2.1; omega)

/-- A freshly written interval passes all checks. -/
theorem Job.good (J : Job H cfg io dl inc n buf) {m : Nat} (hm : m < n) {c : List Byte}
    (hc : Chunk H cfg io dl m inc (slice buf (m * inc) inc) c) :
    (cfg.verify ≠ 18 → Good cfg io m inc (slice c 0 48) ∧ field (slice c 0 48) 3 1 = cfg.verify) ∧ PayloadOk H cfg io dl m inc c := by
  refine ⟨fun h => ?_, hc.dig, fun hu i h1 h2 => ?_⟩
  · obtain ⟨old, lo, ho⟩ := hc.hdr h
    have := fillHdr_fields cfg io m inc old lo (J.inc32 (by omega))
    rw [ho]
    exact ⟨this.1, by rw [this.2, ty_mod J.ty]⟩
  · have hb := J.bound hm
    have := slice_ext_get hc.pay (k := i - hsz cfg.verify dl) (by omega)
    rw [show hsz cfg.verify dl + (i - hsz cfg.verify dl) = i by omega, slice_get, if_pos h2] at this
    rw [this, Nat.mul_comm inc m]
    exact J.filled hu _ (by omega)

/-- The results of the intervals decide the result of verify_io_u. -/
theorem Job.verify (J : Job H cfg io dl inc n buf) (y : List Byte) (hy : y.length = buf.length) (R : Nat → Res)
    (hR : ∀ m < n, ∀ cur : List Byte, cur.length = n * inc → slice cur (m * inc) inc = slice y (m * inc) inc →
      ∃ b, verifyOne H cfg io inc cur m = some (b, R m) ∧ b.length = cur.length ∧
        ∀ i, i < m * inc ∨ m * inc + inc ≤ i → b[i]? = cur[i]?) :
    verifyIoU H cfg io y = some (loopRes cfg.fatal R n 0 true) := by
  unfold verifyIoU
  rw [hy, ← J.inc_eq]
  exact verifyLoop_spec (by have := J.fits; omega) y R hR _ _ _ _ (by rw [hy, J.len]) (Nat.zero_le _) J.fuel (fun _ _ _ => rfl)

/-- **C33**, round trip: a block written by fill_pattern_headers and read back unchanged passes
verify_io_u, for every verify type, interval, verify_offset and checksum function; outside the headers
the block keeps its data. -/
theorem C33_roundtrip (J : Job H cfg io dl inc n buf) :
    ∃ b, populate H cfg io buf = some b ∧ b.length = buf.length ∧ verifyIoU H cfg io b = some true := by
  obtain ⟨b, hb, hl, hc⟩ := J.populate
  refine ⟨b, hb, hl, ?_⟩
  rw [J.verify b hl (fun _ => .data true) ?_]
  · rw [loopRes_ok _ _ _ _ fun _ _ _ => rfl]
  · intro m hm cur hcl hcs
    obtain ⟨hg, hp⟩ := J.good hm (hc m hm)
    have hbd := J.bound hm
    obtain ⟨b', h1, h2, -, h4⟩ := verifyOne_spec (H := H) (io := io) J.ty J.fits (J.inc32 (by omega)) J.off J.pat
      (buf := cur) (num := m) (by rw [hcl, ← J.len]; exact hbd) _ rfl
    rw [hcs] at h4
    obtain ⟨ok, e, hok⟩ := h4 hg
    rw [hok.2 hp] at e
    exact ⟨b', e, h1, h2⟩

/-- The type of corruption detected: every type with a CRC, and every use of a pattern. -/
def Detects (cfg : Cfg) : Prop := (3 ≤ cfg.verify ∧ cfg.verify ≤ 8) ∨ usesPattern cfg

theorem digest_flip (H : Nat → List Byte → List Byte) {t : Nat} (ht : 3 ≤ t ∧ t ≤ 8) {x y : List Byte} {i j : Nat} (h : FlipAt x y i j) :
    digest H t x ≠ digest H t y := by
  obtain ⟨a, d, z, rfl, rfl, -⟩ := h.split
  obtain ⟨h1, h2, h3, h4, h5, -, -⟩ := Crc.C20_single_bit a z d j h.1
  have : t = 3 ∨ t = 4 ∨ t = 5 ∨ t = 6 ∨ t = 7 ∨ t = 8 := by omega
  intro e
  rcases this with rfl | rfl | rfl | rfl | rfl | rfl
  · exact h5 (BitVec.eq_of_toNat_eq (le_inj (n := 8) (BitVec.isLt _) (BitVec.isLt _) e))
  · exact h2 (BitVec.eq_of_toNat_eq (le_inj (n := 4) (BitVec.isLt _) (BitVec.isLt _) e))
  · exact h1 (BitVec.eq_of_toNat_eq (le_inj (n := 4) (BitVec.isLt _) (BitVec.isLt _) e))
  · exact h1 (BitVec.eq_of_toNat_eq (le_inj (n := 4) (BitVec.isLt _) (BitVec.isLt _) e))
  · exact h3 (BitVec.eq_of_toNat_eq (le_inj (n := 2) (BitVec.isLt _) (BitVec.isLt _) e))
  · exact h4 (BitVec.eq_of_toNat_eq (le_inj (n := 1) (BitVec.isLt _) (BitVec.isLt _) e))

/-- The effect of one flipped bit on the interval that contains it. -/
theorem Job.flip (J : Job H cfg io dl inc n buf) {m : Nat} (hm : m < n) {c c' : List Byte} {i j : Nat}
    (hc : Chunk H cfg io dl m inc (slice buf (m * inc) inc) c) (hf : FlipAt c c' i j) :
    (cfg.verify ≠ 18 ∧ i < 48 → ¬ Good cfg io m inc (slice c' 0 48)) ∧
    (¬ (cfg.verify ≠ 18 ∧ i < 48) → slice c' 0 48 = slice c 0 48 ∨ cfg.verify = 18) ∧
    (¬ (cfg.verify ≠ 18 ∧ i < 48) → Detects cfg → ¬ PayloadOk H cfg io dl m inc c') := by
  have hi := hf.lt
  have hcl := hc.len
  have hfit := J.fits
  obtain ⟨hg, hp⟩ := J.good hm hc
  have hs48 : cfg.verify ≠ 18 → 48 + dl = hsz cfg.verify dl := fun h => by unfold hsz; rw [if_neg h]
  refine ⟨fun h => ?_, fun h => ?_, fun h hd hp' => ?_⟩
  · have := hs48 h.1
    exact flip_rejected cfg cfg io io m m inc inc _ _ (slice_length (by omega)) (hg h.1).1 _ j
      ((hf.slice 0 48 (by omega)).1 ⟨by omega, by omega⟩)
  · by_cases h18 : cfg.verify = 18
    · exact Or.inr h18
    · have := hs48 h18
      exact Or.inl ((hf.slice 0 48 (by omega)).2 (by omega))
  · -- where is the bit?
    by_cases hpay : hsz cfg.verify dl ≤ i
    · rcases hd with hcrc | hu
      · have hdg : hasDigest cfg.verify = true := by simp [hasDigest]; omega
        have := hs48 (by omega)
        have e1 := hp.1 hdg
        have e2 := hp'.1 hdg
        have e3 : slice c' 48 dl = slice c 48 dl := (hf.slice 48 dl (by omega)).2 (by omega)
        rw [e3, e1] at e2
        exact digest_flip H hcrc ((hf.slice (hsz cfg.verify dl) (inc - hsz cfg.verify dl) (by omega)).1 ⟨by omega, by omega⟩) e2
      · have e1 := hp.2 hu i hpay (by omega)
        have e2 := hp'.2 hu i hpay (by omega)
        obtain ⟨d, h1, h2⟩ := hf.2.2.1
        rw [← e1, h1, h2] at e2
        exact xor_bit_ne d j hf.1 (Option.some.inj e2)
    · have h18 : cfg.verify ≠ 18 := fun e => hpay (by unfold hsz; rw [if_pos e]; omega)
      have := hs48 h18
      have hdg : hasDigest cfg.verify = true := by
        by_contra hn
        have := dl_zero J.ty (by simpa using hn)
        omega
      have e1 := hp.1 hdg
      have e2 := hp'.1 hdg
      have e3 : slice c' (hsz cfg.verify dl) (inc - hsz cfg.verify dl) = slice c (hsz cfg.verify dl) (inc - hsz cfg.verify dl) :=
        (hf.slice _ _ (by omega)).2 (by omega)
      rw [e3, ← e1] at e2
      exact ((hf.slice 48 dl (by omega)).1 ⟨by omega, by omega⟩).ne e2.symm

/-- Results of all intervals when bit `j` of byte `i` of a written block is inverted. -/
theorem Job.results (J : Job H cfg io dl inc n buf) (hd : Detects cfg) {b y : List Byte} {i j : Nat}
    (hl : b.length = buf.length) (hf : FlipAt b y i j)
    (hc : ∀ m < n, Chunk H cfg io dl m inc (slice buf (m * inc) inc) (unsw cfg.voffset (hsz cfg.verify dl) (slice b (m * inc) inc))) :
    i / inc < n ∧ verifyIoU H cfg io y = some (loopRes cfg.fatal
      (fun m => if m = i / inc then
          if cfg.verify ≠ 18 ∧ sg cfg.voffset (hsz cfg.verify dl) (i % inc) < 48 then .badHeader else .data false
        else .data true) n 0 true) := by
  have hi := hf.lt
  have hfit := J.fits
  have hinc : 0 < inc := by omega
  have hin : i / inc < n := by
    rw [Nat.div_lt_iff_lt_mul hinc, ← J.len]; omega
  refine ⟨hin, J.verify y (by rw [hf.2.1, hl]) _ ?_⟩
  intro m hm cur hcl hcs
  have hbd := J.bound hm
  obtain ⟨b', h1, h2, h3, h4⟩ := verifyOne_spec (H := H) (io := io) J.ty J.fits (J.inc32 (by omega)) J.off J.pat
    (buf := cur) (num := m) (by rw [hcl, ← J.len]; exact hbd) _ rfl
  rw [hcs] at h3 h4
  have hmi := Nat.div_add_mod i inc
  have hmod := Nat.mod_lt i hinc
  rw [Nat.mul_comm] at hmi
  by_cases hmm : m = i / inc
  · rw [if_pos hmm]
    have hsl := (hf.slice (m * inc) inc (by omega)).1 (by rw [hmm]; omega)
    have hidx : i - m * inc = i % inc := by rw [hmm]; omega
    rw [hidx] at hsl
    have hlen : (slice b (m * inc) inc).length = inc := slice_length (by omega)
    have hfl := unsw_flip (v := cfg.voffset) (hs := hsz cfg.verify dl) (x := slice b (m * inc) inc) (y := slice y (m * inc) inc)
      (by rw [hlen]; exact J.off) hsl
    obtain ⟨k1, k2, k3⟩ := J.flip hm (hc m hm) hfl
    by_cases hh : cfg.verify ≠ 18 ∧ sg cfg.voffset (hsz cfg.verify dl) (i % inc) < 48
    · rw [if_pos hh]
      exact ⟨b', h3 ⟨hh.1, k1 hh⟩, h1, h2⟩
    · rw [if_neg hh]
      obtain ⟨hg, -⟩ := J.good hm (hc m hm)
      obtain ⟨ok, e, hok⟩ := h4 fun h18 => by
        rcases k2 hh with k | k
        · rw [k]; exact hg h18
        · exact absurd k h18
      have : ok = false := by
        rw [Bool.eq_false_iff]; exact fun h => k3 hh hd (hok.1 h)
      rw [this] at e
      exact ⟨b', e, h1, h2⟩
  · rw [if_neg hmm]
    have hsl : slice y (m * inc) inc = slice b (m * inc) inc := (hf.slice (m * inc) inc (by omega)).2 fun h => hmm (by
      rcases Nat.lt_trichotomy m (i / inc) with g | g | g
      · have := Nat.mul_le_mul_right inc (show m + 1 ≤ i / inc by omega)
        rw [Nat.add_mul, Nat.one_mul] at this; omega
      · exact g
      · have := Nat.mul_le_mul_right inc (show i / inc + 1 ≤ m by omega)
        rw [Nat.add_mul, Nat.one_mul] at this; omega)
    rw [hsl] at h4
    obtain ⟨hg, hp⟩ := J.good hm (hc m hm)
    obtain ⟨ok, e, hok⟩ := h4 hg
    rw [hok.2 hp] at e
    exact ⟨b', e, h1, h2⟩

/-- **C33**, detection: for the CRC types and the pattern types, inverting any single bit of a written
block — header, checksum or data — makes verify_io_u fail, provided verify_fatal is set or the bit lies in
the last interval or in a header. -/
theorem C33_single_bit (J : Job H cfg io dl inc n buf) (hd : Detects cfg) :
    ∃ b, populate H cfg io buf = some b ∧ ∀ y i j, FlipAt b y i j →
      (cfg.fatal = true ∨ i / inc = n - 1 ∨ (cfg.verify ≠ 18 ∧ sg cfg.voffset (hsz cfg.verify dl) (i % inc) < 48)) →
      verifyIoU H cfg io y = some false := by
  obtain ⟨b, hb, hl, hc⟩ := J.populate
  refine ⟨b, hb, fun y i j hf hcase => ?_⟩
  obtain ⟨hin, e⟩ := J.results hd hl hf hc
  rw [e]
  congr 1
  by_cases hh : cfg.verify ≠ 18 ∧ sg cfg.voffset (hsz cfg.verify dl) (i % inc) < 48
  · exact loopRes_bad _ _ _ _ _ (i / inc) (Nat.zero_le _) (by omega) (by rw [if_pos rfl, if_pos hh])
  · rcases hcase with h | h | h
    · rw [h]
      exact loopRes_fatal _ _ _ _ (i / inc) (Nat.zero_le _) (by omega) (by rw [if_pos rfl, if_neg hh])
    · obtain ⟨k, rfl⟩ : ∃ k, n = k + 1 := ⟨n - 1, by omega⟩
      exact loopRes_last _ _ _ _ _ (by rw [if_pos (by omega), if_neg hh])
    · exact absurd h hh

/-- **C33**, a hole in verify_io_u: without verify_fatal, damage to the data of an interval that is not
the last one of the block is forgotten, and verify_io_u returns 0 (verify.c:1037-1117 overwrite `ret`). -/
theorem C33_masked (J : Job H cfg io dl inc n buf) (hd : Detects cfg) :
    ∃ b, populate H cfg io buf = some b ∧ ∀ y i j, FlipAt b y i j → cfg.fatal = false → i / inc < n - 1 →
      ¬ (cfg.verify ≠ 18 ∧ sg cfg.voffset (hsz cfg.verify dl) (i % inc) < 48) →
      verifyIoU H cfg io y = some true := by
  obtain ⟨b, hb, hl, hc⟩ := J.populate
  refine ⟨b, hb, fun y i j hf hfat hlast hh => ?_⟩
  obtain ⟨hin, e⟩ := J.results hd hl hf hc
  rw [e, hfat]
  congr 1
  have := Nat.zero_le (i / inc)
  obtain ⟨k, rfl⟩ : ∃ k, n = k + 1 := ⟨n - 1, by omega⟩
  refine loopRes_masked _ _ _ _ (fun m _ _ => ?_) (by rw [if_neg (by omega)])
  split
  · exact ⟨_, rfl⟩
  · exact ⟨_, rfl⟩

/-- The same for a block filled with the pattern: the whole write side. -/
theorem C33_pattern (hH : HLen H) (ht : Ty cfg.verify dl) (hinc : inc = hdrInc cfg buf.length) (hlen : buf.length = n * inc)
    (hsm : buf.length < 2 ^ 32) (hfit : hsz cfg.verify dl < inc) (hoff : VOk cfg.voffset (hsz cfg.verify dl) inc)
    (hp : cfg.pattern ≠ []) (hs : Pattern.Sorted cfg.fmts) :
    ∃ a, Pattern.fillVerifyPattern cfg.pattern cfg.fmts cfg.pinterval buf io.offset = some a ∧ Job H cfg io dl inc n a := by
  obtain ⟨a, ha, hl, hg⟩ := Pattern.C21_fill_verify cfg.pattern cfg.fmts cfg.pinterval buf io.offset hp hs hsm
  exact ⟨a, ha, hH, ht, by rw [hl]; exact hinc, by omega, by omega, hfit, hoff, fun _ => ⟨hp, hs⟩, fun _ i hi => hg i (by omega)⟩

/-- **C33**, a hole in the option checks: a block of one interval is never written without undefined
behaviour when the moved header overlaps its old place or leaves the interval. -/
theorem C33_offset (ht : Ty cfg.verify dl) (hone : hdrInc cfg buf.length = buf.length) (hne : buf ≠ [])
    (hbad : ¬ VOk cfg.voffset (hsz cfg.verify dl) buf.length) : populate H cfg io buf = none := by
  have hhs : hdrSize cfg.verify = some (hsz cfg.verify dl) := hdrSize_ty ht
  have hn0 : 0 < buf.length := List.length_pos_iff.2 hne
  unfold VOk at hbad
  unfold populate
  rw [hone]
  obtain ⟨k, hk⟩ : ∃ k, buf.length = k + 1 := ⟨buf.length - 1, by omega⟩
  suffices h : populateHdr H cfg io buf (0 * buf.length) 0 buf.length = none by
    unfold populateLoop
    split
    · rw [hk]; dsimp only; rw [← hk, h]; rfl
    · omega
  unfold populateHdr
  rw [hhs]
  -- every buffer on the way has the same length, and the swap is undefined on all of them
  have hw : ∀ (x : List Byte) (o : Nat) (s r : List Byte), memWrite x o s = some r → r.length = x.length := by
    intro x o s r h
    unfold memWrite at h
    split at h
    · cases h; simp; omega
    · exact absurd h (by simp)
  have hsw : ∀ x : List Byte, x.length = buf.length → memswp x (0 * buf.length) (0 * buf.length + cfg.voffset) (hsz cfg.verify dl) = none := by
    intro x hx
    unfold memswp
    split
    · rfl
    · rw [if_neg (by omega)]
      split
      · by_cases h1 : 0 * buf.length + hsz cfg.verify dl ≤ x.length
        · rw [memRead_slice h1, Option.bind_some]
          unfold memRead; rw [if_neg (by omega)]; rfl
        · unfold memRead; rw [if_neg h1]; rfl
      · rfl
  cases e1 : (if cfg.verify ≠ 18 then (memRead buf (0 * buf.length) 48).bind fun old =>
      memWrite buf (0 * buf.length) (fillHdr cfg io 0 buf.length old) else some buf) with
  | none => rfl
  | some b1 =>
    have l1 : b1.length = buf.length := by
      split at e1
      · cases e0 : memRead buf (0 * buf.length) 48 with
        | none => rw [e0] at e1; exact absurd e1 (by simp)
        | some old => rw [e0] at e1; exact hw _ _ _ _ e1
      · cases e1; rfl
    simp only [Option.bind_some]
    split
    · rfl
    · cases e2 : memRead b1 (0 * buf.length + hsz cfg.verify dl) (buf.length - hsz cfg.verify dl) with
      | none => rfl
      | some data =>
        simp only [Option.bind_some]
        cases e3 : (if hasDigest cfg.verify = true then memWrite b1 (0 * buf.length + 48) (digest H cfg.verify data) else some b1) with
        | none => rfl
        | some b2 =>
          have l2 : b2.length = buf.length := by
            split at e3
            · rw [hw _ _ _ _ e3, l1]
            · cases e3; exact l1
          simp only [Option.bind_some]
          rw [if_pos (by omega), hsw b2 l2]

/-- Option values that pass the checks of fio (verify_offset ≥ 48, options.c:3526, and
verify_offset + 48 ≤ verify_interval, init.c:944) and yet are undefined: crc32c with verify_offset=48
(overlapping memcpy), and with verify_offset=464 in a block of 512 bytes (swap past the end). -/
theorem C33_offset_cases (buf : List Byte) (hb : buf.length = 512) :
    (48 ≤ 48 ∧ 48 + 48 ≤ 512 ∧ populate H { exCfg with voffset := 48 } io buf = none) ∧
    (48 ≤ 464 ∧ 464 + 48 ≤ 512 ∧ populate H { exCfg with voffset := 464 } io buf = none) := by
  have h5 : Ty 5 4 := ⟨by decide, by decide, rfl⟩
  have hne : buf ≠ [] := fun h => by rw [h] at hb; simp at hb
  refine ⟨⟨by decide, by decide, ?_⟩, by decide, by decide, ?_⟩
  · exact C33_offset (dl := 4) h5 (by rw [hb]; decide +kernel) hne (by rw [hb]; simp [VOk, hsz, exCfg])
  · exact C33_offset (dl := 4) h5 (by rw [hb]; decide +kernel) hne (by rw [hb]; simp [VOk, hsz, exCfg])

/-! ### Non-trivial cases -/

/-- crc32c, two intervals of 128 bytes, header moved to byte 64 of each. -/
def exJob : Cfg := { exCfg with interval := 128#32, voffset := 64 }
def exBlock : List Byte := (List.range 256).map fun i => BitVec.ofNat 8 (i * 7 + 3)
def exH : Nat → List Byte → List Byte := fun t _ => List.replicate ((digLen t).getD 0) 0

theorem exH_len : HLen exH := by
  intro t dl l ht _
  simp [exH, ht.2.2]

theorem exJob_ok : Job exH exJob exIo 4 128 2 exBlock where
  hlen := exH_len
  ty := ⟨by decide, by decide, rfl⟩
  inc_eq := by decide +kernel
  len := by decide +kernel
  small := by decide +kernel
  fits := by decide
  off := Or.inr (Or.inr ⟨by decide, by decide⟩)
  pat := fun h => absurd h (by simp [usesPattern, exJob, exCfg])
  filled := fun h => absurd h (by simp [usesPattern, exJob, exCfg])

example : Detects exJob := Or.inl ⟨by decide, by decide⟩

/-- The hole in numbers: byte 60 of the first interval is damaged and verify_io_u returns 0; the same
damage in the second interval is found. -/
example : ((populate exH exJob exIo exBlock).bind fun b => verifyIoU exH exJob exIo (b.set 60 0)) = some true ∧
    ((populate exH exJob exIo exBlock).bind fun b => verifyIoU exH exJob exIo (b.set 188 0)) = some false ∧
    ((populate exH exJob exIo exBlock).bind fun b => verifyIoU exH { exJob with fatal := true } exIo (b.set 60 0)) = some false := by
  decide +kernel

/-- A job checking a pattern without headers. -/
def exPatJob : Cfg := { exCfg with verify := 18, interval := 16#32, pattern := [1#8, 2#8, 3#8] }

example : ∃ a, Pattern.fillVerifyPattern exPatJob.pattern exPatJob.fmts exPatJob.pinterval (List.replicate 32 0#8) exIo.offset = some a ∧
    Job exH exPatJob exIo 0 16 2 a :=
  C33_pattern exH_len ⟨by decide, by decide, rfl⟩ (by decide +kernel) (by decide +kernel) (by decide +kernel) (by decide)
    (Or.inl rfl) (by decide) List.Pairwise.nil

end Fio.Verify
