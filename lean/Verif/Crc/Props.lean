import Verif.Crc.Poly
/-
C20: the table-driven CRC routines are polynomial division, and detect bursts.
-/
namespace Fio.Crc
open Polynomial

/-! ## Bit strings of buffers -/

theorem byteBitsR_inj : ∀ d e : Byte, byteBitsR d = byteBitsR e → d = e := by
  intro d e h
  apply BitVec.eq_of_getLsbD_eq
  intro i hi
  have := congrArg (fun l => l.getD i false) h
  simpa [byteBitsR, List.getElem?_range, hi] using this

theorem byteBitsL_inj : ∀ d e : Byte, byteBitsL d = byteBitsL e → d = e := by
  intro d e h
  apply BitVec.eq_of_getMsbD_eq
  intro i hi
  have := congrArg (fun l => l.getD i false) h
  simpa [byteBitsL, List.getElem?_range, hi] using this

theorem flatMap_len (f : Byte → List Bool) (hf : ∀ d, (f d).length = 8) (l : List Byte) :
    (l.flatMap f).length = 8 * l.length := by
  induction l with
  | nil => rfl
  | cons d l ih => rw [List.flatMap_cons, List.length_append, ih, hf, List.length_cons]; omega

theorem flatMap_inj (f : Byte → List Bool) (hf : ∀ d, (f d).length = 8) (hi : ∀ d e, f d = f e → d = e) :
    ∀ l l' : List Byte, l.flatMap f = l'.flatMap f → l = l'
  | [], [], _ => rfl
  | [], d :: l', h => by
    have := congrArg List.length h
    rw [flatMap_len f hf, flatMap_len f hf] at this; simp at this
  | d :: l, [], h => by
    have := congrArg List.length h
    rw [flatMap_len f hf, flatMap_len f hf] at this; simp at this
  | d :: l, e :: l', h => by
    rw [List.flatMap_cons, List.flatMap_cons] at h
    obtain ⟨h1, h2⟩ := List.append_inj h (by rw [hf, hf])
    rw [hi d e h1, flatMap_inj f hf hi l l' h2]

theorem lenR (d : Byte) : (byteBitsR d).length = 8 := by simp [byteBitsR]
theorem lenL (d : Byte) : (byteBitsL d).length = 8 := by simp [byteBitsL]

/-- The buffers have the same length and differ, all differences lying within `n` consecutive bytes. -/
def ByteBurst (n : Nat) (x y : List Byte) : Prop :=
  ∃ a u v z, x = a ++ u ++ z ∧ y = a ++ v ++ z ∧ u.length = v.length ∧ u.length ≤ n ∧ u ≠ v

theorem burst_of_bytes (f : Byte → List Bool) (hf : ∀ d, (f d).length = 8) (hi : ∀ d e, f d = f e → d = e)
    (n w : Nat) (hw : 8 * n ≤ w) (x y : List Byte) (h : ByteBurst n x y) : Burst w (x.flatMap f) (y.flatMap f) := by
  obtain ⟨a, u, v, z, rfl, rfl, hl, hn, hne⟩ := h
  refine ⟨a.flatMap f, u.flatMap f, v.flatMap f, z.flatMap f, by simp, by simp, ?_, ?_, ?_⟩
  · rw [flatMap_len f hf, flatMap_len f hf, hl]
  · rw [flatMap_len f hf]; omega
  · exact fun h => hne (flatMap_inj f hf hi u v h)

theorem flipR : ∀ (d : Fin 256) (j : Fin 8),
    byteBitsR (BitVec.ofFin d) = (byteBitsR (BitVec.ofFin d)).take j ++ [(BitVec.ofFin (w := 8) d).getLsbD j] ++ (byteBitsR (BitVec.ofFin d)).drop (j + 1) ∧
    byteBitsR (BitVec.ofFin d ^^^ BitVec.twoPow 8 j) = (byteBitsR (BitVec.ofFin d)).take j ++ [!(BitVec.ofFin (w := 8) d).getLsbD j] ++ (byteBitsR (BitVec.ofFin d)).drop (j + 1) := by
  decide +kernel

theorem flipL : ∀ (d : Fin 256) (j : Fin 8),
    byteBitsL (BitVec.ofFin d) = (byteBitsL (BitVec.ofFin d)).take (7 - j) ++ [(BitVec.ofFin (w := 8) d).getLsbD j] ++ (byteBitsL (BitVec.ofFin d)).drop (8 - j) ∧
    byteBitsL (BitVec.ofFin d ^^^ BitVec.twoPow 8 j) = (byteBitsL (BitVec.ofFin d)).take (7 - j) ++ [!(BitVec.ofFin (w := 8) d).getLsbD j] ++ (byteBitsL (BitVec.ofFin d)).drop (8 - j) := by
  decide +kernel

theorem burst_flipR (w : Nat) (hw : 1 ≤ w) (a z : List Byte) (d : Byte) (j : Nat) (hj : j < 8) :
    Burst w (bitsR (a ++ d :: z)) (bitsR (a ++ (d ^^^ BitVec.twoPow 8 j) :: z)) := by
  obtain ⟨h1, h2⟩ := flipR d.toFin ⟨j, hj⟩
  refine ⟨bitsR a ++ (byteBitsR d).take j, [d.getLsbD j], [!d.getLsbD j], (byteBitsR d).drop (j + 1) ++ bitsR z, ?_, ?_, rfl, hw, by simp⟩
  · have e : bitsR (a ++ d :: z) = bitsR a ++ byteBitsR d ++ bitsR z := by simp [bitsR]
    rw [e]
    refine (congrArg (fun l => bitsR a ++ l ++ bitsR z) h1).trans ?_
    simp only [List.append_assoc]
  · have e : bitsR (a ++ (d ^^^ BitVec.twoPow 8 j) :: z) = bitsR a ++ byteBitsR (d ^^^ BitVec.twoPow 8 j) ++ bitsR z := by simp [bitsR]
    rw [e]
    refine (congrArg (fun l => bitsR a ++ l ++ bitsR z) h2).trans ?_
    simp only [List.append_assoc]

theorem burst_flipL (w : Nat) (hw : 1 ≤ w) (a z : List Byte) (d : Byte) (j : Nat) (hj : j < 8) :
    Burst w (bitsL (a ++ d :: z)) (bitsL (a ++ (d ^^^ BitVec.twoPow 8 j) :: z)) := by
  obtain ⟨h1, h2⟩ := flipL d.toFin ⟨j, hj⟩
  refine ⟨bitsL a ++ (byteBitsL d).take (7 - j), [d.getLsbD j], [!d.getLsbD j], (byteBitsL d).drop (8 - j) ++ bitsL z, ?_, ?_, rfl, hw, by simp⟩
  · have e : bitsL (a ++ d :: z) = bitsL a ++ byteBitsL d ++ bitsL z := by simp [bitsL]
    rw [e]
    refine (congrArg (fun l => bitsL a ++ l ++ bitsL z) h1).trans ?_
    simp only [List.append_assoc]
  · have e : bitsL (a ++ (d ^^^ BitVec.twoPow 8 j) :: z) = bitsL a ++ byteBitsL (d ^^^ BitVec.twoPow 8 j) ++ bitsL z := by simp [bitsL]
    rw [e]
    refine (congrArg (fun l => bitsL a ++ l ++ bitsL z) h2).trans ?_
    simp only [List.append_assoc]

/-! ## The divisors written out -/

/-- Sum of the given powers of X. -/
noncomputable def sparse (l : List Nat) : F2X := (l.map fun e => (X : F2X) ^ e).sum

/-- crc32c: the Castagnoli polynomial 0x1EDC6F41. -/
def expCrc32c : List Nat := [32, 28, 27, 26, 25, 23, 22, 20, 19, 18, 14, 13, 11, 10, 9, 8, 6, 0]
/-- crc32: the IEEE 802.3 polynomial 0x04C11DB7. -/
def expCrc32 : List Nat := [32, 26, 23, 22, 16, 12, 11, 10, 8, 7, 5, 4, 2, 1, 0]
/-- crc16: 0x8005, crc/crc16.h:6 "x^16 + x^15 + x^2 + 1". -/
def expCrc16 : List Nat := [16, 15, 2, 0]
/-- crc7: crc/crc7.c:10 "polynomial x^7 + x^3 + 1". -/
def expCrc7 : List Nat := [7, 3, 0]
/-- crc64: the Jones polynomial 0xad93d23594c935a9. -/
def expCrc64 : List Nat := [64, 63, 61, 59, 58, 56, 55, 52, 49, 48, 47, 46, 44, 41, 37, 36, 34, 32, 31, 28, 26, 23, 22, 19, 16, 13, 12, 10, 8, 7, 5, 3, 0]
/-- crc64 for NVMe, 0xad93d23594c93659 (table in crc/crc64table.h). -/
def expNvme : List Nat := [64, 63, 61, 59, 58, 56, 55, 52, 49, 48, 47, 46, 44, 41, 37, 36, 34, 32, 31, 28, 26, 23, 22, 19, 16, 13, 12, 10, 9, 6, 4, 3, 0]
/-- T10 DIF: 0x8bb7, crc/crct10dif_common.c:40-43. -/
def expT10 : List Nat := [16, 15, 11, 9, 8, 7, 5, 4, 2, 1, 0]

theorem coeff_sparse (l : List Nat) (i : Nat) : (sparse l).coeff i = ((l.count i : Nat) : ZMod 2) := by
  induction l with
  | nil => simp [sparse]
  | cons e l ih =>
    have : sparse (e :: l) = X ^ e + sparse l := by simp [sparse]
    rw [this, coeff_add, ih, coeff_X_pow, List.count_cons]
    by_cases h : i = e
    · subst h; simp [add_comm]
    · have h' : ¬ e = i := fun x => h x.symm
      simp [h, h']

theorem gen_sparse {w : Nat} (p : BitVec w) (l : List Nat) (h : ∀ i < w, l.count i = if p.getLsbD i then 1 else 0)
    (hw : l.count w = 1) (hb : ∀ e ∈ l, e ≤ w) : genPoly p = sparse l := by
  ext i
  unfold genPoly
  rw [coeff_sparse, coeff_add, coeff_toPoly, coeff_X_pow]
  rcases Nat.lt_trichotomy i w with hi | hi | hi
  · rw [h i hi]
    have : ¬ i = w := by omega
    simp only [this, if_false, zero_add]
    cases p.getLsbD i <;> simp
  · subst hi
    rw [hw, BitVec.getLsbD_of_ge p i (le_refl _)]; simp
  · have : l.count i = 0 := List.count_eq_zero.2 fun hm => by have := hb i hm; omega
    rw [this, BitVec.getLsbD_of_ge p i (le_of_lt hi)]
    have : ¬ i = w := by omega
    simp [this]

theorem gen_crc32c : genPoly pCrc32c.reverse = sparse expCrc32c := gen_sparse _ _ (by decide +kernel) (by decide) (by decide)
theorem gen_crc32 : genPoly pCrc32 = sparse expCrc32 := gen_sparse _ _ (by decide +kernel) (by decide) (by decide)
theorem gen_crc16 : genPoly pCrc16.reverse = sparse expCrc16 := gen_sparse _ _ (by decide +kernel) (by decide) (by decide)
theorem gen_crc7 : genPoly pCrc7 = sparse expCrc7 := gen_sparse _ _ (by decide +kernel) (by decide) (by decide)
theorem gen_crc64 : genPoly pCrc64.reverse = sparse expCrc64 := gen_sparse _ _ (by decide +kernel) (by decide) (by decide)
theorem gen_nvme : genPoly pNvme.reverse = sparse expNvme := gen_sparse _ _ (by decide +kernel) (by decide) (by decide)
theorem gen_t10 : genPoly pT10 = sparse expT10 := gen_sparse _ _ (by decide +kernel) (by decide) (by decide)

/-- `1 + X + … + X^(n-1)`: a register of ones. -/
noncomputable def ones (n : Nat) : F2X := ∑ i ∈ Finset.range n, X ^ i

theorem toPoly_ones {w : Nat} : toPoly (BitVec.allOnes w) = ones w := by
  unfold toPoly ones
  apply Finset.sum_congr rfl
  intro i hi
  simp [Finset.mem_range.1 hi]

theorem rev_ones {w : Nat} : (BitVec.allOnes w).reverse = BitVec.allOnes w := by
  apply BitVec.eq_of_getLsbD_eq
  intro i hi
  rw [BitVec.getLsbD_reverse]; simp [hi]

theorem rev_zero {w : Nat} : (0#w).reverse = 0#w := by
  apply BitVec.eq_of_getLsbD_eq
  intro i hi
  rw [BitVec.getLsbD_reverse]; simp

theorem bitsR_len (l : List Byte) : (bitsR l).length = 8 * l.length := flatMap_len _ lenR l
theorem bitsL_len (l : List Byte) : (bitsL l).length = 8 * l.length := flatMap_len _ lenL l

/-! ## C20 -/

/-- **C20**, computed correctly by table: each routine is the remainder of the message polynomial,
multiplied by `X^w`, modulo its generator (a given start value `c` contributes `c·X^n`).  Reflected
routines take the message bits and the register least significant bit first. -/
theorem C20_division (data : List Byte) :
    toPoly (crc32c data).reverse =
      (ones 32 * X ^ (8 * data.length) + msgPoly (bitsR data) * X ^ 32) %ₘ sparse expCrc32c ∧
    toPoly (crc32 data) = (msgPoly (bitsL data) * X ^ 32) %ₘ sparse expCrc32 ∧
    toPoly (crc16 data).reverse = (msgPoly (bitsR data) * X ^ 16) %ₘ sparse expCrc16 ∧
    toPoly (crc7 data) = (msgPoly (bitsL data) * X ^ 7) %ₘ sparse expCrc7 ∧
    toPoly (crc64 data).reverse = (msgPoly (bitsR data) * X ^ 64) %ₘ sparse expCrc64 ∧
    (∀ c, toPoly (~~~ crc64nvme c data).reverse =
      (toPoly (~~~ c).reverse * X ^ (8 * data.length) + msgPoly (bitsR data) * X ^ 64) %ₘ sparse expNvme) ∧
    (∀ c, toPoly (crcT10dif c data) =
      (toPoly c * X ^ (8 * data.length) + msgPoly (bitsL data) * X ^ 16) %ₘ sparse expT10) := by
  refine ⟨?_, ?_, ?_, ?_, ?_, fun c => ?_, fun c => ?_⟩
  · rw [crc32c_serial, serialR_mod (by decide), gen_crc32c, bitsR_len,
      show (~~~ 0#32) = BitVec.allOnes 32 by decide, rev_ones, toPoly_ones]
  · rw [crc32_serial, serialL_mod (by decide), gen_crc32, toPoly_zero, zero_mul, zero_add]
  · rw [crc16_serial, serialR_mod (by decide), gen_crc16, rev_zero, toPoly_zero, zero_mul, zero_add]
  · have e : toPoly (crc7 data) = toPoly (serialL pCrc7 0#7 (bitsL data)) := by
      rw [crc7_serial]
      ext i
      rw [coeff_toPoly, coeff_toPoly, BitVec.getLsbD_setWidth]
      by_cases h : i < 8
      · simp [h]
      · simp [h, BitVec.getLsbD_of_ge (serialL pCrc7 0#7 (bitsL data)) i (by omega)]
    rw [e, serialL_mod (by decide), gen_crc7, toPoly_zero, zero_mul, zero_add]
  · rw [crc64_serial, serialR_mod (by decide), gen_crc64, rev_zero, toPoly_zero, zero_mul, zero_add]
  · rw [crc64nvme_serial, BitVec.not_not, serialR_mod (by decide), gen_nvme, bitsR_len]
  · rw [crcT10dif_serial, serialL_mod (by decide), gen_t10, bitsL_len]

/-- **C20**, bursts: two buffers whose bit strings differ, all differences lying within as many
consecutive bits as the CRC is wide, have different checksums. -/
theorem C20_burst (x y : List Byte) :
    (Burst 32 (bitsR x) (bitsR y) → crc32c x ≠ crc32c y) ∧
    (Burst 32 (bitsL x) (bitsL y) → crc32 x ≠ crc32 y) ∧
    (Burst 16 (bitsR x) (bitsR y) → crc16 x ≠ crc16 y) ∧
    (Burst 7 (bitsL x) (bitsL y) → crc7 x ≠ crc7 y) ∧
    (Burst 64 (bitsR x) (bitsR y) → crc64 x ≠ crc64 y) ∧
    (Burst 64 (bitsR x) (bitsR y) → ∀ c, crc64nvme c x ≠ crc64nvme c y) ∧
    (Burst 16 (bitsL x) (bitsL y) → ∀ c, crcT10dif c x ≠ crcT10dif c y) := by
  refine ⟨fun h => ?_, fun h => ?_, fun h => ?_, fun h => ?_, fun h => ?_, fun h c => ?_, fun h c => ?_⟩
  · rw [crc32c_serial, crc32c_serial]; exact detectR (by decide) _ _ (by decide) _ _ h
  · rw [crc32_serial, crc32_serial]; exact detectL (by decide) _ _ (by decide) _ _ h
  · rw [crc16_serial, crc16_serial]; exact detectR (by decide) _ _ (by decide) _ _ h
  · rw [crc7_serial, crc7_serial]
    intro e
    refine detectL (by decide) pCrc7 0#7 (by decide) _ _ h ?_
    apply BitVec.eq_of_getLsbD_eq
    intro i hi
    have := congrArg (fun b => BitVec.getLsbD b i) e
    simpa [BitVec.getLsbD_setWidth, show i < 8 by omega] using this
  · rw [crc64_serial, crc64_serial]; exact detectR (by decide) _ _ (by decide) _ _ h
  · rw [crc64nvme_serial, crc64nvme_serial]
    intro e
    exact detectR (by decide) pNvme _ (by decide) _ _ h (by simpa using congrArg (~~~ ·) e)
  · rw [crcT10dif_serial, crcT10dif_serial]; exact detectL (by decide) _ _ (by decide) _ _ h

/-- **C20**, single bit errors: flipping bit `j` of any byte changes every checksum. -/
theorem C20_single_bit (a z : List Byte) (d : Byte) (j : Nat) (hj : j < 8) :
    crc32c (a ++ d :: z) ≠ crc32c (a ++ (d ^^^ BitVec.twoPow 8 j) :: z) ∧
    crc32 (a ++ d :: z) ≠ crc32 (a ++ (d ^^^ BitVec.twoPow 8 j) :: z) ∧
    crc16 (a ++ d :: z) ≠ crc16 (a ++ (d ^^^ BitVec.twoPow 8 j) :: z) ∧
    crc7 (a ++ d :: z) ≠ crc7 (a ++ (d ^^^ BitVec.twoPow 8 j) :: z) ∧
    crc64 (a ++ d :: z) ≠ crc64 (a ++ (d ^^^ BitVec.twoPow 8 j) :: z) ∧
    (∀ c, crc64nvme c (a ++ d :: z) ≠ crc64nvme c (a ++ (d ^^^ BitVec.twoPow 8 j) :: z)) ∧
    (∀ c, crcT10dif c (a ++ d :: z) ≠ crcT10dif c (a ++ (d ^^^ BitVec.twoPow 8 j) :: z)) := by
  have h := C20_burst (a ++ d :: z) (a ++ (d ^^^ BitVec.twoPow 8 j) :: z)
  exact ⟨h.1 (burst_flipR 32 (by decide) a z d j hj), h.2.1 (burst_flipL 32 (by decide) a z d j hj),
    h.2.2.1 (burst_flipR 16 (by decide) a z d j hj), h.2.2.2.1 (burst_flipL 7 (by decide) a z d j hj),
    h.2.2.2.2.1 (burst_flipR 64 (by decide) a z d j hj), h.2.2.2.2.2.1 (burst_flipR 64 (by decide) a z d j hj),
    h.2.2.2.2.2.2 (burst_flipL 16 (by decide) a z d j hj)⟩

/-- **C20**, byte errors: any change within `w/8` consecutive bytes changes the checksum. -/
theorem C20_bytes (x y : List Byte) :
    (ByteBurst 4 x y → crc32c x ≠ crc32c y ∧ crc32 x ≠ crc32 y) ∧
    (ByteBurst 2 x y → crc16 x ≠ crc16 y ∧ ∀ c, crcT10dif c x ≠ crcT10dif c y) ∧
    (ByteBurst 8 x y → crc64 x ≠ crc64 y ∧ ∀ c, crc64nvme c x ≠ crc64nvme c y) := by
  have h := C20_burst x y
  have r := fun n w hw => burst_of_bytes byteBitsR lenR byteBitsR_inj n w hw x y
  have l := fun n w hw => burst_of_bytes byteBitsL lenL byteBitsL_inj n w hw x y
  exact ⟨fun hb => ⟨h.1 (r 4 32 (by decide) hb), h.2.1 (l 4 32 (by decide) hb)⟩,
    fun hb => ⟨h.2.2.1 (r 2 16 (by decide) hb), h.2.2.2.2.2.2 (l 2 16 (by decide) hb)⟩,
    fun hb => ⟨h.2.2.2.2.1 (r 8 64 (by decide) hb), h.2.2.2.2.2.1 (r 8 64 (by decide) hb)⟩⟩

theorem eval_sparse (l : List Nat) : (sparse l).eval 1 = ((l.length : Nat) : ZMod 2) := by
  induction l with
  | nil => simp [sparse]
  | cons e l ih =>
    have : sparse (e :: l) = X ^ e + sparse l := by simp [sparse]
    rw [this, eval_add, ih]; simp [add_comm]

/-- Beyond the claim: crc32c and crc16 also detect every odd number of flipped bits, wherever they are. -/
theorem C20_odd (x y : List Byte) (hl : x.length = y.length) (ho : hamming (bitsR x) (bitsR y) % 2 = 1) :
    crc32c x ≠ crc32c y ∧ crc16 x ≠ crc16 y := by
  constructor
  · rw [crc32c_serial, crc32c_serial]
    intro e
    have e := congrArg BitVec.reverse e
    rw [serialR_reverse (by decide), serialR_reverse (by decide)] at e
    exact oddL (by decide) _ _ (by rw [gen_crc32c, eval_sparse]; decide) _ _ (by rw [bitsR_len, bitsR_len, hl]) ho e
  · rw [crc16_serial, crc16_serial]
    intro e
    have e := congrArg BitVec.reverse e
    rw [serialR_reverse (by decide), serialR_reverse (by decide)] at e
    exact oddL (by decide) _ _ (by rw [gen_crc16, eval_sparse]; decide) _ _ (by rw [bitsR_len, bitsR_len, hl]) ho e

/-- crc7 stays in seven bits, so its table index stays below 256. -/
theorem C20_crc7_range (data : List Byte) : (crc7 data).toNat < 128 := by
  rw [crc7_serial, BitVec.toNat_setWidth]
  have := (serialL pCrc7 0#7 (bitsL data)).isLt
  omega

/-! Non-trivial cases: the published check values of these codes for the string "123456789" (crc32c
without the final inversion, crc32 without initial and final inversion). -/

def check : List Byte := [0x31#8, 0x32#8, 0x33#8, 0x34#8, 0x35#8, 0x36#8, 0x37#8, 0x38#8, 0x39#8]

example : crc32c check = ~~~ 0xE3069283#32 ∧ crc16 check = 0xBB3D#16 ∧ crc7 check = 0x75#8 ∧
    crc64 check = 0xE9C6D914C4B8D9CA#64 ∧ crc64nvme 0#64 check = 0xAE8B14860A799888#64 ∧
    crcT10dif 0#16 check = 0xD0DB#16 ∧ crc32 check = 0x89A1897F#32 := by decide +kernel

example : ByteBurst 2 check (check.set 3 7#8) :=
  ⟨check.take 3, [0x34#8], [7#8], check.drop 4, by decide, by decide, rfl, by decide, by decide⟩
example : hamming (bitsR check) (bitsR (check.set 3 0x33#8)) % 2 = 1 := by decide

end Fio.Crc
