import Verif.Crc.Model
/-
Bit-serial CRC registers, and the proof that the table-driven routines compute them.
-/
namespace Fio.Crc

/-- One shift of a reflected register. -/
def stepR {w : Nat} (p c : BitVec w) : BitVec w := (c >>> 1) ^^^ (if c.getLsbD 0 then p else 0#w)
/-- One shift of a register with the most significant bit first. -/
def stepL {w : Nat} (p c : BitVec w) : BitVec w := (c <<< 1) ^^^ (if c.msb then p else 0#w)

/-- Feed one message bit. -/
def bitR {w : Nat} (p c : BitVec w) (b : Bool) : BitVec w := stepR p (c ^^^ (if b then 1#w else 0#w))
def bitL {w : Nat} (p c : BitVec w) (b : Bool) : BitVec w :=
  stepL p (c ^^^ (if b then BitVec.twoPow w (w - 1) else 0#w))

/-- The bits of a byte, least significant first / most significant first. -/
def byteBitsR (d : Byte) : List Bool := (List.range 8).map fun i => d.getLsbD i
def byteBitsL (d : Byte) : List Bool := (List.range 8).map fun i => d.getMsbD i
def bitsR (data : List Byte) : List Bool := data.flatMap byteBitsR
def bitsL (data : List Byte) : List Bool := data.flatMap byteBitsL

def serialR {w : Nat} (p c : BitVec w) (bits : List Bool) : BitVec w := bits.foldl (bitR p) c
def serialL {w : Nat} (p c : BitVec w) (bits : List Bool) : BitVec w := bits.foldl (bitL p) c

/-! ## Linearity -/

theorem xor4 {w : Nat} (a b c d : BitVec w) : (a ^^^ b) ^^^ (c ^^^ d) = (a ^^^ c) ^^^ (b ^^^ d) := by
  rw [BitVec.xor_assoc, BitVec.xor_assoc, ← BitVec.xor_assoc b, BitVec.xor_comm b c, BitVec.xor_assoc c]

theorem ite_xor {w : Nat} (p : BitVec w) (a b : Bool) :
    (if (a ^^ b) then p else 0#w) = (if a then p else 0#w) ^^^ (if b then p else 0#w) := by
  cases a <;> cases b <;> simp

theorem stepR_xor {w : Nat} (p c c' : BitVec w) : stepR p (c ^^^ c') = stepR p c ^^^ stepR p c' := by
  unfold stepR
  rw [xor4, BitVec.getLsbD_xor, ite_xor, BitVec.ushiftRight_xor_distrib]

theorem stepL_xor {w : Nat} (p c c' : BitVec w) : stepL p (c ^^^ c') = stepL p c ^^^ stepL p c' := by
  unfold stepL
  rw [xor4, BitVec.msb_xor, ite_xor, BitVec.shiftLeft_xor_distrib]

theorem bitR_xor {w : Nat} (p c c' : BitVec w) (b b' : Bool) :
    bitR p (c ^^^ c') (b ^^ b') = bitR p c b ^^^ bitR p c' b' := by
  unfold bitR; rw [ite_xor, xor4, stepR_xor]

theorem bitL_xor {w : Nat} (p c c' : BitVec w) (b b' : Bool) :
    bitL p (c ^^^ c') (b ^^ b') = bitL p c b ^^^ bitL p c' b' := by
  unfold bitL; rw [ite_xor, xor4, stepL_xor]

theorem serialR_xor {w : Nat} (p : BitVec w) : ∀ (l l' : List Bool) (c c' : BitVec w), l.length = l'.length →
    serialR p (c ^^^ c') (List.zipWith (· ^^ ·) l l') = serialR p c l ^^^ serialR p c' l'
  | [], [], _, _, _ => rfl
  | b :: l, b' :: l', c, c', h => by
    have := serialR_xor p l l' (bitR p c b) (bitR p c' b') (by simpa using h)
    rw [← bitR_xor] at this
    exact this
  | [], _ :: _, _, _, h => by simp at h
  | _ :: _, [], _, _, h => by simp at h

theorem serialL_xor {w : Nat} (p : BitVec w) : ∀ (l l' : List Bool) (c c' : BitVec w), l.length = l'.length →
    serialL p (c ^^^ c') (List.zipWith (· ^^ ·) l l') = serialL p c l ^^^ serialL p c' l'
  | [], [], _, _, _ => rfl
  | b :: l, b' :: l', c, c', h => by
    have := serialL_xor p l l' (bitL p c b) (bitL p c' b') (by simpa using h)
    rw [← bitL_xor] at this
    exact this
  | [], _ :: _, _, _, h => by simp at h
  | _ :: _, [], _, _, h => by simp at h

theorem byteBitsR_xor (d d' : Byte) :
    byteBitsR (d ^^^ d') = List.zipWith (· ^^ ·) (byteBitsR d) (byteBitsR d') := by
  unfold byteBitsR
  rw [List.zipWith_map, List.zipWith_self]
  apply List.map_congr_left; intro i _; exact BitVec.getLsbD_xor

theorem byteBitsL_xor (d d' : Byte) :
    byteBitsL (d ^^^ d') = List.zipWith (· ^^ ·) (byteBitsL d) (byteBitsL d') := by
  unfold byteBitsL
  rw [List.zipWith_map, List.zipWith_self]
  apply List.map_congr_left; intro i _; exact BitVec.getMsbD_xor

theorem byteR_xor {w : Nat} (p c c' : BitVec w) (d d' : Byte) :
    serialR p (c ^^^ c') (byteBitsR (d ^^^ d')) = serialR p c (byteBitsR d) ^^^ serialR p c' (byteBitsR d') := by
  rw [byteBitsR_xor]; exact serialR_xor p _ _ _ _ (by simp [byteBitsR])

theorem byteL_xor {w : Nat} (p c c' : BitVec w) (d d' : Byte) :
    serialL p (c ^^^ c') (byteBitsL (d ^^^ d')) = serialL p c (byteBitsL d) ^^^ serialL p c' (byteBitsL d') := by
  rw [byteBitsL_xor]; exact serialL_xor p _ _ _ _ (by simp [byteBitsL])

/-! ## Registers whose next 8 outputs are zero just shift -/

theorem shiftR_zero {w : Nat} (p : BitVec w) : ∀ (n : Nat) (h : BitVec w), (∀ i < n, h.getLsbD i = false) →
    serialR p h (List.replicate n false) = h >>> n
  | 0, h, _ => by simp [serialR]
  | n + 1, h, hz => by
    have e : bitR p h false = h >>> 1 := by
      unfold bitR stepR
      simp [hz 0 (by omega)]
    rw [List.replicate_succ]
    show serialR p (bitR p h false) (List.replicate n false) = _
    rw [e, shiftR_zero p n (h >>> 1) (by
      intro i hi
      rw [BitVec.getLsbD_ushiftRight]; exact hz (1 + i) (by omega))]
    rw [Nat.add_comm, BitVec.shiftRight_add]

theorem shiftL_zero {w : Nat} (p : BitVec w) : ∀ (n : Nat) (h : BitVec w), (∀ i < n, h.getMsbD i = false) →
    serialL p h (List.replicate n false) = h <<< n
  | 0, h, _ => by simp [serialL]
  | n + 1, h, hz => by
    have e : bitL p h false = h <<< 1 := by
      unfold bitL stepL
      simp [BitVec.msb, hz 0 (by omega)]
    rw [List.replicate_succ]
    show serialL p (bitL p h false) (List.replicate n false) = _
    rw [e, shiftL_zero p n (h <<< 1) (by
      intro i hi
      rw [BitVec.getMsbD_shiftLeft]; exact hz (i + 1) (by omega))]
    rw [Nat.add_comm, BitVec.shiftLeft_add]

theorem byteBitsR_zero : byteBitsR 0#8 = List.replicate 8 false := by decide
theorem byteBitsL_zero : byteBitsL 0#8 = List.replicate 8 false := by decide

/-! ## The tables -/

/-- Entry `i` of a table for a reflected CRC: the byte `i` fed into a zero register, or equally the
value `i` shifted eight times. -/
def TableR (w : Nat) (p : BitVec w) (t : List Nat) : Prop :=
  ∀ i < 256, lookup w t i = serialR p 0#w (byteBitsR (BitVec.ofNat 8 i)) ∧
    lookup w t i = serialR p (BitVec.ofNat w i) (byteBitsR 0#8)

def TableL (w : Nat) (p : BitVec w) (t : List Nat) : Prop :=
  ∀ i < 256, lookup w t i = serialL p 0#w (byteBitsL (BitVec.ofNat 8 i)) ∧
    lookup w t i = serialL p (BitVec.ofNat w i <<< (w - 8)) (byteBitsL 0#8)

instance (w : Nat) (p : BitVec w) (t : List Nat) : Decidable (TableR w p t) := by
  unfold TableR; exact Nat.decidableBallLT _ _
instance (w : Nat) (p : BitVec w) (t : List Nat) : Decidable (TableL w p t) := by
  unfold TableL; exact Nat.decidableBallLT _ _

/-- A byte step of a reflected register with a correct table. -/
theorem byteStepR {w : Nat} (hw : 8 ≤ w) (p : BitVec w) (t : List Nat) (ht : TableR w p t) (c : BitVec w) (d : Byte) :
    lookup w t ((c ^^^ d.zeroExtend w).toNat % 256) ^^^ (c >>> 8) = serialR p c (byteBitsR d) := by
  -- c = low byte + rest
  have hlo : (BitVec.ofNat w (c.toNat % 256)).toNat = c.toNat % 256 := by
    rw [BitVec.toNat_ofNat]
    apply Nat.mod_eq_of_lt
    have : 2 ^ 8 ≤ 2 ^ w := Nat.pow_le_pow_right (by decide) hw
    omega
  have hlb : ∀ i, (BitVec.ofNat w (c.toNat % 256)).getLsbD i = (decide (i < 8) && c.getLsbD i) := by
    intro i
    rw [BitVec.getLsbD, hlo, show 256 = 2 ^ 8 from rfl, Nat.testBit_mod_two_pow]; rfl
  obtain ⟨h, hh⟩ : ∃ h, h = c ^^^ BitVec.ofNat w (c.toNat % 256) := ⟨_, rfl⟩
  have hc : c = h ^^^ BitVec.ofNat w (c.toNat % 256) := by
    rw [hh, BitVec.xor_assoc, BitVec.xor_self, BitVec.xor_zero]
  have hz : ∀ i < 8, h.getLsbD i = false := by
    intro i hi
    rw [hh, BitVec.getLsbD_xor, hlb]; simp [hi]
  have hshift : h >>> 8 = c >>> 8 := by
    apply BitVec.eq_of_getLsbD_eq
    intro i _
    rw [BitVec.getLsbD_ushiftRight, BitVec.getLsbD_ushiftRight, hh, BitVec.getLsbD_xor, hlb]
    simp only [show ¬ 8 + i < 8 by omega, decide_false, Bool.false_and, Bool.xor_false]
  have hcd : serialR p c (byteBitsR d) =
      serialR p h (byteBitsR 0#8) ^^^ (serialR p (BitVec.ofNat w (c.toNat % 256)) (byteBitsR 0#8) ^^^
        serialR p 0#w (byteBitsR d)) := by
    rw [← byteR_xor, ← byteR_xor]
    simp only [BitVec.zero_xor, BitVec.xor_zero]
    rw [← hc]
  rw [hcd, byteBitsR_zero, shiftR_zero p 8 h hz, ← byteBitsR_zero, hshift, BitVec.xor_comm]
  congr 1
  have h1 : c.toNat % 256 < 256 := Nat.mod_lt _ (by decide)
  rw [← (ht _ h1).2, (ht _ h1).1]
  have := byteR_xor p 0#w 0#w (BitVec.ofNat 8 (c.toNat % 256)) d
  rw [BitVec.xor_self] at this
  rw [← this, (ht _ (Nat.mod_lt _ (by decide))).1]
  congr 2
  apply BitVec.eq_of_getLsbD_eq
  intro i hi
  rw [BitVec.getLsbD_xor]
  simp only [BitVec.getLsbD, BitVec.toNat_ofNat]
  have hd : d.toNat < 2 ^ 8 := d.isLt
  have e1 : (c ^^^ BitVec.zeroExtend w d).toNat = c.toNat ^^^ d.toNat := by
    rw [BitVec.toNat_xor, BitVec.toNat_setWidth]
    congr 1
    apply Nat.mod_eq_of_lt
    exact Nat.lt_of_lt_of_le hd (Nat.pow_le_pow_right (by decide) hw)
  rw [e1, show 256 = 2 ^ 8 from rfl]
  simp only [Nat.mod_mod, Nat.testBit_mod_two_pow, Nat.testBit_xor, hi, decide_true, Bool.true_and]

/-- A byte step of a register with the most significant bit first. -/
theorem byteStepL {w : Nat} (hw : 8 ≤ w) (p : BitVec w) (t : List Nat) (ht : TableL w p t) (c : BitVec w) (d : Byte) :
    (c <<< 8) ^^^ lookup w t (((c >>> (w - 8)) ^^^ d.zeroExtend w).toNat) = serialL p c (byteBitsL d) := by
  have hpw : 2 ^ w = 2 ^ (w - 8) * 2 ^ 8 := by rw [← Nat.pow_add]; congr 1; omega
  have htop : c.toNat / 2 ^ (w - 8) < 256 := by
    rw [Nat.div_lt_iff_lt_mul (Nat.two_pow_pos _), Nat.mul_comm]
    have := c.isLt; rw [hpw] at this; exact this
  have hts : (c >>> (w - 8)).toNat = c.toNat / 2 ^ (w - 8) := by
    rw [BitVec.toNat_ushiftRight, Nat.shiftRight_eq_div_pow]
  have hof : BitVec.ofNat w (c.toNat / 2 ^ (w - 8)) = c >>> (w - 8) := by
    rw [← hts, BitVec.ofNat_toNat]; simp
  obtain ⟨h, hh⟩ : ∃ h, h = c ^^^ (BitVec.ofNat w (c.toNat / 2 ^ (w - 8)) <<< (w - 8)) := ⟨_, rfl⟩
  have hc : c = h ^^^ (BitVec.ofNat w (c.toNat / 2 ^ (w - 8)) <<< (w - 8)) := by
    rw [hh, BitVec.xor_assoc, BitVec.xor_self, BitVec.xor_zero]
  have hlb : ∀ i, ((BitVec.ofNat w (c.toNat / 2 ^ (w - 8))) <<< (w - 8)).getLsbD i =
      (decide (i < w) && !decide (i < w - 8) && c.getLsbD i) := by
    intro i
    rw [hof, BitVec.getLsbD_shiftLeft, BitVec.getLsbD_ushiftRight]
    by_cases h1 : i < w <;> by_cases h2 : i < w - 8 <;>
      simp only [h1, h2, decide_true, decide_false, Bool.not_true, Bool.not_false, Bool.true_and, Bool.false_and]
    congr 1; omega
  have hz : ∀ i < 8, h.getMsbD i = false := by
    intro i hi
    rw [BitVec.getMsbD_eq_getLsbD, hh, BitVec.getLsbD_xor, hlb]
    have h1 : w - 1 - i < w := by omega
    have h2 : ¬ w - 1 - i < w - 8 := by omega
    simp [h1, h2]
  have hshift : h <<< 8 = c <<< 8 := by
    apply BitVec.eq_of_getLsbD_eq
    intro i hi
    rw [BitVec.getLsbD_shiftLeft, BitVec.getLsbD_shiftLeft, hh, BitVec.getLsbD_xor, hlb]
    by_cases h1 : i < 8
    · simp [h1]
    · have h2 : i - 8 < w - 8 := by omega
      simp [h2]
  have hcd : serialL p c (byteBitsL d) =
      serialL p h (byteBitsL 0#8) ^^^
        (serialL p ((BitVec.ofNat w (c.toNat / 2 ^ (w - 8))) <<< (w - 8)) (byteBitsL 0#8) ^^^
        serialL p 0#w (byteBitsL d)) := by
    rw [← byteL_xor, ← byteL_xor]
    simp only [BitVec.zero_xor, BitVec.xor_zero]
    rw [← hc]
  rw [hcd, byteBitsL_zero, shiftL_zero p 8 h hz, ← byteBitsL_zero, hshift]
  congr 1
  rw [← (ht _ htop).2, (ht _ htop).1]
  have := byteL_xor p 0#w 0#w (BitVec.ofNat 8 (c.toNat / 2 ^ (w - 8))) d
  rw [BitVec.xor_self] at this
  have hd : d.toNat < 2 ^ 8 := d.isLt
  have e1 : ((c >>> (w - 8)) ^^^ BitVec.zeroExtend w d).toNat = (c.toNat / 2 ^ (w - 8)) ^^^ d.toNat := by
    rw [BitVec.toNat_xor, BitVec.toNat_setWidth, hts]
    congr 1
    apply Nat.mod_eq_of_lt
    exact Nat.lt_of_lt_of_le hd (Nat.pow_le_pow_right (by decide) hw)
  have hlt : (c.toNat / 2 ^ (w - 8)) ^^^ d.toNat < 256 := Nat.xor_lt_two_pow (n := 8) htop hd
  rw [← this, e1, (ht _ hlt).1]
  congr 2
  apply BitVec.eq_of_toNat_eq
  rw [BitVec.toNat_ofNat, BitVec.toNat_xor, BitVec.toNat_ofNat, Nat.mod_eq_of_lt hlt, Nat.mod_eq_of_lt htop]

/-! ## Whole buffers -/

theorem foldR {w : Nat} (p : BitVec w) (f : BitVec w → Byte → BitVec w)
    (hf : ∀ c d, f c d = serialR p c (byteBitsR d)) (data : List Byte) (c : BitVec w) :
    data.foldl f c = serialR p c (bitsR data) := by
  induction data generalizing c with
  | nil => rfl
  | cons d data ih =>
    rw [List.foldl_cons, ih, hf]
    simp only [serialR, bitsR, List.flatMap_cons, List.foldl_append]

theorem foldL {w : Nat} (p : BitVec w) (f : BitVec w → Byte → BitVec w)
    (hf : ∀ c d, f c d = serialL p c (byteBitsL d)) (data : List Byte) (c : BitVec w) :
    data.foldl f c = serialL p c (bitsL data) := by
  induction data generalizing c with
  | nil => rfl
  | cons d data ih =>
    rw [List.foldl_cons, ih, hf]
    simp only [serialL, bitsL, List.flatMap_cons, List.foldl_append]

theorem and_ff {w : Nat} (hw : 8 ≤ w) (x : BitVec w) : (x &&& BitVec.ofNat w 0xff).toNat = x.toNat % 256 := by
  rw [BitVec.toNat_and, BitVec.toNat_ofNat, Nat.mod_eq_of_lt]
  · exact Nat.and_two_pow_sub_one_eq_mod x.toNat 8
  · have : 2 ^ 8 ≤ 2 ^ w := Nat.pow_le_pow_right (by decide) hw
    omega

/-! ### The polynomials (reflected where the register is) -/

def pCrc32c : BitVec 32 := 0x82F63B78#32
def pCrc32 : BitVec 32 := 0x04C11DB7#32
def pCrc16 : BitVec 16 := 0xA001#16
def pCrc7 : BitVec 7 := 0x09#7
def pCrc64 : BitVec 64 := 0x95AC9329AC4BC9B5#64
def pNvme : BitVec 64 := 0x9A6C9329AC4BC9B5#64
def pT10 : BitVec 16 := 0x8BB7#16

set_option maxRecDepth 10000 in
theorem table_crc32c : TableR 32 pCrc32c crc32cTable := by decide +kernel
set_option maxRecDepth 10000 in
theorem table_crc32 : TableL 32 pCrc32 crc32Table := by decide +kernel
set_option maxRecDepth 10000 in
theorem table_crc16 : TableR 16 pCrc16 crc16Table := by decide +kernel
set_option maxRecDepth 10000 in
theorem table_crc64 : TableR 64 pCrc64 crc64Table := by decide +kernel
set_option maxRecDepth 10000 in
theorem table_nvme : TableR 64 pNvme crc64nvmeTable := by decide +kernel
set_option maxRecDepth 10000 in
theorem table_t10 : TableL 16 pT10 t10difTable := by decide +kernel

theorem crc32c_serial (data : List Byte) : crc32c data = serialR pCrc32c (~~~ 0#32) (bitsR data) :=
  foldR _ _ (fun c d => by rw [and_ff (by decide)]; exact byteStepR (by decide) _ _ table_crc32c c d) _ _

theorem crc64_serial (data : List Byte) : crc64 data = serialR pCrc64 0#64 (bitsR data) :=
  foldR _ _ (fun c d => by rw [and_ff (by decide)]; exact byteStepR (by decide) _ _ table_crc64 c d) _ _

theorem crc16_serial (data : List Byte) : crc16 data = serialR pCrc16 0#16 (bitsR data) :=
  foldR _ _ (fun c d => by
    rw [and_ff (by decide), BitVec.xor_comm]; exact byteStepR (by decide) _ _ table_crc16 c d) _ _

theorem crc64nvme_serial (crc : BitVec 64) (data : List Byte) :
    crc64nvme crc data = ~~~ serialR pNvme (~~~ crc) (bitsR data) := by
  unfold crc64nvme
  congr 1
  apply foldR
  intro c d
  have e : ((c &&& 0xff#64) ^^^ d.zeroExtend 64).toNat = (c ^^^ d.zeroExtend 64).toNat % 256 := by
    rw [BitVec.toNat_xor, BitVec.toNat_xor, and_ff (by decide), BitVec.toNat_setWidth]
    have hd : d.toNat < 2 ^ 8 := d.isLt
    rw [Nat.mod_eq_of_lt (a := d.toNat) (by omega), show 256 = 2 ^ 8 from rfl]
    apply Nat.eq_of_testBit_eq
    intro i
    simp only [Nat.testBit_xor, Nat.testBit_mod_two_pow]
    by_cases hi : i < 8
    · simp [hi]
    · have : d.toNat.testBit i = false := Nat.testBit_lt_two_pow (Nat.lt_of_lt_of_le hd (Nat.pow_le_pow_right (by decide) (by omega)))
      simp [hi, this]
  rw [e, BitVec.xor_comm]; exact byteStepR (by decide) _ _ table_nvme c d

theorem and_ff_L {w : Nat} (hw : 8 ≤ w) (c : BitVec w) (d : Byte) :
    (((c >>> (w - 8)) ^^^ d.zeroExtend w) &&& BitVec.ofNat w 0xff).toNat = ((c >>> (w - 8)) ^^^ d.zeroExtend w).toNat := by
  rw [and_ff hw]
  apply Nat.mod_eq_of_lt
  have hpw : 2 ^ w = 2 ^ (w - 8) * 2 ^ 8 := by rw [← Nat.pow_add]; congr 1; omega
  rw [BitVec.toNat_xor, BitVec.toNat_setWidth, BitVec.toNat_ushiftRight, Nat.shiftRight_eq_div_pow]
  have hd : d.toNat < 2 ^ 8 := d.isLt
  rw [Nat.mod_eq_of_lt (Nat.lt_of_lt_of_le hd (Nat.pow_le_pow_right (by decide) hw))]
  apply Nat.xor_lt_two_pow (n := 8) _ hd
  rw [Nat.div_lt_iff_lt_mul (Nat.two_pow_pos _), Nat.mul_comm]
  have := c.isLt; rw [hpw] at this; exact this

theorem crc32_serial (data : List Byte) : crc32 data = serialL pCrc32 0#32 (bitsL data) :=
  foldL _ _ (fun c d => by
    rw [show (c >>> 24) = c >>> (32 - 8) from rfl, and_ff_L (by decide)]
    exact byteStepL (by decide) _ _ table_crc32 c d) _ _

theorem crcT10dif_serial (crc : BitVec 16) (data : List Byte) :
    crcT10dif crc data = serialL pT10 crc (bitsL data) := by
  unfold crcT10dif
  apply foldL
  intro c d
  have := and_ff_L (w := 16) (by decide) c d
  rw [show (c >>> 8) = c >>> (16 - 8) from rfl, this]
  exact byteStepL (by decide) _ _ table_t10 c d

/-! ### crc7: a 7-bit register kept in a byte -/

theorem table_crc7 : ∀ i < 256, lookup 8 crc7Table i = (serialL pCrc7 0#7 (byteBitsL (BitVec.ofNat 8 i))).zeroExtend 8 := by
  decide +kernel

theorem crc7_shift : ∀ i < 128, serialL pCrc7 (BitVec.ofNat 7 i) (byteBitsL 0#8) =
    serialL pCrc7 0#7 (byteBitsL (BitVec.ofNat 8 (2 * i))) := by decide +kernel

theorem crc7_step (c : BitVec 7) (d : Byte) :
    lookup 8 crc7Table (((c.zeroExtend 8).zeroExtend 16 <<< 1) ^^^ d.zeroExtend 16).toNat =
      (serialL pCrc7 c (byteBitsL d)).zeroExtend 8 := by
  have hc : c.toNat < 2 ^ 7 := c.isLt
  have hd : d.toNat < 2 ^ 8 := d.isLt
  have e : (((c.zeroExtend 8).zeroExtend 16 <<< 1) ^^^ d.zeroExtend 16).toNat = (2 * c.toNat) ^^^ d.toNat := by
    rw [BitVec.toNat_xor, BitVec.toNat_shiftLeft, BitVec.toNat_setWidth, BitVec.toNat_setWidth, BitVec.toNat_setWidth,
      Nat.shiftLeft_eq]
    rw [Nat.mod_eq_of_lt (a := c.toNat) (by omega), Nat.mod_eq_of_lt (a := c.toNat) (by omega),
      Nat.mod_eq_of_lt (a := d.toNat) (by omega), Nat.mod_eq_of_lt (by omega)]
    congr 1; omega
  have hlt : (2 * c.toNat) ^^^ d.toNat < 256 := Nat.xor_lt_two_pow (n := 8) (by omega) hd
  rw [e, table_crc7 _ hlt]
  congr 1
  have h1 := byteL_xor pCrc7 0#7 c d 0#8
  rw [BitVec.zero_xor, BitVec.xor_zero] at h1
  have h2 := crc7_shift c.toNat hc
  rw [BitVec.ofNat_toNat, BitVec.setWidth_eq] at h2
  have h3 := byteL_xor pCrc7 0#7 0#7 d (BitVec.ofNat 8 (2 * c.toNat))
  rw [BitVec.xor_self] at h3
  rw [h1, h2, ← h3]
  congr 2
  apply BitVec.eq_of_toNat_eq
  rw [BitVec.toNat_ofNat, BitVec.toNat_xor, BitVec.toNat_ofNat, Nat.mod_eq_of_lt hlt,
    Nat.mod_eq_of_lt (by omega : 2 * c.toNat < 2 ^ 8), Nat.xor_comm]

theorem crc7_serial (data : List Byte) : crc7 data = (serialL pCrc7 0#7 (bitsL data)).zeroExtend 8 := by
  have gen : ∀ (data : List Byte) (c : BitVec 7), data.foldl (fun (crc : BitVec 8) (d : Byte) =>
      lookup 8 crc7Table ((crc.zeroExtend 16 <<< 1) ^^^ d.zeroExtend 16).toNat) (c.zeroExtend 8) =
      (serialL pCrc7 c (bitsL data)).zeroExtend 8 := by
    intro data
    induction data with
    | nil => intro c; rfl
    | cons d data ih =>
      intro c
      rw [List.foldl_cons, crc7_step, ih]
      simp only [serialL, bitsL, List.flatMap_cons, List.foldl_append]
  exact gen data 0#7

end Fio.Crc
