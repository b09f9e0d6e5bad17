import Verif.Nvme.Model
import Verif.Nvme.Spec
/-
Lemmas for the protection information.
-/
namespace Fio.Nvme
open Fio.Crc Spec

/-! ## Slices -/

/-- `l` bytes at `o`. -/
def sl (b : List Byte) (o l : Nat) : List Byte := (b.drop o).take l

theorem sl_len {b : List Byte} {o l : Nat} (h : o + l ≤ b.length) : (sl b o l).length = l := by
  simp [sl]; omega

theorem sl_drop (b : List Byte) (o l k : Nat) : (sl b o l).drop k = sl b (o + k) (l - k) := by
  simp [sl, List.drop_take, List.drop_drop]

theorem sl_take (b : List Byte) (o l k : Nat) (h : k ≤ l) : (sl b o l).take k = sl b o k := by
  simp [sl, List.take_take, Nat.min_eq_left h]

theorem sl_append (b : List Byte) (o l k : Nat) : sl b o l ++ sl b (o + l) k = sl b o (l + k) := by
  simp [sl, List.take_add, List.drop_drop]

theorem sl_ext {b b' : List Byte} {o l : Nat} (h : ∀ i, o ≤ i → i < o + l → b[i]? = b'[i]?) : sl b o l = sl b' o l := by
  apply List.ext_getElem?
  intro i
  by_cases hi : i < l
  · simp only [sl, List.getElem?_take_of_lt hi, List.getElem?_drop]; exact h _ (by omega) (by omega)
  · simp [sl, List.getElem?_take, hi]

theorem memRead_sl {b : List Byte} {o l : Nat} (h : o + l ≤ b.length) : memRead b o l = some (sl b o l) := if_pos h

theorem memWrite_sl {b src : List Byte} {o : Nat} (h : o + src.length ≤ b.length) :
    ∃ b', memWrite b o src = some b' ∧ b'.length = b.length ∧ sl b' o src.length = src ∧
      ∀ o' l, o' + l ≤ o ∨ o + src.length ≤ o' → sl b' o' l = sl b o' l := by
  obtain ⟨b', e, hl, hb⟩ := memWrite_some h
  refine ⟨b', e, hl, ?_, ?_⟩
  · apply List.ext_getElem?
    intro i
    by_cases hi : i < src.length
    · simp only [sl, List.getElem?_take_of_lt hi, List.getElem?_drop]
      rw [hb, if_pos (by omega)]; congr 1; omega
    · simp only [sl, List.getElem?_take, if_neg hi, List.getElem?_eq_none (Nat.le_of_not_lt hi)]
  · intro o' l hd
    apply sl_ext
    intro i h1 h2
    rw [hb, if_neg (by omega)]

/-! ## Numbers -/

theorem num_app (l : List Byte) (b : Byte) : num (l ++ [b]) = num l * 256 + b.toNat := by simp [num, List.foldl_append]

theorem num_eq (l : List Byte) : num l = fromBe l := by
  unfold fromBe
  rw [← List.reverse_reverse l]
  generalize l.reverse = m
  induction m with
  | nil => rfl
  | cons a m ih =>
    rw [List.reverse_cons, num_app, ih, List.reverse_reverse, List.reverse_append]
    simp only [List.reverse_reverse, List.reverse_cons, List.reverse_nil, List.nil_append, List.cons_append, fromLe]
    omega

theorem num_be (n v : Nat) : num (be n v) = v % 256 ^ n := by
  rw [num_eq, fromBe, be, List.reverse_reverse, fromLe_le]

theorem be_length (n v : Nat) : (be n v).length = n := by simp [be]

theorem fromLe_rep : ∀ n, fromLe (List.replicate n 0xff#8) = 256 ^ n - 1
  | 0 => rfl
  | n + 1 => by
    rw [List.replicate_succ, fromLe, fromLe_rep n, Nat.pow_succ]
    have := Nat.pow_pos (n := n) (show 0 < 256 by decide)
    have : (0xff#8).toNat = 255 := rfl
    omega

theorem ones_iff {l : List Byte} {n : Nat} (h : l.length = n) : fromLe l = 256 ^ n - 1 ↔ l = List.replicate n 0xff#8 := by
  constructor
  · intro e; exact fromLe_inj _ _ (by simp [h]) (by rw [e, fromLe_rep])
  · rintro rfl; exact fromLe_rep n

theorem num_ones_iff {l : List Byte} {n : Nat} (h : l.length = n) : num l = 256 ^ n - 1 ↔ l = List.replicate n 0xff#8 := by
  rw [num_eq, fromBe, ones_iff (by simpa using h)]
  constructor
  · intro e; have := congrArg List.reverse e; simpa using this
  · rintro rfl; simp

theorem or6 (a b c d e f : Nat) (hb : b < 256) (hc : c < 256) (hd : d < 256) (he : e < 256) (hf : f < 256) :
    a <<< 40 ||| b <<< 32 ||| c <<< 24 ||| d <<< 16 ||| e <<< 8 ||| f =
      ((((a * 256 + b) * 256 + c) * 256 + d) * 256 + e) * 256 + f := by
  rw [Nat.or_assoc, Nat.or_assoc, Nat.or_assoc, Nat.or_assoc,
    ← Nat.shiftLeft_add_eq_or_of_lt (a := e) (i := 8) (by omega),
    ← Nat.shiftLeft_add_eq_or_of_lt (a := d) (i := 16) (by rw [Nat.shiftLeft_eq]; omega),
    ← Nat.shiftLeft_add_eq_or_of_lt (a := c) (i := 24) (by simp only [Nat.shiftLeft_eq]; omega),
    ← Nat.shiftLeft_add_eq_or_of_lt (a := b) (i := 32) (by simp only [Nat.shiftLeft_eq]; omega),
    ← Nat.shiftLeft_add_eq_or_of_lt (a := a) (i := 40) (by simp only [Nat.shiftLeft_eq]; omega)]
  simp only [Nat.shiftLeft_eq]; omega

/-! ## The formats -/

/-- The device data describe the format. -/
structure Match (d : NsData) (f : Fmt) : Prop where
  ls : d.lbaSize = f.ls
  ms : d.ms = f.ms
  type : d.piType = f.type
  guard : d.guardType = if f.wide then 2 else 0
  loc : d.piLoc = f.first
  ext : d.lbaExt = if f.ext then f.ls + f.ms else 0
  shift : f.ext = false → f.ls = 2 ^ d.lbaShift
  small : f.ls + f.ms < 2 ^ 32

/-- The guard format. -/
def gOf (f : Fmt) : Guard := if f.wide then .g64 else .g16

theorem size_eq (f : Fmt) : pifSize (gOf f) = f.size := by unfold gOf Fmt.size; split <;> rfl
theorem glen_eq (f : Fmt) : guardLen (gOf f) = if f.wide then 8 else 2 := by unfold gOf; split <;> rfl
theorem aoff_eq (f : Fmt) : appOff (gOf f) = if f.wide then 8 else 2 := by unfold gOf; split <;> rfl
theorem roff_eq (f : Fmt) : refOff (gOf f) = if f.wide then 10 else 4 := by unfold gOf; split <;> rfl
theorem rlen_eq (f : Fmt) : refLen (gOf f) = if f.wide then 6 else 4 := by unfold gOf; split <;> rfl

/-- The buffer with the metadata. -/
def pb (f : Fmt) (s : Bufs) : List Byte := if f.ext then s.buf else s.md
/-- Where the protection information of block `i` is. -/
def pa (f : Fmt) (i : Nat) : Nat := (if f.ext then i * (f.ls + f.ms) + f.ls else i * f.ms) + f.piOff
/-- Offset of block `i` in the data buffer. -/
def bo (f : Fmt) (i : Nat) : Nat := if f.ext then i * (f.ls + f.ms) else i * f.ls
/-- Offset of block `i` in the metadata buffer. -/
def mo (f : Fmt) (i : Nat) : Nat := if f.ext then 0 else i * f.ms
/-- Length of the part of the metadata buffer before the protection information, with the data. -/
def ivOf (f : Fmt) : Nat := if f.ext then f.ls + f.piOff else f.piOff

theorem piOff_le {f : Fmt} (ok : f.Ok) : f.piOff + f.size ≤ f.ms := by
  have := ok.fits; unfold Fmt.piOff; split <;> omega

theorem ext_ne {d : NsData} {f : Fmt} (m : Match d f) (ok : f.Ok) : d.lbaExt ≠ 0 ↔ f.ext = true := by
  have h1 := ok.fits
  have hs : 0 < f.size := by unfold Fmt.size; split <;> omega
  rw [m.ext]; cases f.ext <;> simp <;> omega

theorem interval_eq {d : NsData} {f : Fmt} (m : Match d f) (ok : f.Ok) : interval (gOf f) d = ivOf f := by
  have h1 := ok.fits; have h2 := m.small
  have hs : 0 < f.size := by unfold Fmt.size; split <;> omega
  have e := ext_ne m ok
  unfold interval ivOf Fmt.piOff
  rw [m.loc, m.ms, size_eq]
  by_cases he : f.ext = true
  · have := m.ext; rw [if_pos he] at this
    rw [if_pos (e.2 he), if_pos he, if_pos (e.2 he), this]
    cases f.first <;> simp <;> omega
  · rw [if_neg (fun h => he (e.1 h)), if_neg he, if_neg (fun h => he (e.1 h))]
    cases f.first <;> simp; omega

section
set_option linter.unusedSectionVars false
variable {f : Fmt} (ok : f.Ok)
include ok

theorem meta_sl (i : Nat) (s : Bufs) : f.meta i s.buf s.md = sl (pb f s) (pa f i - f.piOff) f.ms := by
  unfold Fmt.meta pb pa sl; cases f.ext <;> simp

theorem pi_sl (i : Nat) (s : Bufs) : f.pi i s.buf s.md = sl (pb f s) (pa f i) f.size := by
  have := piOff_le ok
  unfold Fmt.pi
  rw [meta_sl ok, sl_drop, sl_take _ _ _ _ (by omega)]
  congr 1; unfold pa; omega

theorem behind_sl (i : Nat) (s : Bufs) :
    f.behind i s.buf s.md = sl (pb f s) (pa f i + f.size) (f.ms - (f.piOff + f.size)) := by
  unfold Fmt.behind
  rw [meta_sl ok, sl_drop]
  congr 1; unfold pa; omega

theorem front_sl (i : Nat) (s : Bufs) : (f.meta i s.buf s.md).take f.piOff = sl (pb f s) (pa f i - f.piOff) f.piOff := by
  have := piOff_le ok
  rw [meta_sl ok, sl_take _ _ _ _ (by omega)]

theorem data_sl (i : Nat) (s : Bufs) : f.data i s.buf = sl s.buf (bo f i) f.ls := by
  unfold Fmt.data bo sl; cases f.ext <;> simp

theorem guard_sl (i : Nat) (s : Bufs) : f.guard i s.buf s.md = sl (pb f s) (pa f i) (guardLen (gOf f)) := by
  unfold Fmt.guard
  rw [pi_sl ok, glen_eq, sl_take]
  unfold Fmt.size; split <;> omega

theorem app_sl (i : Nat) (s : Bufs) : f.app i s.buf s.md = sl (pb f s) (pa f i + appOff (gOf f)) 2 := by
  unfold Fmt.app
  rw [pi_sl ok, aoff_eq, sl_drop, sl_take]
  unfold Fmt.size; split <;> omega

theorem ref_sl (i : Nat) (s : Bufs) : f.ref i s.buf s.md = sl (pb f s) (pa f i + refOff (gOf f)) (refLen (gOf f)) := by
  unfold Fmt.ref
  rw [pi_sl ok, roff_eq, rlen_eq, sl_drop]
  congr 1
  unfold Fmt.size; split <;> rfl

theorem covered_sl (i : Nat) (s : Bufs) : f.covered i s.buf s.md =
    if f.ext then sl s.buf (bo f i) (ivOf f) else sl s.buf (bo f i) f.ls ++ sl s.md (mo f i) (ivOf f) := by
  unfold Fmt.covered
  rw [data_sl ok, front_sl ok]
  unfold ivOf bo mo pb pa
  cases f.ext
  · simp
  · simp [sl_append]

end

theorem block_le {f : Fmt} {n i : Nat} {s : Bufs} (ok : f.Ok) (h : f.Holds n s.buf s.md) (hi : i < n) :
    (f.ext = true → bo f i + (f.ls + f.ms) ≤ s.buf.length) ∧
    (f.ext = false → bo f i + f.ls ≤ s.buf.length ∧ mo f i + f.ms ≤ s.md.length) ∧
    pa f i + f.size ≤ (pb f s).length := by
  have h0 := piOff_le ok
  unfold Fmt.Holds at h
  have e1 : ∀ k, i * k + k ≤ n * k := fun k => by
    rw [← Nat.succ_mul]; exact Nat.mul_le_mul_right k hi
  have a1 := e1 (f.ls + f.ms); have a2 := e1 f.ls; have a3 := e1 f.ms
  unfold bo mo pa pb
  cases he : f.ext <;> simp [he] at h ⊢ <;> omega

theorem pa_iv {f : Fmt} (i : Nat) : pa f i = if f.ext then bo f i + ivOf f else mo f i + ivOf f := by
  unfold pa bo mo ivOf; cases f.ext <;> simp; omega

/-! ## Reading and writing -/

theorem crc_lt (f : Fmt) (l : List Byte) : f.crc l < 256 ^ guardLen (gOf f) := by
  rw [glen_eq]; unfold Fmt.crc; split
  · exact (~~~ serialR pNvme (~~~ 0#64) (bitsR l)).isLt
  · exact (serialL pT10 0#16 (bitsL l)).isLt

theorem crcStep_one (f : Fmt) (x : List Byte) : crcStep (gOf f) 0 x = f.crc x := by
  unfold gOf Fmt.crc
  cases f.wide
  · simp [crcStep, crcT10dif_serial]
  · simp [crcStep, crc64nvme_serial]

theorem crcStep_two (f : Fmt) (x y : List Byte) : crcStep (gOf f) (crcStep (gOf f) 0 x) y = f.crc (x ++ y) := by
  unfold gOf Fmt.crc
  cases f.wide
  · simp [crcStep, crcT10dif_serial, serialL, bitsL, List.foldl_append]
  · simp only [crcStep, crc64nvme_serial, BitVec.ofNat_toNat, BitVec.setWidth_eq, BitVec.not_not, if_true]
    simp [serialR, bitsR, List.foldl_append]

theorem guardVal_eq {d : NsData} {f : Fmt} (m : Match d f) (ok : f.Ok) {n i : Nat} {s : Bufs}
    (h : f.Holds n s.buf s.md) (hi : i < n) :
    guardVal (gOf f) d (ivOf f) (bo f i) (mo f i) s = some (f.crc (f.covered i s.buf s.md)) := by
  obtain ⟨h1, h2, -⟩ := block_le ok h hi
  have hp := piOff_le ok
  unfold guardVal
  rw [covered_sl ok]
  by_cases he : f.ext = true
  · have h1 := h1 he
    have hle : ivOf f ≤ f.ls + f.ms := by unfold ivOf; rw [if_pos he]; omega
    rw [if_pos ((ext_ne m ok).2 he), if_pos he, memRead_sl (by omega)]
    simp [crcStep_one]
  · have he' : f.ext = false := by simpa using he
    obtain ⟨h3, h4⟩ := h2 he'
    have hle : ivOf f ≤ f.ms := by unfold ivOf; rw [if_neg he]; omega
    rw [if_neg (fun h => he ((ext_ne m ok).1 h)), if_neg he, m.ls, memRead_sl (by omega), memRead_sl (by omega)]
    simp [crcStep_two]

theorem piRead_eq {d : NsData} {f : Fmt} (m : Match d f) (ok : f.Ok) {n i off len : Nat} {s : Bufs}
    (h : f.Holds n s.buf s.md) (hi : i < n) (hl : off + len ≤ f.size) :
    piRead d (ivOf f) (bo f i) (mo f i) off len s = some (sl (pb f s) (pa f i + off) len) := by
  obtain ⟨-, -, h3⟩ := block_le ok h hi
  rw [pa_iv] at h3 ⊢
  unfold piRead pb at *
  by_cases he : f.ext = true
  · rw [if_pos ((ext_ne m ok).2 he), if_pos he]; simp only [he, if_true] at h3 ⊢
    rw [memRead_sl (by omega)]
  · rw [if_neg (fun h => he ((ext_ne m ok).1 h)), if_neg he]; simp only [he] at h3 ⊢
    rw [memRead_sl (by simp at h3; omega)]; simp

theorem piWrite_eq {d : NsData} {f : Fmt} (m : Match d f) (ok : f.Ok) {n i off : Nat} {s : Bufs} {src : List Byte}
    (h : f.Holds n s.buf s.md) (hi : i < n) (hl : off + src.length ≤ f.size) :
    ∃ s', piWrite d (ivOf f) (bo f i) (mo f i) off src s = some s' ∧
      s'.buf.length = s.buf.length ∧ s'.md.length = s.md.length ∧
      (f.ext = true → s'.md = s.md) ∧ (f.ext = false → s'.buf = s.buf) ∧
      sl (pb f s') (pa f i + off) src.length = src ∧
      ∀ o l, o + l ≤ pa f i + off ∨ pa f i + off + src.length ≤ o → sl (pb f s') o l = sl (pb f s) o l := by
  obtain ⟨-, -, h3⟩ := block_le ok h hi
  rw [pa_iv] at h3 ⊢
  unfold piWrite pb at *
  by_cases he : f.ext = true
  · rw [if_pos ((ext_ne m ok).2 he)]; simp only [he, if_true] at h3 ⊢
    obtain ⟨b', e, hb, hs, hd⟩ := memWrite_sl (b := s.buf) (src := src) (o := bo f i + ivOf f + off) (by omega)
    exact ⟨{ s with buf := b' }, by rw [e]; rfl, hb, rfl, fun _ => rfl, fun h => by simp at h, hs, hd⟩
  · rw [if_neg (fun h => he ((ext_ne m ok).1 h))]; simp only [he] at h3 ⊢
    obtain ⟨b', e, hb, hs, hd⟩ := memWrite_sl (b := s.md) (src := src) (o := mo f i + ivOf f + off) (by simp at h3; omega)
    exact ⟨{ s with md := b' }, by rw [e]; rfl, rfl, hb, fun h => by simp at h, fun _ => rfl, by simpa using hs, by simpa using hd⟩

end Fio.Nvme
