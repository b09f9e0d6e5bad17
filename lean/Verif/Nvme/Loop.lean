import Verif.Nvme.Lemmas
/-
The loops over the blocks.
-/
namespace Fio.Nvme
open Fio.Crc Spec

/-- The checks a flag word asks for. -/
def chk (flags : Nat) : Chk := { guard := flags.testBit 28, app := flags.testBit 27, ref := flags.testBit 26 }

theorem goff_le (f : Fmt) : 0 + guardLen (gOf f) ≤ f.size ∧ guardLen (gOf f) ≤ appOff (gOf f) ∧
    appOff (gOf f) + 2 ≤ f.size ∧ appOff (gOf f) + 2 ≤ refOff (gOf f) ∧
    refOff (gOf f) + refLen (gOf f) ≤ f.size := by
  unfold gOf Fmt.size; cases f.wide <;> decide

theorem refBits_eq (f : Fmt) : 2 ^ f.refBits = 256 ^ refLen (gOf f) := by
  unfold Fmt.refBits gOf; cases f.wide <;> rfl

theorem refEscape_iff (f : Fmt) {l : List Byte} (h : l.length = refLen (gOf f)) :
    refEscape (gOf f) l = true ↔ num l = 2 ^ f.refBits - 1 := by
  rw [refBits_eq, num_ones_iff h]
  unfold gOf at *
  cases hw : f.wide
  · simp only [hw, Bool.false_eq_true, if_false, refLen, refEscape, beq_iff_eq] at h ⊢
    exact ones_iff h
  · simp only [hw, if_true, refLen, refEscape, beq_iff_eq] at h ⊢
    rfl

theorem refMatch_iff (f : Fmt) {l : List Byte} (h : l.length = refLen (gOf f)) (slba lba : Nat) :
    refMatch (gOf f) l slba lba = true ↔ num l = (slba + lba) % 2 ^ f.refBits := by
  unfold gOf Fmt.refBits at *
  cases hw : f.wide
  · simp only [hw, Bool.false_eq_true, if_false, refLen, refMatch, beq_iff_eq, num_eq] at h ⊢
    rw [show (slba % 2 ^ 32 + lba) % 2 ^ 32 = (slba + lba) % 2 ^ 32 by omega]
  · simp only [hw, if_true, refLen, refMatch, beq_iff_eq] at h ⊢
    rw [show (slba + lba) % 2 ^ 64 % 2 ^ 48 = (slba + lba) % 2 ^ 48 by omega]
    match l, h with
    | [a, b, c, d, e, g], _ =>
      simp only [List.getD_cons_zero, List.getD_cons_succ]
      rw [or6 _ _ _ _ _ _ b.isLt c.isLt d.isLt e.isLt g.isLt]
      simp only [num, List.foldl]
      rw [Nat.zero_mul, Nat.zero_add]

theorem refBytes_eq (f : Fmt) (slba lba : Nat) :
    refBytes (gOf f) slba lba = be (refLen (gOf f)) ((slba + lba) % 2 ^ f.refBits) := by
  unfold gOf Fmt.refBits
  cases f.wide
  · simp only [Bool.false_eq_true, if_false, refLen, refBytes]
    rw [show (slba % 2 ^ 32 + lba) % 2 ^ 32 = (slba + lba) % 2 ^ 32 by omega]
  · simp only [if_true, refLen, refBytes, be, le, List.map, List.reverse_cons, List.reverse_nil, List.nil_append,
      List.cons_append, Nat.div_div_eq_div_mul]
    generalize slba + lba = v
    have e : ∀ k, k ≤ 2 ^ 40 → k ∣ 2 ^ 40 → BitVec.ofNat 8 (v % 2 ^ 64 / k) = BitVec.ofNat 8 (v % 2 ^ 48 / k) := by
      intro k hk hd
      obtain ⟨c, hc⟩ := hd
      apply BitVec.eq_of_toNat_eq
      simp only [BitVec.toNat_ofNat]
      have hk0 : 0 < k := by
        rcases Nat.eq_zero_or_pos k with rfl | h
        · omega
        · exact h
      rw [show 2 ^ 64 = k * (c * 2 ^ 24) by rw [← Nat.mul_assoc, ← hc], show 2 ^ 48 = k * (c * 2 ^ 8) by rw [← Nat.mul_assoc, ← hc],
        Nat.mod_mul_right_div_self, Nat.mod_mul_right_div_self,
        Nat.mod_mod_of_dvd _ ⟨c * 2 ^ 16, by omega⟩, Nat.mod_mod_of_dvd _ ⟨c, by omega⟩]
    have e1 := e 1 (by decide) (by decide)
    simp only [Nat.div_one] at e1
    rw [e _ (by decide) (by decide), e (2 ^ 32) (by decide) (by decide), e (2 ^ 24) (by decide) (by decide),
      e (2 ^ 16) (by decide) (by decide), e (2 ^ 8) (by decide) (by decide), e1]

/-! ## Verification -/

theorem verBlock_iff {d : NsData} {f : Fmt} (m : Match d f) (ok : f.Ok) {n i : Nat} {s : Bufs}
    (h : f.Holds n s.buf s.md) (hi : i < n) (pi : PiData) (hv : pi.interval = ivOf f) (slba : Nat) :
    ∃ b, verBlock (gOf f) d pi slba i (bo f i) (mo f i) s = some b ∧
      (b = true ↔ f.Escaped i s.buf s.md ∨
        f.Right (chk pi.ioFlags) pi.apptag pi.apptagMask (slba + i) i s.buf s.md) := by
  obtain ⟨g1, g2, g3, g4, g5⟩ := goff_le f
  obtain ⟨-, -, hb⟩ := block_le ok h hi
  have hg := guardVal_eq m ok h hi
  have rg := piRead_eq m ok h hi g1
  have ra := piRead_eq m ok h hi g3
  have rr := piRead_eq m ok h hi g5
  rw [Nat.add_zero, ← guard_sl ok] at rg
  rw [← app_sl ok] at ra
  rw [← ref_sl ok] at rr
  have la : (f.app i s.buf s.md).length = 2 := by rw [app_sl ok]; exact sl_len (by omega)
  have lr : (f.ref i s.buf s.md).length = refLen (gOf f) := by rw [ref_sl ok]; exact sl_len (by omega)
  have ea : fromLe (f.app i s.buf s.md) = 0xFFFF ↔ num (f.app i s.buf s.md) = 0xFFFF :=
    (ones_iff la).trans (num_ones_iff la).symm
  have er := refEscape_iff f lr
  have em := refMatch_iff f lr slba i
  unfold verBlock
  rw [hv]
  simp only [rg, ra, rr, hg, m.type, Option.bind_eq_bind, Option.bind_some, ← num_eq]
  have key : (if f.type = 3 then fromLe (f.app i s.buf s.md) == 0xFFFF && refEscape (gOf f) (f.ref i s.buf s.md)
      else if f.type = 1 ∨ f.type = 2 then fromLe (f.app i s.buf s.md) == 0xFFFF else false) = true ↔
      f.Escaped i s.buf s.md := by
    unfold Fmt.Escaped
    rcases ok.type with h | h | h
    · simp [h, ea]
    · simp [h, ea]
    · simp [h, ea, er]
  generalize (if f.type = 3 then fromLe (f.app i s.buf s.md) == 0xFFFF && refEscape (gOf f) (f.ref i s.buf s.md)
      else if f.type = 1 ∨ f.type = 2 then fromLe (f.app i s.buf s.md) == 0xFFFF else false) = esc at key
  have t3 : (f.type = 1 ∨ f.type = 2) ↔ f.type ≠ 3 := by
    rcases ok.type with h | h | h <;> simp [h]
  cases esc
  · have ne : ¬ f.Escaped i s.buf s.md := fun h => absurd (key.2 h) (by simp)
    simp only [ne, false_or, Bool.false_eq_true, if_false]
    have R : f.Right (chk pi.ioFlags) pi.apptag pi.apptagMask (slba + i) i s.buf s.md ↔
        (pi.ioFlags.testBit 28 = true → num (f.guard i s.buf s.md) = f.crc (f.covered i s.buf s.md)) ∧
        (pi.ioFlags.testBit 27 = true → num (f.app i s.buf s.md) &&& pi.apptagMask = pi.apptag &&& pi.apptagMask) ∧
        (pi.ioFlags.testBit 26 = true → f.type ≠ 3 → num (f.ref i s.buf s.md) = (slba + i) % 2 ^ f.refBits) :=
      ⟨fun r => ⟨r.1, r.2, r.3⟩, fun r => ⟨r.1, r.2.1, r.2.2⟩⟩
    rw [R, ← em]
    generalize refMatch (gOf f) (f.ref i s.buf s.md) slba i = rm
    cases pi.ioFlags.testBit 28 <;> cases pi.ioFlags.testBit 27 <;> cases pi.ioFlags.testBit 26 <;>
      simp only [Bool.false_eq_true, if_false, if_true, Option.bind_some, not_true, not_false_eq_true, true_imp_iff, false_imp_iff, t3,
        decide_not, beq_iff_eq] <;>
      (repeat' split) <;> simp_all
  · exact ⟨true, by simp, by simp [key.1 rfl]⟩

theorem bo_succ {d : NsData} {f : Fmt} (m : Match d f) (ok : f.Ok) (i : Nat) (s : Bufs) (g : Guard) (pi : PiData) (slba n lba : Nat) :
    (if d.lbaExt ≠ 0 then verLoop g d pi slba n lba (bo f i + d.lbaExt) (mo f i) s
      else verLoop g d pi slba n lba (bo f i + d.lbaSize) (mo f i + d.ms) s) =
    verLoop g d pi slba n lba (bo f (i + 1)) (mo f (i + 1)) s := by
  have e := ext_ne m ok
  by_cases he : f.ext = true
  · rw [if_pos (e.2 he), m.ext]; unfold bo mo; simp [he, Nat.succ_mul]
  · rw [if_neg (fun h => he (e.1 h)), m.ls, m.ms]; unfold bo mo; simp [he, Nat.succ_mul]

theorem verLoop_iff {d : NsData} {f : Fmt} (m : Match d f) (ok : f.Ok) (s : Bufs)
    (pi : PiData) (hv : pi.interval = ivOf f) (slba : Nat) : ∀ (n k : Nat), f.Holds (k + n) s.buf s.md →
    ∃ b, verLoop (gOf f) d pi slba n k (bo f k) (mo f k) s = some b ∧
      (b = true ↔ ∀ i, k ≤ i → i < k + n → f.Escaped i s.buf s.md ∨
        f.Right (chk pi.ioFlags) pi.apptag pi.apptagMask (slba + i) i s.buf s.md) := by
  intro n
  induction n with
  | zero => intro k _; exact ⟨true, rfl, by simp; intro i h1 h2; omega⟩
  | succ n ih =>
    intro k h
    obtain ⟨b, e, hb⟩ := verBlock_iff m ok h (show k < k + (n + 1) by omega) pi hv slba
    obtain ⟨b', e', hb'⟩ := ih (k + 1) (by rwa [show k + 1 + n = k + (n + 1) by omega])
    rw [verLoop, e, Option.bind_eq_bind, Option.bind_some, bo_succ m ok, e']
    cases b
    · refine ⟨false, by simp, ?_⟩
      simp only [Bool.false_eq_true, false_iff] at hb ⊢
      exact fun hh => hb (hh k (by omega) (by omega))
    · refine ⟨b', by simp, ?_⟩
      rw [hb']
      constructor
      · intro hh i h1 h2
        rcases Nat.lt_or_ge k i with hk | hk
        · exact hh i (by omega) (by omega)
        · rw [show i = k by omega]; exact hb.1 rfl
      · intro hh i h1 h2; exact hh i (by omega) (by omega)

/-! ## Generation -/

/-- What stays and what is written: the fields of block `i`. -/
structure Done (f : Fmt) (c : Chk) (apptag slba i : Nat) (s s' : Bufs) : Prop where
  guard : f.guard i s'.buf s'.md = if c.guard then be (guardLen (gOf f)) (f.crc (f.covered i s.buf s.md)) else f.guard i s.buf s.md
  app : f.app i s'.buf s'.md = if c.app then be 2 apptag else f.app i s.buf s.md
  ref : f.ref i s'.buf s'.md = if c.ref ∧ f.type ≠ 3 then be (refLen (gOf f)) ((slba + i) % 2 ^ f.refBits) else f.ref i s.buf s.md

/-- Only the protection information of blocks in `P` changes. -/
structure Keep (f : Fmt) (P : Nat → Prop) (s s' : Bufs) : Prop where
  buf : s'.buf.length = s.buf.length
  md : s'.md.length = s.md.length
  ext : f.ext = true → s'.md = s.md
  sep : f.ext = false → s'.buf = s.buf
  out : ∀ o l, (∀ i, P i → o + l ≤ pa f i ∨ pa f i + f.size ≤ o) → sl (pb f s') o l = sl (pb f s) o l

theorem Keep.trans {f : Fmt} {P Q : Nat → Prop} {s t u : Bufs} (h1 : Keep f P s t) (h2 : Keep f Q t u) :
    Keep f (fun i => P i ∨ Q i) s u where
  buf := h2.buf.trans h1.buf
  md := h2.md.trans h1.md
  ext h := (h2.ext h).trans (h1.ext h)
  sep h := (h2.sep h).trans (h1.sep h)
  out o l h := (h2.out o l fun i hi => h i (.inr hi)).trans (h1.out o l fun i hi => h i (.inl hi))

theorem Keep.mono {f : Fmt} {P Q : Nat → Prop} {s t : Bufs} (h : Keep f P s t) (hp : ∀ i, P i → Q i) : Keep f Q s t :=
  { h with out := fun o l hq => h.out o l fun i hi => hq i (hp i hi) }

theorem Keep.holds {f : Fmt} {P : Nat → Prop} {s t : Bufs} (h : Keep f P s t) {n : Nat} (hh : f.Holds n s.buf s.md) :
    f.Holds n t.buf t.md := by
  unfold Fmt.Holds at *; rw [h.buf, h.md]; exact hh

theorem pa_lt {f : Fmt} (ok : f.Ok) {i j : Nat} (h : i < j) :
    pa f i + f.size ≤ (if f.ext then j * (f.ls + f.ms) else j * f.ms) := by
  have hp := piOff_le ok
  have e1 : ∀ k, i * k + k ≤ j * k := fun k => by
    rw [← Nat.succ_mul]; exact Nat.mul_le_mul_right k h
  have a1 := e1 (f.ls + f.ms); have a3 := e1 f.ms
  unfold pa
  cases f.ext <;> simp <;> omega

theorem pa_ge (f : Fmt) (j : Nat) : (if f.ext then j * (f.ls + f.ms) else j * f.ms) ≤ pa f j := by
  unfold pa; cases f.ext <;> simp <;> omega

/-- The bytes the guard covers do not change. -/
theorem Keep.covered {f : Fmt} (ok : f.Ok) {P : Nat → Prop} {s t : Bufs} (h : Keep f P s t) (i : Nat) :
    f.data i t.buf = f.data i s.buf ∧ (f.meta i t.buf t.md).take f.piOff = (f.meta i s.buf s.md).take f.piOff ∧
    f.behind i t.buf t.md = f.behind i s.buf s.md ∧ f.covered i t.buf t.md = f.covered i s.buf s.md := by
  have hp := piOff_le ok
  have loc : ∀ j, pa f j + (f.ms - f.piOff) ≤ (if f.ext then (j+1) * (f.ls + f.ms) else (j+1) * f.ms) := fun j => by
    unfold pa; cases f.ext <;> simp [Nat.succ_mul] <;> omega
  have front : (f.meta i t.buf t.md).take f.piOff = (f.meta i s.buf s.md).take f.piOff := by
    rw [front_sl ok, front_sl ok]
    apply h.out
    intro j _
    rcases Nat.lt_trichotomy i j with hij | rfl | hij
    · left; have := pa_lt ok hij; have := pa_ge f j; have : f.piOff ≤ pa f i := by unfold pa; omega
      omega
    · left; have : f.piOff ≤ pa f i := by unfold pa; omega
      omega
    · right; have := pa_lt ok hij
      have : (if f.ext then i * (f.ls + f.ms) else i * f.ms) ≤ pa f i - f.piOff := by unfold pa; cases f.ext <;> simp
      omega
  have back : f.behind i t.buf t.md = f.behind i s.buf s.md := by
    rw [behind_sl ok, behind_sl ok]
    apply h.out
    intro j _
    rcases Nat.lt_trichotomy i j with hij | rfl | hij
    · left; have := loc i; have := pa_ge f j
      have : (if f.ext then (i+1) * (f.ls + f.ms) else (i+1) * f.ms) ≤ (if f.ext then j * (f.ls + f.ms) else j * f.ms) := by
        split <;> exact Nat.mul_le_mul_right _ hij
      omega
    · right; omega
    · right; have := pa_lt ok hij; have := pa_ge f i; omega
  have data : f.data i t.buf = f.data i s.buf := by
    rw [data_sl ok i t, data_sl ok i s]
    by_cases he : f.ext = true
    · have ht : t.buf = pb f t := by unfold pb; rw [if_pos he]
      have hs : s.buf = pb f s := by unfold pb; rw [if_pos he]
      rw [ht, hs]
      apply h.out
      intro j _
      rcases Nat.lt_trichotomy i j with hij | rfl | hij
      · left; have := pa_ge f j
        have h2 : (if f.ext then (i+1) * (f.ls + f.ms) else (i+1) * f.ms) ≤ (if f.ext then j * (f.ls + f.ms) else j * f.ms) := by
          split <;> exact Nat.mul_le_mul_right _ hij
        unfold bo; simp only [he, if_true] at *; rw [Nat.succ_mul] at h2; omega
      · left; unfold pa bo; simp only [he, if_true]; omega
      · right; have := pa_lt ok hij; unfold bo; simp only [he, if_true] at *; omega
    · rw [h.sep (by simpa using he)]
  exact ⟨data, front, back, by unfold Fmt.covered; rw [data, front]⟩

theorem Keep.fields {f : Fmt} (ok : f.Ok) {P : Nat → Prop} {s t : Bufs} (h : Keep f P s t) {i : Nat} (hi : ¬ P i) :
    f.guard i t.buf t.md = f.guard i s.buf s.md ∧ f.app i t.buf t.md = f.app i s.buf s.md ∧ f.ref i t.buf t.md = f.ref i s.buf s.md := by
  have e : f.pi i t.buf t.md = f.pi i s.buf s.md := by
    rw [pi_sl ok, pi_sl ok]
    apply h.out
    intro j hj
    have hne : i ≠ j := fun e => hi (e ▸ hj)
    rcases Nat.lt_or_gt_of_ne hne with hij | hij
    · left; have := pa_lt ok hij; have := pa_ge f j; omega
    · right; have := pa_lt ok hij; have := pa_ge f i; omega
  unfold Fmt.guard Fmt.app Fmt.ref
  rw [e]; exact ⟨rfl, rfl, rfl⟩

/-- A store of one field. -/
theorem piWrite_keep {d : NsData} {f : Fmt} (m : Match d f) (ok : f.Ok) {n i off : Nat} {s : Bufs} {src : List Byte}
    (h : f.Holds n s.buf s.md) (hi : i < n) (hl : off + src.length ≤ f.size) :
    ∃ s', piWrite d (ivOf f) (bo f i) (mo f i) off src s = some s' ∧ Keep f (· = i) s s' ∧
      sl (pb f s') (pa f i + off) src.length = src ∧
      ∀ o l, o + l ≤ pa f i + off ∨ pa f i + off + src.length ≤ o → sl (pb f s') o l = sl (pb f s) o l := by
  obtain ⟨s', e, h1, h2, h3, h4, h5, h6⟩ := piWrite_eq m ok (src := src) h hi hl
  refine ⟨s', e, ⟨h1, h2, h3, h4, fun o l hd => h6 o l ?_⟩, h5, h6⟩
  rcases hd i rfl with hd | hd
  · left; omega
  · right; omega

theorem genBlock_done {d : NsData} {f : Fmt} (m : Match d f) (ok : f.Ok) {n i : Nat} {s : Bufs}
    (h : f.Holds n s.buf s.md) (hi : i < n) (flags apptag slba : Nat) :
    ∃ s', genBlock (gOf f) d flags apptag slba i (ivOf f) (bo f i) (mo f i) s = some s' ∧ Keep f (· = i) s s' ∧
      Done f (chk flags) apptag slba i s s' := by
  obtain ⟨g1, g2, g3, g4, g5⟩ := goff_le f
  have idem : ∀ {s t u : Bufs}, Keep f (· = i) s t → Keep f (· = i) t u → Keep f (· = i) s u :=
    fun a b => (a.trans b).mono (fun j hj => hj.elim id id)
  have refl : Keep f (· = i) s s := ⟨rfl, rfl, fun _ => rfl, fun _ => rfl, fun _ _ _ => rfl⟩
  -- guard
  have st1 : ∃ s1, (if flags.testBit 28 = true then do
        let c ← guardVal (gOf f) d (ivOf f) (bo f i) (mo f i) s
        piWrite d (ivOf f) (bo f i) (mo f i) 0 (be (guardLen (gOf f)) c) s
      else some s) = some s1 ∧ Keep f (· = i) s s1 ∧
      f.guard i s1.buf s1.md = (if flags.testBit 28 then be (guardLen (gOf f)) (f.crc (f.covered i s.buf s.md)) else f.guard i s.buf s.md) ∧
      f.app i s1.buf s1.md = f.app i s.buf s.md ∧ f.ref i s1.buf s1.md = f.ref i s.buf s.md := by
    by_cases hf : flags.testBit 28 = true
    · rw [if_pos hf, guardVal_eq m ok h hi, Option.bind_eq_bind, Option.bind_some]
      obtain ⟨s1, e, k, w, o⟩ := piWrite_keep m ok (off := 0) (src := be (guardLen (gOf f)) (f.crc (f.covered i s.buf s.md))) h hi (by rw [be_length]; exact g1)
      rw [be_length] at w o
      refine ⟨s1, e, k, ?_, ?_, ?_⟩
      · rw [if_pos hf, guard_sl ok]; exact w
      · rw [app_sl ok, app_sl ok]; exact o _ _ (by omega)
      · rw [ref_sl ok, ref_sl ok]; exact o _ _ (by omega)
    · rw [if_neg hf]; exact ⟨s, rfl, refl, by simp [hf], rfl, rfl⟩
  obtain ⟨s1, e1, k1, w1, wa1, wr1⟩ := st1
  have st2 : ∃ s2, (if flags.testBit 27 = true then piWrite d (ivOf f) (bo f i) (mo f i) (appOff (gOf f)) (be 2 apptag) s1 else some s1) = some s2 ∧
      Keep f (· = i) s1 s2 ∧
      f.guard i s2.buf s2.md = f.guard i s1.buf s1.md ∧
      f.app i s2.buf s2.md = (if flags.testBit 27 then be 2 apptag else f.app i s1.buf s1.md) ∧ f.ref i s2.buf s2.md = f.ref i s1.buf s1.md := by
    by_cases hf : flags.testBit 27 = true
    · rw [if_pos hf]
      obtain ⟨s2, e, k, w, o⟩ := piWrite_keep m ok (off := appOff (gOf f)) (src := be 2 apptag) (k1.holds h) hi (by rw [be_length]; exact g3)
      rw [be_length] at w o
      refine ⟨s2, e, k, ?_, ?_, ?_⟩
      · rw [guard_sl ok, guard_sl ok]; exact o _ _ (by omega)
      · rw [if_pos hf, app_sl ok]; exact w
      · rw [ref_sl ok, ref_sl ok]; exact o _ _ (by omega)
    · rw [if_neg hf]; exact ⟨s1, rfl, ⟨rfl, rfl, fun _ => rfl, fun _ => rfl, fun _ _ _ => rfl⟩, rfl, by simp [hf], rfl⟩
  obtain ⟨s2, e2, k2, w2, wa2, wr2⟩ := st2
  have t3 : (d.piType = 1 ∨ d.piType = 2) ↔ f.type ≠ 3 := by
    rw [m.type]; rcases ok.type with h | h | h <;> simp [h]
  have st3 : ∃ s3, (if flags.testBit 26 = true then
        if d.piType = 1 ∨ d.piType = 2 then piWrite d (ivOf f) (bo f i) (mo f i) (refOff (gOf f)) (refBytes (gOf f) slba i) s2 else some s2
      else some s2) = some s3 ∧ Keep f (· = i) s2 s3 ∧
      f.guard i s3.buf s3.md = f.guard i s2.buf s2.md ∧ f.app i s3.buf s3.md = f.app i s2.buf s2.md ∧
      f.ref i s3.buf s3.md = (if flags.testBit 26 = true ∧ f.type ≠ 3 then be (refLen (gOf f)) ((slba + i) % 2 ^ f.refBits) else f.ref i s2.buf s2.md) := by
    have same : ∃ s3, some s2 = some s3 ∧ Keep f (· = i) s2 s3 ∧
      f.guard i s3.buf s3.md = f.guard i s2.buf s2.md ∧ f.app i s3.buf s3.md = f.app i s2.buf s2.md ∧
      f.ref i s3.buf s3.md = f.ref i s2.buf s2.md :=
      ⟨s2, rfl, ⟨rfl, rfl, fun _ => rfl, fun _ => rfl, fun _ _ _ => rfl⟩, rfl, rfl, rfl⟩
    by_cases hf : flags.testBit 26 = true
    · rw [if_pos hf]
      by_cases ht : f.type ≠ 3
      · rw [if_pos (t3.2 ht), refBytes_eq, if_pos ⟨hf, ht⟩]
        obtain ⟨s3, e, k, w, o⟩ := piWrite_keep m ok (off := refOff (gOf f)) (src := be (refLen (gOf f)) ((slba + i) % 2 ^ f.refBits)) (k2.holds (k1.holds h)) hi (by rw [be_length]; exact g5)
        rw [be_length] at w o
        refine ⟨s3, e, k, ?_, ?_, ?_⟩
        · rw [guard_sl ok, guard_sl ok]; exact o _ _ (by omega)
        · rw [app_sl ok, app_sl ok]; exact o _ _ (by omega)
        · rw [ref_sl ok]; exact w
      · rw [if_neg (fun hh => ht (t3.1 hh)), if_neg (fun hh => ht hh.2)]; exact same
    · rw [if_neg hf, if_neg (fun hh => hf hh.1)]; exact same
  obtain ⟨s3, e3, k3, w3, wa3, wr3⟩ := st3
  refine ⟨s3, ?_, idem (idem k1 k2) k3, ?_, ?_, ?_⟩
  · unfold genBlock
    rw [show genGuard (gOf f) d flags (ivOf f) (bo f i) (mo f i) s = some s1 from e1, Option.bind_some,
      show genApp (gOf f) d flags apptag (ivOf f) (bo f i) (mo f i) s1 = some s2 from e2, Option.bind_some]
    exact e3
  · rw [w3, w2, w1]; rfl
  · rw [wa3, wa2, wa1]; rfl
  · rw [wr3, wr2, wr1]; rfl

theorem genLoop_done {d : NsData} {f : Fmt} (m : Match d f) (ok : f.Ok) (flags apptag slba : Nat) :
    ∀ (n k : Nat) (s : Bufs), f.Holds (k + n) s.buf s.md →
    ∃ s', genLoop (gOf f) d flags apptag slba (ivOf f) n k (bo f k) (mo f k) s = some s' ∧
      Keep f (fun i => k ≤ i ∧ i < k + n) s s' ∧
      ∀ i, k ≤ i → i < k + n → Done f (chk flags) apptag slba i s s' := by
  intro n
  induction n with
  | zero => intro k s _; exact ⟨s, rfl, ⟨rfl, rfl, fun _ => rfl, fun _ => rfl, fun _ _ _ => rfl⟩, by intro i h1 h2; omega⟩
  | succ n ih =>
    intro k s h
    obtain ⟨s1, e1, k1, d1⟩ := genBlock_done m ok h (show k < k + (n + 1) by omega) flags apptag slba
    obtain ⟨s', e', k', d'⟩ := ih (k + 1) s1 (by rw [show k + 1 + n = k + (n + 1) by omega]; exact k1.holds h)
    refine ⟨s', ?_, (k1.trans k').mono (fun i hi => by omega), ?_⟩
    · rw [genLoop, e1, Option.bind_eq_bind, Option.bind_some, ← e']
      have e := ext_ne m ok
      by_cases he : f.ext = true
      · rw [if_pos (e.2 he), m.ext]; unfold bo mo; simp [he, Nat.succ_mul]
      · rw [if_neg (fun h => he (e.1 h)), m.ls, m.ms]; unfold bo mo; simp [he, Nat.succ_mul]
    · intro i h1 h2
      rcases Nat.lt_or_ge k i with hk | hk
      · have dd := d' i (by omega) (by omega)
        have c := (k1.covered ok i).2.2.2
        obtain ⟨f1, f2, f3⟩ := k1.fields ok (i := i) (by omega)
        exact ⟨by rw [dd.guard, c, f1], by rw [dd.app, f2], by rw [dd.ref, f3]⟩
      · have : i = k := by omega
        subst this
        obtain ⟨f1, f2, f3⟩ := k'.fields ok (i := i) (by omega)
        exact ⟨by rw [f1, d1.guard], by rw [f2, d1.app], by rw [f3, d1.ref]⟩

end Fio.Nvme
