import Verif.Nvme.Loop
import Verif.Crc.Props
/-
C72: protection information of NVMe I/O.
-/
namespace Fio.Nvme
open Fio.Crc Spec

/-- Bytes of the transfer per block. -/
def bs (f : Fmt) : Nat := if f.ext then f.ls + f.ms else f.ls

theorem slba_eq {d : NsData} {f : Fmt} (m : Match d f) (ok : f.Ok) (a : Nat) (hls : 0 < f.ls) : getSlba d (a * bs f) = a := by
  unfold getSlba bs
  by_cases he : f.ext = true
  · rw [if_pos ((ext_ne m ok).2 he), m.ext]; simp only [he, if_true]; rw [Nat.mul_div_cancel _ (by omega)]
  · rw [if_neg (fun h => he ((ext_ne m ok).1 h)), if_neg he, ← m.shift (by simpa using he), Nat.mul_div_cancel _ hls]

theorem nlb_eq {d : NsData} {f : Fmt} (m : Match d f) (ok : f.Ok) (n : Nat) (hls : 0 < f.ls) (h1 : 1 ≤ n) (h2 : n < 2 ^ 32) :
    (getNlb d (n * bs f) + 1) % 2 ^ 32 = n := by
  unfold getNlb bs
  by_cases he : f.ext = true
  · rw [if_pos ((ext_ne m ok).2 he), m.ext]; simp only [he, if_true]; rw [Nat.mul_div_cancel _ (by omega)]; omega
  · rw [if_neg (fun h => he ((ext_ne m ok).1 h)), if_neg he, ← m.shift (by simpa using he), Nat.mul_div_cancel _ hls]; omega

theorem genGuard_read {d : NsData} {f : Fmt} (m : Match d f) (ok : f.Ok) (w : Bool) (flags : Nat) (hf : flags.testBit 29 = false)
    (pi : PiData) (off len : Nat) (s : Bufs) :
    generateGuard d w flags pi off len s = genPi (gOf f) d w flags pi off len s := by
  have ht : d.piType ≠ 0 := by rw [m.type]; rcases ok.type with h | h | h <;> omega
  unfold generateGuard gOf
  rw [if_pos ⟨ht, by simp [hf]⟩, m.guard]
  cases f.wide <;> simp

theorem verify_eq {d : NsData} {f : Fmt} (m : Match d f) (pi : PiData) (off len : Nat) (s : Bufs) :
    piVerify d pi off len s = verLoop (gOf f) d pi (getSlba d off) ((getNlb d len + 1) % 2 ^ 32) 0 0 0 s := by
  unfold piVerify gOf
  rw [m.guard]
  cases f.wide <;> simp

/-- **C72**, what a write puts into the blocks: for a write of `n` blocks at address `a` the
program produces, in each block, the guard of the data and of the metadata before the protection
information, the application tag and (types 1 and 2) the address of the block, as far as the
corresponding checks are asked for, and changes no other byte. -/
theorem C72_written (d : NsData) (f : Fmt) (m : Match d f) (ok : f.Ok) (hls : 0 < f.ls)
    (flags : Nat) (hf : flags.testBit 29 = false) (pi : PiData) (hp : pi.apptag < 2 ^ 16)
    (a n : Nat) (h1 : 1 ≤ n) (h2 : n < 2 ^ 32) (s : Bufs) (hs : f.Holds n s.buf s.md) :
    ∃ s', generateGuard d true flags pi (a * bs f) (n * bs f) s = some ({ pi with interval := interval (gOf f) d }, s') ∧
      s'.buf.length = s.buf.length ∧ s'.md.length = s.md.length ∧
      (f.ext = true → s'.md = s.md) ∧ (f.ext = false → s'.buf = s.buf) ∧
      ∀ i < n, f.data i s'.buf = f.data i s.buf ∧
        (f.meta i s'.buf s'.md).take f.piOff = (f.meta i s.buf s.md).take f.piOff ∧
        f.behind i s'.buf s'.md = f.behind i s.buf s.md ∧
        (if flags.testBit 28 then num (f.guard i s'.buf s'.md) = f.crc (f.covered i s.buf s.md)
          else f.guard i s'.buf s'.md = f.guard i s.buf s.md) ∧
        (if flags.testBit 27 then num (f.app i s'.buf s'.md) = pi.apptag else f.app i s'.buf s'.md = f.app i s.buf s.md) ∧
        (if flags.testBit 26 = true ∧ f.type ≠ 3 then num (f.ref i s'.buf s'.md) = (a + i) % 2 ^ f.refBits
          else f.ref i s'.buf s'.md = f.ref i s.buf s.md) := by
  obtain ⟨s', e, k, dn⟩ := genLoop_done m ok flags pi.apptag a n 0 s (by simpa using hs)
  refine ⟨s', ?_, k.buf, k.md, k.ext, k.sep, fun i hi => ?_⟩
  · rw [genGuard_read m ok true flags hf]
    unfold genPi
    simp only [not_true, if_false, slba_eq m ok a hls, nlb_eq m ok n hls h1 h2, interval_eq m ok]
    have b0 : bo f 0 = 0 := by unfold bo; simp
    have m0 : mo f 0 = 0 := by unfold mo; simp
    rw [b0, m0] at e
    rw [e]; rfl
  · obtain ⟨c1, c2, c3, -⟩ := k.covered ok i
    have dd := dn i (by omega) (by omega)
    refine ⟨c1, c2, c3, ?_, ?_, ?_⟩
    · have := dd.guard
      split
      · rename_i hb; rw [if_pos (show (chk flags).guard = true from hb)] at this; rw [this, num_be, Nat.mod_eq_of_lt (crc_lt f _)]
      · rename_i hb; rw [if_neg (show ¬ ((chk flags).guard = true) from hb)] at this; exact this
    · have := dd.app
      split
      · rename_i hb; rw [if_pos (show (chk flags).app = true from hb)] at this; rw [this, num_be, Nat.mod_eq_of_lt (by simpa using hp)]
      · rename_i hb; rw [if_neg (show ¬ ((chk flags).app = true) from hb)] at this; exact this
    · have := dd.ref
      split
      · rename_i hb; rw [if_pos (show (chk flags).ref = true ∧ f.type ≠ 3 from hb)] at this
        rw [this, num_be, ← refBits_eq, Nat.mod_mod]
      · rename_i hb; rw [if_neg (show ¬ ((chk flags).ref = true ∧ f.type ≠ 3) from hb)] at this; exact this

/-- **C72**, what a read checks: the verification of a read of `n` blocks at address `a` succeeds
if and only if each block either has checking disabled by its tags or has the right guard,
application tag (up to the mask) and reference tag, as far as they are to be checked. -/
theorem C72_checked (d : NsData) (f : Fmt) (m : Match d f) (ok : f.Ok) (hls : 0 < f.ls)
    (pi : PiData) (hv : pi.interval = interval (gOf f) d)
    (a n : Nat) (h1 : 1 ≤ n) (h2 : n < 2 ^ 32) (s : Bufs) (hs : f.Holds n s.buf s.md) :
    ∃ b, piVerify d pi (a * bs f) (n * bs f) s = some b ∧
      (b = true ↔ ∀ i < n, f.Escaped i s.buf s.md ∨
        f.Right (chk pi.ioFlags) pi.apptag pi.apptagMask (a + i) i s.buf s.md) := by
  obtain ⟨b, e, hb⟩ := verLoop_iff m ok s pi (by rw [hv, interval_eq m ok]) a n 0 (by simpa using hs)
  refine ⟨b, ?_, ?_⟩
  · rw [verify_eq m, slba_eq m ok a hls, nlb_eq m ok n hls h1 h2, ← e]
    have b0 : bo f 0 = 0 := by unfold bo; simp
    have m0 : mo f 0 = 0 := by unfold mo; simp
    rw [b0, m0]
  · rw [hb]
    exact ⟨fun hh i hi => hh i (by omega) (by omega), fun hh i _ hi => hh i (by omega)⟩

/-- The preparation of a read only sets the interval. -/
theorem C72_read_prep (d : NsData) (f : Fmt) (m : Match d f) (ok : f.Ok) (flags : Nat) (hf : flags.testBit 29 = false)
    (pi : PiData) (off len : Nat) (s : Bufs) :
    generateGuard d false flags pi off len s = some ({ pi with interval := interval (gOf f) d }, s) := by
  rw [genGuard_read m ok false flags hf]; rfl

/-- **C72**, reading back: what a write produced passes the verification of a read of the same
blocks, whatever the mask and the rest of the buffers. -/
theorem C72_roundtrip (d : NsData) (f : Fmt) (m : Match d f) (ok : f.Ok) (hls : 0 < f.ls)
    (pi : PiData) (hf : pi.ioFlags.testBit 29 = false) (hp : pi.apptag < 2 ^ 16)
    (a n : Nat) (h1 : 1 ≤ n) (h2 : n < 2 ^ 32) (s : Bufs) (hs : f.Holds n s.buf s.md) :
    ∃ pi' s', generateGuard d true pi.ioFlags pi (a * bs f) (n * bs f) s = some (pi', s') ∧
      piVerify d pi' (a * bs f) (n * bs f) s' = some true := by
  obtain ⟨s', e, l1, l2, x1, x2, hh⟩ := C72_written d f m ok hls pi.ioFlags hf pi hp a n h1 h2 s hs
  refine ⟨_, s', e, ?_⟩
  have hs' : f.Holds n s'.buf s'.md := by unfold Fmt.Holds at *; rw [l1, l2]; exact hs
  obtain ⟨b, e', hb⟩ := C72_checked d f m ok hls { pi with interval := interval (gOf f) d } rfl a n h1 h2 s' hs'
  rw [e']
  congr 1
  rw [hb]
  intro i hi
  obtain ⟨c1, c2, c3, g, ap, r⟩ := hh i hi
  right
  refine ⟨fun hg => ?_, fun ha => ?_, fun hr ht => ?_⟩
  · simp only [chk] at hg
    rw [if_pos hg] at g
    rw [g]; unfold Fmt.covered; rw [c1, c2]
  · simp only [chk] at ha
    rw [if_pos ha] at ap
    rw [ap]
  · simp only [chk] at hr
    rw [if_pos ⟨hr, ht⟩] at r
    exact r

/-- Damage within as many bits in a row as the guard has changes the guard. -/
theorem crc_burst (f : Fmt) (x y : List Byte)
    (h : if f.wide then Burst 64 (bitsR x) (bitsR y) else Burst 16 (bitsL x) (bitsL y)) : f.crc x ≠ f.crc y := by
  unfold Fmt.crc
  cases hw : f.wide <;> simp only [hw, if_true, Bool.false_eq_true, if_false] at h ⊢
  · intro e
    exact (C20_burst x y).2.2.2.2.2.2 h 0#16 (by rw [crcT10dif_serial, crcT10dif_serial]; exact BitVec.eq_of_toNat_eq e)
  · intro e
    exact (C20_burst x y).2.2.2.2.2.1 h 0#64 (by rw [crc64nvme_serial, crc64nvme_serial]; exact BitVec.eq_of_toNat_eq e)

/-- **C72**, damaged data: if a read with the guard check passes, a read that differs in one block
whose checking is not disabled, with the same protection information there but with the covered
bytes changed within as many bits in a row as the guard has, fails. -/
theorem C72_damage (d : NsData) (f : Fmt) (m : Match d f) (ok : f.Ok) (hls : 0 < f.ls)
    (pi : PiData) (hv : pi.interval = interval (gOf f) d) (hg : pi.ioFlags.testBit 28 = true)
    (a n : Nat) (h1 : 1 ≤ n) (h2 : n < 2 ^ 32) (s t : Bufs) (hs : f.Holds n s.buf s.md) (ht : f.Holds n t.buf t.md)
    (pass : piVerify d pi (a * bs f) (n * bs f) s = some true)
    (i : Nat) (hi : i < n) (hne : ¬ f.Escaped i s.buf s.md)
    (same : f.pi i t.buf t.md = f.pi i s.buf s.md)
    (dmg : if f.wide then Burst 64 (bitsR (f.covered i s.buf s.md)) (bitsR (f.covered i t.buf t.md))
      else Burst 16 (bitsL (f.covered i s.buf s.md)) (bitsL (f.covered i t.buf t.md))) :
    piVerify d pi (a * bs f) (n * bs f) t = some false := by
  obtain ⟨b, e, hb⟩ := C72_checked d f m ok hls pi hv a n h1 h2 s hs
  obtain ⟨b', e', hb'⟩ := C72_checked d f m ok hls pi hv a n h1 h2 t ht
  rw [e] at pass
  have r := (hb.1 (by simpa using pass) i hi).resolve_left hne
  rw [e']
  congr 1
  cases b' with
  | false => rfl
  | true =>
    exfalso
    have hg' : f.guard i t.buf t.md = f.guard i s.buf s.md := by unfold Fmt.guard; rw [same]
    have hesc : ¬ f.Escaped i t.buf t.md := by
      have ha : f.app i t.buf t.md = f.app i s.buf s.md := by unfold Fmt.app; rw [same]
      have hr : f.ref i t.buf t.md = f.ref i s.buf s.md := by unfold Fmt.ref; rw [same]
      unfold Fmt.Escaped at *; rw [ha, hr]; exact hne
    have r' := (hb'.1 rfl i hi).resolve_left hesc
    have q := r.guard hg
    have q' := r'.guard hg
    rw [hg', q] at q'
    exact crc_burst f _ _ dmg q'

/-- **C72**, one damaged bit of the data of a block is detected. -/
theorem C72_bit (d : NsData) (f : Fmt) (m : Match d f) (ok : f.Ok) (hls : 0 < f.ls)
    (pi : PiData) (hv : pi.interval = interval (gOf f) d) (hg : pi.ioFlags.testBit 28 = true)
    (a n : Nat) (h1 : 1 ≤ n) (h2 : n < 2 ^ 32) (s t : Bufs) (hs : f.Holds n s.buf s.md) (ht : f.Holds n t.buf t.md)
    (pass : piVerify d pi (a * bs f) (n * bs f) s = some true)
    (i : Nat) (hi : i < n) (hne : ¬ f.Escaped i s.buf s.md)
    (same : f.pi i t.buf t.md = f.pi i s.buf s.md)
    (x z : List Byte) (b : Byte) (j : Nat) (hj : j < 8)
    (hx : f.covered i s.buf s.md = x ++ b :: z) (hy : f.covered i t.buf t.md = x ++ (b ^^^ BitVec.twoPow 8 j) :: z) :
    piVerify d pi (a * bs f) (n * bs f) t = some false := by
  refine C72_damage d f m ok hls pi hv hg a n h1 h2 s t hs ht pass i hi hne same ?_
  rw [hx, hy]
  split
  · exact burst_flipR 64 (by decide) x z b j hj
  · exact burst_flipL 16 (by decide) x z b j hj

/-- **C72**, damaged guard or tags, wrong address: a block whose checking is not disabled and whose
guard differs from that of its covered bytes, or whose application tag differs from the expected one
in a bit of the mask, or (types 1 and 2) whose reference tag is not its address, fails the
verification. -/
theorem C72_tags (d : NsData) (f : Fmt) (m : Match d f) (ok : f.Ok) (hls : 0 < f.ls)
    (pi : PiData) (hv : pi.interval = interval (gOf f) d)
    (a n : Nat) (h1 : 1 ≤ n) (h2 : n < 2 ^ 32) (s : Bufs) (hs : f.Holds n s.buf s.md)
    (i : Nat) (hi : i < n) (hne : ¬ f.Escaped i s.buf s.md)
    (bad : (pi.ioFlags.testBit 28 = true ∧ num (f.guard i s.buf s.md) ≠ f.crc (f.covered i s.buf s.md)) ∨
      (pi.ioFlags.testBit 27 = true ∧
        ∃ k, pi.apptagMask.testBit k = true ∧ (num (f.app i s.buf s.md)).testBit k ≠ pi.apptag.testBit k) ∨
      (pi.ioFlags.testBit 26 = true ∧ f.type ≠ 3 ∧ num (f.ref i s.buf s.md) ≠ (a + i) % 2 ^ f.refBits)) :
    piVerify d pi (a * bs f) (n * bs f) s = some false := by
  obtain ⟨b, e, hb⟩ := C72_checked d f m ok hls pi hv a n h1 h2 s hs
  rw [e]
  congr 1
  cases b with
  | false => rfl
  | true =>
    exfalso
    have r := (hb.1 rfl i hi).resolve_left hne
    rcases bad with ⟨h, hg⟩ | ⟨h, k, hk, ha⟩ | ⟨h, ht, hr⟩
    · exact hg (r.guard h)
    · have := congrArg (fun v => Nat.testBit v k) (r.app h)
      simp only [Nat.testBit_and, hk, Bool.and_true] at this
      exact ha this
    · exact hr (r.ref h ht)

/-- **C72**, misplaced blocks: blocks written at address `a` do not pass as blocks read at an
address that differs from it in the bits of the reference tag (types 1 and 2, application tag not
all ones). -/
theorem C72_misplaced (d : NsData) (f : Fmt) (m : Match d f) (ok : f.Ok) (hls : 0 < f.ls) (ht : f.type ≠ 3)
    (pi : PiData) (hf : pi.ioFlags.testBit 29 = false) (hp : pi.apptag < 2 ^ 16 - 1) (ha : pi.ioFlags.testBit 27 = true)
    (hr : pi.ioFlags.testBit 26 = true)
    (a b n : Nat) (hab : a % 2 ^ f.refBits ≠ b % 2 ^ f.refBits)
    (h1 : 1 ≤ n) (h2 : n < 2 ^ 32) (s : Bufs) (hs : f.Holds n s.buf s.md) :
    ∃ pi' s', generateGuard d true pi.ioFlags pi (a * bs f) (n * bs f) s = some (pi', s') ∧
      piVerify d pi' (b * bs f) (n * bs f) s' = some false := by
  obtain ⟨s', e, l1, l2, x1, x2, hh⟩ := C72_written d f m ok hls pi.ioFlags hf pi (by omega) a n h1 h2 s hs
  refine ⟨_, s', e, ?_⟩
  have hs' : f.Holds n s'.buf s'.md := by unfold Fmt.Holds at *; rw [l1, l2]; exact hs
  obtain ⟨-, -, -, -, ap, r⟩ := hh 0 (by omega)
  rw [if_pos ha] at ap
  rw [if_pos ⟨hr, ht⟩] at r
  refine C72_tags d f m ok hls _ rfl b n h1 h2 s' hs' 0 (by omega) ?_ (.inr (.inr ⟨hr, ht, ?_⟩))
  · intro h; have := h.1; rw [ap] at this; omega
  · rw [r]; simpa using hab

/-- The format of a device that has protection information, from the fields of the standard. -/
def fmtOf (x : Ident) (ds ms g : Nat) : Fmt :=
  { ls := 2 ^ ds, ms := ms, ext := x.flbas.testBit 4, first := x.dps.testBit 3, wide := g == 2, type := x.dps % 8 }

/-- The format index a device reports: bits 0 to 3, and with more than 16 formats bits 5 and 6. -/
def fmtIdx (x : Ident) : Nat := x.flbas % 16 + if 16 ≤ x.nlbaf then 16 * (x.flbas / 32 % 4) else 0

/-- **C72**, geometry: for a device with protection information (types 1 to 3, guards of 16 or 64
bits without storage tags that fit into the metadata) the program computes the data its functions
rely on in the theorems above. -/
theorem C72_geometry (x : Ident) (ds ms g : Nat) (hx : x.lbaf[fmtIdx x]? = some (ds, ms)) (hds : ds < 31)
    (hms : ms < 2 ^ 16) (hfit : (if g = 2 then 16 else 8) ≤ ms) (ht : x.dps % 8 = 1 ∨ x.dps % 8 = 2 ∨ x.dps % 8 = 3)
    (hg : g = 0 ∨ g = 2)
    (he : if x.elbas then ∃ e, x.elbaf[fmtIdx x]? = some e ∧ e % 128 = 0 ∧ e / 128 % 4 = g else g = 0) :
    ∃ d, getInfo x false = some (some d) ∧ Match d (fmtOf x ds ms g) ∧ (fmtOf x ds ms g).Ok ∧ 0 < (fmtOf x ds ms g).ls := by
  have hidx : (if x.nlbaf < 16 then x.flbas % 16 else x.flbas % 16 + (x.flbas / 2 ^ 5 % 4) * 16) = fmtIdx x := by
    unfold fmtIdx; split <;> split <;> omega
  have hm0 : ms ≠ 0 := by split at hfit <;> omega
  have ht0 : x.dps % 8 ≠ 0 := by omega
  have h4 : x.flbas.testBit 4 = decide (x.flbas / 2 ^ 4 % 2 = 1) := Nat.testBit_eq_decide_div_mod_eq
  have hp : 2 ^ ds ≤ 2 ^ 30 := Nat.pow_le_pow_right (by decide) (by omega)
  have okf : (fmtOf x ds ms g).Ok := by
    refine ⟨?_, ht⟩
    unfold Fmt.size fmtOf
    rcases hg with rfl | rfl <;> simpa using hfit
  have mk : ∀ d, d.lbaSize = 2 ^ ds → d.ms = ms → d.piType = x.dps % 8 → d.guardType = g → d.piLoc = x.dps.testBit 3 →
      d.lbaExt = (if x.flbas / 2 ^ 4 % 2 = 1 then 2 ^ ds + ms else 0) → (¬ x.flbas / 2 ^ 4 % 2 = 1 → d.lbaShift = ds) →
      Match d (fmtOf x ds ms g) := by
    intro d e1 e2 e3 e4 e5 e6 e7
    refine ⟨e1, e2, e3, ?_, e5, ?_, ?_, ?_⟩
    · rw [e4]; unfold fmtOf; rcases hg with rfl | rfl <;> rfl
    · rw [e6]; unfold fmtOf; simp only [h4, decide_eq_true_eq]
    · unfold fmtOf; simp only [h4, decide_eq_false_iff_not]; intro h; rw [e7 h]
    · unfold fmtOf; simp only; omega
  have hls : 0 < (fmtOf x ds ms g).ls := Nat.two_pow_pos ds
  unfold getInfo
  dsimp only
  rw [hidx, hx]
  dsimp only
  rw [if_neg (by omega), if_pos hm0, if_neg ht0]
  cases hel : x.elbas
  · rw [hel] at he
    have hg0 : g = 0 := by simpa using he
    refine ⟨_, rfl, mk _ ?_ ?_ ?_ ?_ ?_ ?_ ?_, okf, hls⟩ <;>
      by_cases hb : x.flbas / 16 % 2 = 1 <;> simp [hb, hm0, hg0]
  · rw [hel] at he
    obtain ⟨e, e1, e2, e3⟩ := by simpa using he
    rw [if_pos rfl, e1]
    dsimp only
    rw [if_neg (by omega)]
    refine ⟨_, rfl, mk _ ?_ ?_ ?_ ?_ ?_ ?_ ?_, okf, hls⟩ <;>
      by_cases hb : x.flbas / 16 % 2 = 1 <;> simp [hb, hm0, e3]

/-! ## Cases -/

/-- A device with 512+8 byte extended blocks, type 1. -/
def ident1 : Ident := { nlbaf := 3, flbas := 0x11, dps := 1, lbaf := [(9, 0), (9, 8), (12, 0), (12, 64)], elbas := false, elbaf := [] }

/-- A device with 4096 byte blocks and 64 bytes of separate metadata, 64 bit guards at the front, type 2. -/
def ident2 : Ident := { nlbaf := 3, flbas := 0x03, dps := 0xA, lbaf := [(9, 0), (9, 8), (12, 0), (12, 64)], elbas := true, elbaf := [0, 0, 0, 0x100] }

example : getInfo ident1 false = some (some { lbaSize := 512, lbaExt := 520, ms := 8, piSize := 8, piType := 1 }) := by decide
example : getInfo ident2 false = some (some { lbaShift := 12, lbaSize := 4096, ms := 64, piSize := 16, piType := 2, guardType := 2, piLoc := true }) := by decide

example : ∃ d, getInfo ident2 false = some (some d) ∧ Match d (fmtOf ident2 12 64 2) ∧ (fmtOf ident2 12 64 2).Ok ∧ 0 < (fmtOf ident2 12 64 2).ls :=
  C72_geometry ident2 12 64 2 rfl (by decide) (by decide) (by decide) (by decide) (by decide) (by simp [ident2, fmtIdx])

/-- A small format, to compute with: 4 data bytes and 10 bytes of metadata. -/
def dSmall : NsData := { lbaShift := 2, lbaSize := 4, ms := 10, piSize := 8, piType := 1 }
def fSmall : Fmt := { ls := 4, ms := 10, ext := false, first := false, wide := false, type := 1 }
def sSmall : Bufs := { buf := [1, 2, 3, 4, 5, 6, 7, 8], md := List.replicate 20 0 }
/-- All three checks. -/
def allChk : Nat := 2 ^ 26 + 2 ^ 27 + 2 ^ 28

theorem small_match : Match dSmall fSmall ∧ fSmall.Ok :=
  ⟨⟨rfl, rfl, rfl, rfl, rfl, rfl, fun _ => rfl, by decide⟩, ⟨by decide, by decide⟩⟩

/-- Two blocks written at address 5: guard, tag and address of each. -/
example : (generateGuard dSmall true allChk { ioFlags := allChk, apptag := 0x1234, apptagMask := 0xffff } 20 8 sSmall).map (·.2.md) =
    some [0, 0, 115, 52, 18, 52, 0, 0, 0, 5, 0, 0, 144, 100, 18, 52, 0, 0, 0, 6] := by decide +kernel

theorem small_holds : fSmall.Holds 2 sSmall.buf sSmall.md := ⟨by decide, by decide⟩

/-- The blocks pass when read at address 5 ... -/
def sRead : Bufs := { buf := sSmall.buf, md := [0, 0, 115, 52, 18, 52, 0, 0, 0, 5, 0, 0, 144, 100, 18, 52, 0, 0, 0, 6] }
def piRd : PiData := { interval := 2, ioFlags := allChk, apptag := 0x1234, apptagMask := 0xffff }
example : piVerify dSmall piRd 20 8 sRead = some true := by decide +kernel

/-- ... and not with a bit of the data of the second block changed. -/
example : piVerify dSmall piRd (5 * bs fSmall) (2 * bs fSmall) { sRead with buf := [1, 2, 3, 4, 5, 6, 0x47, 8] } = some false :=
  C72_bit dSmall fSmall small_match.1 small_match.2 (by decide) piRd rfl (by decide) 5 2 (by decide) (by decide) sRead
    { sRead with buf := [1, 2, 3, 4, 5, 6, 0x47, 8] } ⟨by decide, by decide⟩ ⟨by decide, by decide⟩ (by decide +kernel) 1 (by decide)
    (fun h => absurd h.1 (by decide)) rfl [5, 6] [8, 0, 0] 7 6 (by decide) (by decide) (by decide)

example : ∃ pi' s', generateGuard dSmall true allChk { ioFlags := allChk, apptag := 0x1234, apptagMask := 0xffff } (5 * bs fSmall) (2 * bs fSmall) sSmall = some (pi', s') ∧
    piVerify dSmall pi' (6 * bs fSmall) (2 * bs fSmall) s' = some false :=
  C72_misplaced dSmall fSmall small_match.1 small_match.2 (by decide) (by decide) { ioFlags := allChk, apptag := 0x1234, apptagMask := 0xffff }
    (by decide) (by decide) (by decide) (by decide) 5 6 2 (by decide) (by decide) (by decide) sSmall small_holds

/-- **C72**, the exceptions are real.  With the application tag 0xFFFF, which the option accepts, what is
written passes with any other data; the same holds if damage turns the application tag into 0xFFFF. -/
theorem C72_escape_counterexample :
    (∃ s', generateGuard dSmall true allChk { ioFlags := allChk, apptag := 0xFFFF, apptagMask := 0xffff } 20 8 sSmall =
      some ({ piRd with apptag := 0xFFFF }, s') ∧
      ∀ buf : List Byte, 8 ≤ buf.length → piVerify dSmall { piRd with apptag := 0xFFFF } 20 8 { s' with buf := buf } = some true) ∧
    ∃ md, (∀ i, i ≠ 4 ∧ i ≠ 5 → md[i]? = sRead.md[i]?) ∧ piVerify dSmall piRd 20 4 { sRead with md := md } = some true ∧
      piVerify dSmall piRd 20 4 { buf := [9, 9, 9, 9], md := md } = some true := by
  refine ⟨⟨⟨sSmall.buf, [0, 0, 115, 52, 255, 255, 0, 0, 0, 5, 0, 0, 144, 100, 255, 255, 0, 0, 0, 6]⟩, by decide +kernel, ?_⟩,
    [0, 0, 115, 52, 255, 255, 0, 0, 0, 5, 0, 0, 144, 100, 18, 52, 0, 0, 0, 6], ?_, by decide +kernel, by decide +kernel⟩
  · intro buf hb
    obtain ⟨b, e, h⟩ := C72_checked dSmall fSmall small_match.1 small_match.2 (by decide) { piRd with apptag := 0xFFFF } rfl 5 2 (by decide) (by decide)
      ⟨buf, [0, 0, 115, 52, 255, 255, 0, 0, 0, 5, 0, 0, 144, 100, 255, 255, 0, 0, 0, 6]⟩ ⟨hb, Nat.le_refl 20⟩
    refine e.trans (congrArg some (h.2 ?_))
    intro i hi
    left
    match i, hi with
    | 0, _ => exact ⟨rfl, fun h => absurd h (by decide)⟩
    | 1, _ => exact ⟨rfl, fun h => absurd h (by decide)⟩
  · intro i hi
    match i, hi with
    | 0, _ | 1, _ | 2, _ | 3, _ => rfl
    | 4, h => exact absurd rfl h.1
    | 5, h => exact absurd rfl h.2
    | n + 6, _ => rfl

/-- **C72**: a device with 32 bit guards (type 1 of the guard field) and no storage tag is accepted, and nothing
is generated or checked on it. -/
theorem C72_guard32_counterexample :
    ∃ (x : Ident) (d : NsData), getInfo x false = some (some d) ∧ d.piType = 1 ∧
      (∀ flags pi off len s, generateGuard d true flags pi off len s = some (pi, s)) ∧
      ∀ pi off len s, piVerify d pi off len s = some true := by
  refine ⟨{ ident2 with dps := 1, elbaf := [0, 0, 0, 0x80] },
    { lbaShift := 12, lbaSize := 4096, ms := 64, piType := 1, guardType := 1 }, by decide, by decide, ?_, ?_⟩
  · intro flags pi off len s
    unfold generateGuard
    split <;> simp
  · intro pi off len s
    simp [piVerify]

end Fio.Nvme
