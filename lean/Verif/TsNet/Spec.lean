import Verif.TsNet.Model

namespace Fio.TsNet

/-- The members of a `struct clat_prio_stat` (/repo/stat.h:160-164): where, how many bytes, is it a double. -/
def Member (off w : Nat) (fp : Bool) : Prop :=
  (∃ k, k < 1856 ∧ off = 8 * k ∧ w = 8 ∧ fp = false) ∨
  ((off = 14848 ∨ off = 14856 ∨ off = 14864) ∧ w = 8 ∧ fp = false) ∨
  ((off = 14872 ∨ off = 14888) ∧ w = 8 ∧ fp = true) ∨
  (off = 14904 ∧ w = 4 ∧ fp = false)

/-- A number of priorities or of elements of the rings, as the host reads it. -/
def num (be : Bool) (h : Head) (f : F) (i : Nat) : Nat := dec be (h f i)

/-- A job as fio has it: elements have their bytes, doubles are such that can be sent (C51), arrays have at most their elements, numbers of
elements fit an `int`, strings end. -/
structure Ok (fp : Fp) (be : Bool) (ts : Ts) : Prop where
  bytes : ∀ f i, (ts.h f i).length = width f
  fps : ∀ f, isFp f = true → ∀ i, i < cnt f → fp.unpack (fp.pack (num be ts.h f i)) = num be ts.h f i
  block : num be ts.h .nrBlock 0 ≤ 8192
  dur : (num be ts.h .ssState 0).testBit 5 = true → num be ts.h .ssDur 0 < 2 ^ 31
  nr : ∀ i, i < 3 → num be ts.h .nrPrio i < 2 ^ 31
  prio : ∀ i, i < 3 → ∀ j, j < num be ts.h .nrPrio i → ∀ off w d, Member off w d →
    ts.prio i j off < 256 ^ w ∧ (d = true → fp.unpack (fp.pack (ts.prio i j off)) = ts.prio i j off)
  ring : ∀ k, k < num be ts.h .ssDur 0 → ts.iops k < 256 ^ 8 ∧ ts.bw k < 256 ^ 8 ∧ ts.lat k < 256 ^ 8
  name : ts.name.length = 128 ∧ (0 : Byte) ∈ ts.name
  verror : ts.verror.length = 128 ∧ (0 : Byte) ∈ ts.verror
  desc : ts.desc.length = 256 ∧ (0 : Byte) ∈ ts.desc

/-- Fields that are no numbers of a job but places in the message. -/
def Place (f : F) : Prop := f = .prioOff ∨ f = .ssIopsOff ∨ f = .ssBwOff ∨ f = .ssLatOff

/-- The string in an array. -/
def Str (a s : List Byte) : Prop := (0 : Byte) ∉ s ∧ ∃ t, a = s ++ 0 :: t

/-- The client has what the server had. -/
structure Same (sb cb : Bool) (ts : Ts) (r : Got) : Prop where
  nums : ∀ f, ¬ Place f → f ≠ .block → ∀ i, i < cnt f → num cb r.h f i = num sb ts.h f i
  block : ∀ i, i < num sb ts.h .nrBlock 0 → num cb r.h .block i = num sb ts.h .block i
  prio : ∀ i, i < 3 → ∀ j, j < num sb ts.h .nrPrio i → ∀ off w d, Member off w d →
    r.prio i + j * 14912 + off + w ≤ r.e.size ∧ dec cb (r.e.bytes (r.prio i + j * 14912 + off) w) = ts.prio i j off
  ring : (num sb ts.h .ssState 0).testBit 5 = true → ∀ k, k < num sb ts.h .ssDur 0 →
    dec cb (r.e.bytes (r.iops + 8 * k) 8) = ts.iops k ∧ dec cb (r.e.bytes (r.bw + 8 * k) 8) = ts.bw k ∧
    dec cb (r.e.bytes (r.lat + 8 * k) 8) = ts.lat k
  name : ∀ s, Str ts.name s → Str r.name s
  verror : ∀ s, Str ts.verror s → Str r.verror s
  desc : ∀ s, Str ts.desc s → Str r.desc s

end Fio.TsNet
