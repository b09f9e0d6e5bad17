import Verif.Buf.Spec
import Verif.Buf.Lemmas
/-
C52: the data buffers of the I/O units.  C53: aligned allocation.
-/
namespace Fio.Buf

/-- The size computed is enough for all units and for the alignment of the first. -/
theorem origSize_ge {c : Cfg} (hr : Roomy c) (hh : 0 < c.hp) :
    c.stride * c.depth + (if c.aligned then c.page - 1 + c.memAlign else 0) ≤ c.origSize ∧
      c.origSize ≤ c.stride * c.depth + c.page + c.memAlign + c.hp := by
  have hlim : (if c.mem = .shm ∨ c.mem = .shmhuge ∨ c.mem = .mmaphuge then 2 ^ 32 else 2 ^ 64) ≤
      2 ^ 64 := by split <;> decide
  unfold Roomy at hr
  unfold Cfg.origSize
  have e0 : c.stride * c.depth % 2 ^ 64 = c.stride * c.depth := Nat.mod_eq_of_lt (by omega)
  have e1 : (if c.aligned then (c.stride * c.depth + (c.page - 1) + c.memAlign) % 2 ^ 64
      else c.stride * c.depth) =
      c.stride * c.depth + (if c.aligned then c.page - 1 + c.memAlign else 0) := by
    split
    · rw [Nat.mod_eq_of_lt (by omega)]; omega
    · rfl
  have ha : (if c.aligned then c.page - 1 + c.memAlign else 0) ≤ c.page + c.memAlign := by
    split <;> omega
  simp only [e0, e1]
  generalize (if c.aligned then c.page - 1 + c.memAlign else 0) = a at *
  generalize c.stride * c.depth = s at *
  by_cases hhuge : c.huge
  · have hm : c.mem = .shm ∨ c.mem = .shmhuge ∨ c.mem = .mmaphuge := by
      simp only [Cfg.huge, Bool.or_eq_true, beq_iff_eq] at hhuge
      exact Or.inr hhuge
    rw [if_pos hm] at hr
    rw [if_pos hhuge, Nat.mod_eq_of_lt (by omega)]
    have h := andNot_le (k := 32) (x := s + a + (c.hp - 1)) (m := c.hp - 1) (by omega) (by omega)
    omega
  · rw [if_neg hhuge]
    omega

theorem totalMem_ge {c : Cfg} (hr : Roomy c) (hh : 0 < c.hp) :
    c.origSize ≤ c.totalMem ∧
      c.totalMem ≤ c.stride * c.depth + 2 * c.page + 2 * c.memAlign + c.hp := by
  have hlim : (if c.mem = .shm ∨ c.mem = .shmhuge ∨ c.mem = .mmaphuge then 2 ^ 32 else 2 ^ 64) ≤
      2 ^ 64 := by split <;> decide
  have ho := origSize_ge hr hh
  unfold Roomy at hr
  unfold Cfg.totalMem
  generalize c.origSize = o at *
  generalize c.stride * c.depth = s at *
  generalize hX : (if c.aligned then c.page - 1 + c.memAlign else 0) = a at *
  split
  · have e : (o + (c.page - 1)) % 2 ^ 64 = o + (c.page - 1) := Nat.mod_eq_of_lt (by omega)
    simp only [e]
    split
    · rw [Nat.mod_eq_of_lt (by omega)]; omega
    · omega
  · omega

theorem allocLen_ge {c : Cfg} (hr : Roomy c) (hh : 0 < c.hp) : c.origSize ≤ c.allocLen := by
  have ht := totalMem_ge hr hh
  unfold Roomy at hr
  unfold Cfg.allocLen
  generalize c.origSize = o at *
  generalize c.totalMem = t at *
  generalize c.stride * c.depth = s at *
  cases hm : c.mem with
  | malloc | mmap | mmapshared | engine => exact ht.1
  | shm =>
    simp only [hm, true_or, if_true] at hr ⊢
    rw [Nat.mod_eq_of_lt (by omega)]; exact ht.1
  | shmhuge =>
    simp only [hm, true_or, or_true, if_true] at hr ⊢
    rw [Nat.mod_eq_of_lt (by omega : t < 2 ^ 32), Nat.mod_eq_of_lt (by omega : t + (c.hp - 1) < 2 ^ 64)]
    have h := andNot_le (k := 64) (x := t + (c.hp - 1)) (m := c.hp - 1) (by omega) (by omega)
    rw [Nat.mod_eq_of_lt (by omega)]
    omega
  | mmaphuge =>
    simp only [hm, or_true, if_true] at hr ⊢
    rw [Nat.mod_eq_of_lt (by omega : t + (c.hp - 1) < 2 ^ 64)]
    have h := andNot_le (k := 64) (x := t + (c.hp - 1)) (m := c.hp - 1) (by omega) (by omega)
    omega

/-- Where the first buffer lies. -/
theorem first_spec {c : Cfg} {base : Nat} (hr : Roomy c) (hp : PageOk c) (hh : 0 < c.hp)
    (hb : base + c.allocLen < 2 ^ 64) :
    base ≤ c.first base ∧ c.first base + c.stride * c.depth ≤ base + c.allocLen ∧
      (c.aligned = true → ∃ k, c.first base = c.page * k + c.memAlign) := by
  obtain ⟨j, hj, hpj⟩ := hp
  have ho := (origSize_ge hr hh).1
  have hal := allocLen_ge hr hh
  have hp0 := Nat.two_pow_pos j
  unfold Cfg.first
  by_cases ha : c.aligned
  · rw [if_pos ha] at ho
    have hs := ptrAlign_spec (ptr := base) (j := j) (by omega) (by omega)
    rw [if_pos ha, hpj, Nat.mod_eq_of_lt (by omega)]
    obtain ⟨s1, s2, k, s3⟩ := hs
    refine ⟨by omega, by omega, fun _ => ⟨k, ?_⟩⟩
    rw [s3]
  · rw [if_neg ha] at ho
    rw [if_neg ha]
    exact ⟨by omega, by omega, fun h => absurd h ha⟩

theorem need_le_stride {c : Cfg} (hpu : Pure c) : c.need ≤ c.stride ∧ c.fillLen ≤ c.stride := by
  unfold Cfg.need Cfg.stride Cfg.fillLen
  by_cases hm : c.multi
  · obtain ⟨h1, h2⟩ := hpu hm
    simp only [Cfg.multi, Bool.and_eq_true, decide_eq_true_eq] at hm
    simp [h1, h2, hm.1, hm.2, Cfg.multi, Nat.mul_comm]
  · rw [if_neg hm]
    have hm' : ¬ (c.tr = true ∧ 1 < c.numRange) := by
      simpa only [Cfg.multi, Bool.and_eq_true, decide_eq_true_eq] using hm
    rw [if_neg hm']
    unfold Cfg.maxBs
    have h1 : (if c.rd then c.rbs else 0) ≤ c.rbs := by split <;> omega
    have h2 : (if c.wr then c.wbs else 0) ≤ c.wbs := by split <;> omega
    generalize (if c.rd then c.rbs else 0) = a at *
    generalize (if c.wr then c.wbs else 0) = b at *
    constructor
    · by_cases hc : c.trimVerify || (!c.readIolog && (c.tr && c.wr))
      · rw [if_pos hc]
        split <;> omega
      · rw [if_neg hc, if_neg]
        · omega
        · rintro ⟨_, h⟩
          apply hc
          rcases h with h | ⟨h1, h2, h3⟩
          · simp [h]
          · simp [h1, h2, h3]
    · split <;> omega

/-- C52.  Whatever the block sizes, the queue depth, the alignment and the kind of memory, as long
as the sizes fit the C types and the page size is a power of two: every I/O unit has a buffer if the
job needs one, the buffers lie inside the memory the system gave, and no two of them overlap. -/
theorem buffers_good {c : Cfg} {base : Nat} (hr : Roomy c) (hp : PageOk c) (hh : 0 < c.hp)
    (hpu : Pure c) (hg : Granted c base) : Good c base := by
  obtain ⟨f1, f2, _⟩ := first_spec hr hp hh hg.2
  have hb := hg.2
  obtain ⟨hn, hn'⟩ := need_le_stride hpu
  have hle : ∀ i, i < c.depth → c.stride * i + c.stride ≤ c.stride * c.depth := by
    intro i hi
    have : c.stride * (i + 1) ≤ c.stride * c.depth := Nat.mul_le_mul_left _ hi
    rwa [Nat.mul_add, Nat.mul_one] at this
  have hbuf : ∀ i, i < c.depth → c.buf base i = c.first base + c.stride * i := by
    intro i hi
    have := hle i hi
    rw [buf_eq (by rw [Nat.mul_comm]; omega), Nat.mul_comm]
  refine ⟨fun i hi hno hpos => ?_, fun i j p q hi hj hij h1 h2 => ?_⟩
  · have := hle i hi
    have hx : c.dataXfer = true := by
      unfold Cfg.dataXfer
      rw [hno]
      cases h1 : c.rd <;> cases h2 : c.wr <;> cases h3 : c.multi <;> simp
      unfold Cfg.need at hpos
      simp only [Cfg.multi, Bool.and_eq_false_iff, decide_eq_false_iff_not] at h3
      rw [if_neg (by simp [h1]), if_neg (by simp [h2]), if_neg (by simp [h1, h2]),
        if_neg (by rintro ⟨a, b⟩; rcases h3 with h | h <;> simp_all)] at hpos
      simp at hpos
    refine ⟨c.buf base i, if_pos hx, ?_, ?_, ?_⟩ <;> rw [hbuf i hi] <;> omega
  · unfold Cfg.ioBuf at h1 h2
    split at h1
    · rename_i hx
      rw [if_pos hx] at h2
      obtain rfl : c.buf base i = p := by simpa using h1
      obtain rfl : c.buf base j = q := by simpa using h2
      rw [hbuf i hi, hbuf j hj]
      unfold Apart
      rcases Nat.lt_or_gt_of_ne hij with h | h
      · have : c.stride * (i + 1) ≤ c.stride * j := Nat.mul_le_mul_left _ h
        rw [Nat.mul_add, Nat.mul_one] at this
        constructor <;> left <;> omega
      · have : c.stride * (j + 1) ≤ c.stride * i := Nat.mul_le_mul_left _ h
        rw [Nat.mul_add, Nat.mul_one] at this
        constructor <;> right <;> omega
    · cases h1

/-- C52, alignment.  With direct I/O, a raw engine or `iomem_align`, the first buffer is `iomem_align`
bytes behind a page boundary; so are all others when the block size is a multiple of the page. -/
theorem buffers_aligned {c : Cfg} {base : Nat} (hr : Roomy c) (hp : PageOk c) (hh : 0 < c.hp)
    (hg : Granted c base) (ha : c.odirect = true ∨ c.memAlign ≠ 0 ∨ c.rawio = true) :
    c.buf base 0 % c.page = c.memAlign % c.page ∧
      (c.stride % c.page = 0 → ∀ i, i < c.depth → c.buf base i % c.page = c.memAlign % c.page) := by
  have hal : c.aligned = true := by
    unfold Cfg.aligned
    rcases ha with h | h | h <;> simp [h]
  obtain ⟨f1, f2, f3⟩ := first_spec hr hp hh hg.2
  obtain ⟨k, hk⟩ := f3 hal
  have hb := hg.2
  constructor
  · simp only [Cfg.buf]
    rw [hk, Nat.mul_add_mod]
  · intro hst i hi
    have : c.stride * (i + 1) ≤ c.stride * c.depth := Nat.mul_le_mul_left _ hi
    rw [Nat.mul_add, Nat.mul_one] at this
    rw [buf_eq (by rw [Nat.mul_comm]; omega), hk]
    obtain ⟨q, hq⟩ : ∃ q, c.stride = c.page * q := ⟨c.stride / c.page, by
      have := Nat.div_add_mod c.stride c.page
      omega⟩
    rw [hq, show c.page * k + c.memAlign + i * (c.page * q) = c.page * (k + i * q) + c.memAlign by
      rw [Nat.mul_add, ← Nat.mul_assoc i, Nat.mul_comm i c.page, Nat.mul_assoc]; omega, Nat.mul_add_mod]

/-- C52.  An `iomem_align` that divides the page size is the alignment of the first buffer. -/
theorem first_aligned {c : Cfg} {base : Nat} (hr : Roomy c) (hp : PageOk c) (hh : 0 < c.hp)
    (hg : Granted c base) (ha : c.memAlign ≠ 0) (hd : c.memAlign ∣ c.page) :
    c.memAlign ∣ c.buf base 0 := by
  have h := (buffers_aligned hr hp hh hg (Or.inr (Or.inl ha))).1
  have h1 : c.memAlign ∣ c.buf base 0 % c.page := by
    rw [h]
    exact (Nat.dvd_mod_iff hd).2 (Nat.dvd_refl _)
  exact (Nat.dvd_mod_iff hd).1 h1

/-- A direct job with 64 units of 128 KiB, on a base that is not page aligned. -/
def egCfg : Cfg :=
  { rbs := 4096, wbs := 131072, tbs := 4096, depth := 64, numRange := 0, rd := true, wr := true, tr := false,
    readIolog := false, trimVerify := false, noio := false, odirect := true, rawio := false,
    memalign := true, memAlign := 512, page := 4096, hp := 2097152, mem := .mmaphuge }

example : Roomy egCfg ∧ PageOk egCfg ∧ 0 < egCfg.hp ∧ Pure egCfg ∧ Granted egCfg 0x7f0000001010 ∧
    egCfg.memAlign ≠ 0 ∧ egCfg.memAlign ∣ egCfg.page ∧ egCfg.stride % egCfg.page = 0 := by
  refine ⟨by unfold Roomy; decide +kernel, ⟨12, by decide, rfl⟩, by decide, by unfold Pure; decide,
    by unfold Granted; decide +kernel, by decide, by decide, by decide⟩

/-! What goes wrong outside these hypotheses. -/

/-- Shared memory: the size is cut to 32 bits.  1025 units of 4 MiB get 4 MiB. -/
def egShm : Cfg := { egCfg with rbs := 4194304, wbs := 4194304, depth := 1025, odirect := false, memAlign := 0, memalign := false, mem := .shm }

theorem shm_counterexample : PageOk egShm ∧ Pure egShm ∧ Granted egShm 0x7f0000000000 ∧
    ¬ Good egShm 0x7f0000000000 := by
  refine ⟨⟨12, by decide, rfl⟩, by unfold Pure; decide, by unfold Granted; decide +kernel, ?_⟩
  intro h
  obtain ⟨p, h1, _, h3, _⟩ := h.inside 1 (by decide) rfl (by decide +kernel)
  have e : p = _ := (Option.some.inj h1).symm
  subst e
  exact absurd h3 (by decide +kernel)

/-- Huge pages: the mask has 32 bits and takes the upper half of the size away.  1025 units of 4 MiB
get 4 MiB. -/
def egHuge : Cfg := { egShm with mem := .mmaphuge }

theorem huge_counterexample : PageOk egHuge ∧ Pure egHuge ∧ Granted egHuge 0x7f0000000000 ∧
    ¬ Good egHuge 0x7f0000000000 := by
  refine ⟨⟨12, by decide, rfl⟩, by unfold Pure; decide, by unfold Granted; decide +kernel, ?_⟩
  intro h
  obtain ⟨p, h1, _, h3, _⟩ := h.inside 1 (by decide) rfl (by decide +kernel)
  have e : p = _ := (Option.some.inj h1).symm
  subst e
  exact absurd h3 (by decide +kernel)

/-- An I/O log with trims and writes, replayed with `num_range=2`: the units get 32 bytes each, but
are filled and written with the whole block size. -/
def egLog : Cfg :=
  { egCfg with rbs := 4096, wbs := 4096, tr := true, numRange := 2, readIolog := true, odirect := false, memAlign := 0, memalign := false, mem := .malloc }

theorem log_counterexample : Roomy egLog ∧ PageOk egLog ∧ Granted egLog 0x7f0000000000 ∧
    ¬ Good egLog 0x7f0000000000 := by
  refine ⟨by unfold Roomy; decide +kernel, ⟨12, by decide, rfl⟩, by unfold Granted; decide +kernel, ?_⟩
  intro h
  obtain ⟨p, h1, _, h3, _⟩ := h.inside 0 (by decide) rfl (by decide +kernel)
  have e : p = _ := (Option.some.inj h1).symm
  subst e
  exact absurd h3 (by decide +kernel)

/-- `iomem_align=8192` on pages of 4096: the first buffer is not aligned to 8192. -/
def egAlign : Cfg := { egCfg with memAlign := 8192, mem := .malloc }

theorem align_counterexample : Roomy egAlign ∧ PageOk egAlign ∧ Granted egAlign 0x7f0000000010 ∧
    ¬ egAlign.memAlign ∣ egAlign.buf 0x7f0000000010 0 := by
  refine ⟨by unfold Roomy; decide +kernel, ⟨12, by decide, rfl⟩, by unfold Granted; decide +kernel, ?_⟩
  decide +kernel

/-! ### C53 -/

/-- C53.  For every alignment that is a power of two (up to 2^31) and every size: if the allocator
returns a block of the requested length, the pointer handed out is aligned, and the object and the
footer behind it lie inside the block. -/
theorem memalign_ok {j size : Nat} {b : Block} (hj : j < 32) (hl : b.bytes.length = reqLen (2 ^ j) size)
    (hs : size + 2 ^ j + 4 < 2 ^ 64) (hb : b.base + b.bytes.length < 2 ^ 64) :
    ∃ p b', memalign (2 ^ j) size b = some (p, b') ∧ 2 ^ j ∣ p ∧ b.base ≤ p ∧
      p + size + 4 ≤ b.base + b.bytes.length ∧ b'.base = b.base ∧
      b'.bytes.length = b.bytes.length ∧
      (∀ k, k < p + size - b.base → b'.bytes[k]? = b.bytes[k]?) ∧
      memfree p size b' = some b.base := by
  have hp0 := Nat.two_pow_pos j
  have hp32 : 2 ^ j < 2 ^ 32 := Nat.pow_lt_pow_right (by omega) hj
  have hlen : b.bytes.length = size + 2 ^ j + 3 := by
    rw [hl, reqLen, show size + 2 ^ j + 4 + (2 ^ 64 - 1) = size + 2 ^ j + 3 + 2 ^ 64 by omega,
      Nat.add_mod_right, Nat.mod_eq_of_lt (by omega)]
  have hmask : (2 ^ j + (2 ^ 64 - 1)) % 2 ^ 64 = 2 ^ j - 1 := by
    rw [show 2 ^ j + (2 ^ 64 - 1) = 2 ^ j - 1 + 2 ^ 64 by omega, Nat.add_mod_right,
      Nat.mod_eq_of_lt (by omega)]
  have hand : 2 ^ j &&& (2 ^ j - 1) = 0 := by
    rw [Nat.and_two_pow_sub_one_eq_mod, Nat.mod_self]
  obtain ⟨s1, s2, s3⟩ := ptrAlign_spec (ptr := b.base) (j := j) (by omega) (by omega)
  generalize hret : ptrAlign b.base (2 ^ j - 1) = ret at *
  have hoff : (ret + 2 ^ 64 - b.base) % 2 ^ 64 = ret - b.base := by
    rw [show ret + 2 ^ 64 - b.base = ret - b.base + 2 ^ 64 by omega, Nat.add_mod_right,
      Nat.mod_eq_of_lt (by omega)]
  have hf : (ret + size) % 2 ^ 64 = ret + size := Nat.mod_eq_of_lt (by omega)
  obtain ⟨bytes, hw, hwl, hwg⟩ := memWrite_some (buf := b.bytes) (src := le 4 (ret - b.base))
    (off := ret + size - b.base) (by rw [le_length]; omega)
  refine ⟨ret, ⟨b.base, bytes⟩, ?_, s3, s1, by omega, rfl, hwl, ?_, ?_⟩
  · unfold memalign
    simp only [hmask, hret, hand, hoff, hf]
    rw [if_neg (by simp), if_neg (by omega), hw]
    rfl
  · intro k hk
    simp only
    rw [hwg, if_neg (by omega)]
  · unfold memfree
    simp only [hf]
    rw [if_neg (by omega)]
    obtain ⟨rb, hr, hrl, hrg⟩ := memRead_some (buf := bytes) (off := ret + size - b.base) (len := 4)
      (by omega)
    have hle : rb = le 4 (ret - b.base) := by
      apply List.ext_getElem?
      intro i
      by_cases hi : i < 4
      · rw [hrg i hi, hwg, if_pos (by rw [le_length]; omega)]
        rw [show ret + size - b.base + i - (ret + size - b.base) = i by omega]
      · rw [List.getElem?_eq_none (by omega), List.getElem?_eq_none (by rw [le_length]; omega)]
    have hmod : (ret - b.base) % 256 ^ 4 = ret - b.base := Nat.mod_eq_of_lt (by omega)
    rw [hr, hle, Option.map_some, fromLe_le, hmod]
    rw [show ret + 2 ^ 64 - (ret - b.base) = b.base + 2 ^ 64 by omega, Nat.add_mod_right,
      Nat.mod_eq_of_lt (by omega)]

/-- C53.  Freeing hands back the pointer the allocator gave, whatever the user has written into the
object meanwhile. -/
theorem memfree_original {j size : Nat} {b : Block} (hj : j < 32)
    (hl : b.bytes.length = reqLen (2 ^ j) size) (hs : size + 2 ^ j + 4 < 2 ^ 64)
    (hb : b.base + b.bytes.length < 2 ^ 64) {p : Nat} {b' : Block}
    (hm : memalign (2 ^ j) size b = some (p, b')) {data : List Byte} (hd : data.length = size) :
    ∃ bytes, memWrite b'.bytes (p - b.base) data = some bytes ∧
      memfree p size ⟨b.base, bytes⟩ = some b.base := by
  obtain ⟨p', b'', h1, _, h3, h4, h5, h6, _, h8⟩ := memalign_ok hj hl hs hb
  rw [hm] at h1
  obtain ⟨rfl, rfl⟩ : p = p' ∧ b' = b'' := by simpa using h1
  obtain ⟨bytes, hw, hwl, hwg⟩ := memWrite_some (buf := b'.bytes) (src := data)
    (off := p - b.base) (by omega)
  refine ⟨bytes, hw, ?_⟩
  rw [← h8]
  unfold memfree
  have hf : (p + size) % 2 ^ 64 = p + size := Nat.mod_eq_of_lt (by omega)
  simp only [hf, h5]
  rw [if_neg (by omega), if_neg (by omega)]
  congr 1
  unfold memRead
  rw [if_pos (by omega), if_pos (by omega)]
  congr 1
  apply List.ext_getElem?
  intro i
  by_cases hi : i < 4
  · rw [List.getElem?_take_of_lt hi, List.getElem?_take_of_lt hi, List.getElem?_drop,
      List.getElem?_drop, hwg, if_neg (by omega)]
  · rw [List.getElem?_eq_none (by simp; omega), List.getElem?_eq_none (by simp; omega)]

/-- A 64-byte aligned object of 10 bytes in a block at address 1001. -/
def egBlock : Block := ⟨1001, List.replicate 77 0⟩

example : egBlock.bytes.length = reqLen (2 ^ 6) 10 ∧
    (memalign (2 ^ 6) 10 egBlock).map (·.1) = some 1024 := by decide +kernel

end Fio.Buf
