import Verif.Nvme.Cmd
/-
C73: the NVMe commands address the blocks of the I/O.
-/
namespace Fio.Nvme

/-! ## The fields of a command in the standard -/

/-- Starting LBA of a read, write, compare, ... command: command dwords 10 and 11. -/
def slbaOf (c : Cmd) : Nat := c.cdw10 + c.cdw11 * 2 ^ 32
/-- Number of blocks: the low half of command dword 12, zero based. -/
def nlbOf (c : Cmd) : Nat := c.cdw12 % 2 ^ 16 + 1
/-- Directive type: bits 20 to 23 of command dword 12. -/
def dtypeOf (c : Cmd) : Nat := c.cdw12 / 2 ^ 20 % 16
/-- The upper byte of command dword 12: control bits. -/
def ctrlOf (c : Cmd) : Nat := c.cdw12 / 2 ^ 24
/-- Directive specific: upper half of command dword 13. -/
def dspecOf (c : Cmd) : Nat := c.cdw13 / 2 ^ 16

/-- Bytes per block in a transfer. -/
def blk (d : NsData) : Nat := if d.lbaExt ≠ 0 then d.lbaExt else 2 ^ d.lbaShift

theorem blk_pos (d : NsData) : 0 < blk d := by
  unfold blk; split
  · omega
  · exact Nat.two_pow_pos _

theorem slba_blk (d : NsData) (a : Nat) : getSlba d (a * blk d) = a := by
  have := blk_pos d
  unfold getSlba blk at *
  split <;> simp_all

theorem nlb_blk (d : NsData) (n : Nat) (h1 : 1 ≤ n) (h2 : n ≤ 2 ^ 32) : getNlb d (n * blk d) = n - 1 := by
  have := blk_pos d
  have e : ∀ k, 0 < k → (n * k / k + 2 ^ 64 - 1) % 2 ^ 32 = n - 1 := fun k hk => by
    rw [Nat.mul_div_cancel _ hk]; omega
  unfold getNlb blk at *
  split
  · rename_i h; simp only [h, if_true, ne_eq, not_false_eq_true] at this ⊢; exact e _ this
  · rename_i h; simp only [h, if_false] at this ⊢; exact e _ this

/-- The opcode of the command for a direction. -/
def opOf (io : IoU) (readOp writeOp : Nat) : Nat := if io.dir = .read then readOp else writeOp

/-- Commands that transfer data, and commands that do not. -/
def IsData (op : Nat) : Prop := op = 1 ∨ op = 2 ∨ op = 5 ∨ op = 0x7d
def NoData (op : Nat) : Prop := op = 4 ∨ op = 8 ∨ op = 0xc

/-- The start of the zone an offset lies in. -/
def zoneStart (z off : Nat) : Nat := off / z * z

theorem split_or (n t fl : Nat) (hn : n < 2 ^ 16) (ht : t < 16) :
    (n ||| t <<< 20 ||| fl * 2 ^ 24) = n + t * 2 ^ 20 + fl * 2 ^ 24 := by
  have e1 : n ||| t <<< 20 = n + t * 2 ^ 20 := by
    rw [Nat.or_comm, ← Nat.shiftLeft_add_eq_or_of_lt (by omega), Nat.shiftLeft_eq]; omega
  rw [e1, Nat.or_comm, ← Nat.shiftLeft_eq fl 24, ← Nat.shiftLeft_add_eq_or_of_lt (by omega), Nat.shiftLeft_eq]
  omega

/-- Clearing the low bits of a 64 bit offset. -/
theorem and_zone (off k : Nat) (ho : off < 2 ^ 64) (hk : k < 64) :
    off &&& (2 ^ 64 - 1 - (2 ^ k + 2 ^ 64 - 1) % 2 ^ 64) = zoneStart (2 ^ k) off := by
  have hp : 2 ^ k < 2 ^ 64 := Nat.pow_lt_pow_right (by decide) hk
  have h1 : (2 ^ k + 2 ^ 64 - 1) % 2 ^ 64 = 2 ^ k - 1 := by
    have := Nat.two_pow_pos k; omega
  rw [h1]
  unfold zoneStart
  apply Nat.eq_of_testBit_eq
  intro i
  rw [Nat.testBit_and, show 2 ^ 64 - 1 - (2 ^ k - 1) = 2 ^ 64 - ((2 ^ k - 1) + 1) by omega,
    Nat.testBit_two_pow_sub_succ (by omega), Nat.testBit_two_pow_sub_one, Nat.testBit_mul_two_pow,
    Nat.testBit_div_two_pow]
  by_cases hik : k ≤ i
  · by_cases hi : i < 64
    · simp [hik, hi, show ¬ i < k by omega]
    · have : off.testBit i = false := Nat.testBit_lt_two_pow (Nat.lt_of_lt_of_le ho (Nat.pow_le_pow_right (by decide) (by omega)))
      simp [hik, this, hi]
  · simp [hik, show i < k by omega]

/-- **C73**, reads and writes: for an I/O of `n` blocks, up to 65536, at block `a` the command has the
opcode asked for, starts at block `a` (for a zone append: at the first block of the zone), covers `n`
blocks, has the directive and control bits asked for and no others, transfers the data exactly for the commands
with data and `ms` bytes of metadata per block if the metadata is separate. -/
theorem C73_blocks_partial (d : NsData) (io : IoU) (vec : Bool) (nr rop wop fl a n : Nat)
    (hdir : io.dir = .read ∨ io.dir = .write)
    (hop : IsData (opOf io rop wop) ∨ NoData (opOf io rop wop))
    (ho : io.offset = a * blk d) (ho64 : io.offset < 2 ^ 64) (hl : io.buflen = n * blk d) (hn : 1 ≤ n) (hn2 : n ≤ 2 ^ 16)
    (hl32 : io.buflen < 2 ^ 32) (hms : d.ms < 2 ^ 16)
    (ht : io.dtype < 16) (hd : io.dspec < 2 ^ 16) (hfl : fl < 2 ^ 8)
    (hz : ∀ z, io.zoneSize = some z → ∃ k b, k < 64 ∧ z = 2 ^ k ∧ z = b * blk d) :
    ∃ c, prep d io vec nr rop wop (fl * 2 ^ 24) = some c ∧ c.opcode = opOf io rop wop ∧
      slbaOf c * blk d = (match io.zoneSize with
        | some z => if opOf io rop wop = 0x7d then zoneStart z io.offset else io.offset
        | none => io.offset) ∧
      c.cdw10 < 2 ^ 32 ∧ c.cdw11 < 2 ^ 32 ∧ c.cdw12 < 2 ^ 32 ∧
      nlbOf c = n ∧ dtypeOf c = io.dtype ∧ ctrlOf c = fl ∧ c.cdw12 / 2 ^ 16 % 16 = 0 ∧ dspecOf c = io.dspec ∧
      (vec = true → c.payload = .iov io.buflen) ∧
      (vec = false → IsData (opOf io rop wop) → c.payload = .buf io.buflen) ∧
      (vec = false → NoData (opOf io rop wop) → c.payload = .none) ∧
      c.metadataLen = (if d.lbaShift ≠ 0 then n * d.ms else 0) := by
  have hb := blk_pos d
  have hnlb : getNlb d io.buflen = n - 1 := by rw [hl]; exact nlb_blk d n hn (by omega)
  have hc12 : (n - 1 ||| io.dtype <<< 20 % 2 ^ 32 ||| fl * 2 ^ 24) = (n - 1) + io.dtype * 2 ^ 20 + fl * 2 ^ 24 := by
    rw [Nat.mod_eq_of_lt (by rw [Nat.shiftLeft_eq]; omega), split_or _ _ _ (by omega) ht]
  have hc13 : io.dspec <<< 16 % 2 ^ 32 = io.dspec * 2 ^ 16 := by rw [Nat.shiftLeft_eq]; omega
  -- the block of the command
  have hoff : ∃ a' , cmdOffset io (opOf io rop wop) = a' * blk d ∧ a' * blk d = (match io.zoneSize with
        | some z => if opOf io rop wop = 0x7d then zoneStart z io.offset else io.offset
        | none => io.offset) ∧ a' < 2 ^ 64 := by
    have base : a < 2 ^ 64 := Nat.lt_of_le_of_lt (Nat.le_mul_of_pos_right a hb) (ho ▸ ho64)
    unfold cmdOffset
    cases hzs : io.zoneSize with
    | none => exact ⟨a, ho, ho.symm, base⟩
    | some z =>
      obtain ⟨k, b, hk, e1, e2⟩ := hz z hzs
      dsimp only
      split
      · refine ⟨io.offset / z * b, ?_, ?_, ?_⟩
        · rw [e1, and_zone _ _ ho64 hk, zoneStart, ← e1, Nat.mul_assoc, ← e2]
        · rw [Nat.mul_assoc, ← e2, zoneStart]
        · have h1 : io.offset / z * b * blk d ≤ io.offset := by
            rw [Nat.mul_assoc, ← e2]; exact Nat.div_mul_le_self _ _
          exact Nat.lt_of_le_of_lt (Nat.le_mul_of_pos_right _ hb) (Nat.lt_of_le_of_lt h1 ho64)
      · exact ⟨a, ho, ho.symm, base⟩
  obtain ⟨a', e1, e2, e3⟩ := hoff
  have h10 : a' &&& 0xffffffff = a' % 2 ^ 32 := Nat.and_two_pow_sub_one_eq_mod a' 32
  have h11 : a' >>> 32 % 2 ^ 32 = a' / 2 ^ 32 := by rw [Nat.shiftRight_eq_div_pow]; omega
  have hml : (n - 1 + 1) % 2 ^ 32 * d.ms % 2 ^ 32 = n * d.ms := by
    rw [Nat.sub_add_cancel hn, Nat.mod_eq_of_lt (a := n) (by omega)]
    apply Nat.mod_eq_of_lt
    calc n * d.ms ≤ 2 ^ 16 * d.ms := Nat.mul_le_mul_right _ hn2
      _ < 2 ^ 32 := by omega
  have main : ∀ op, op = opOf io rop wop → ∃ c, prep d io vec nr rop wop (fl * 2 ^ 24) = some c ∧ c.opcode = op ∧
      c.cdw10 = a' % 2 ^ 32 ∧ c.cdw11 = a' / 2 ^ 32 ∧ c.cdw12 = (n - 1) + io.dtype * 2 ^ 20 + fl * 2 ^ 24 ∧
      c.cdw13 = io.dspec * 2 ^ 16 ∧ (vec = true → c.payload = .iov io.buflen) ∧
      (vec = false → IsData op → c.payload = .buf io.buflen) ∧ (vec = false → NoData op → c.payload = .none) ∧
      c.metadataLen = (if d.lbaShift ≠ 0 then n * d.ms else 0) := by
    intro op hopeq
    rw [← hopeq] at hop e1
    have hsel : prep d io vec nr rop wop (fl * 2 ^ 24) =
        (if vec then some { opcode := op, cdw10 := a' % 2 ^ 32, cdw11 := a' / 2 ^ 32, cdw12 := (n - 1) + io.dtype * 2 ^ 20 + fl * 2 ^ 24, cdw13 := io.dspec * 2 ^ 16, payload := .iov io.buflen }
          else if op = 0x02 ∨ op = 0x01 ∨ op = 0x05 ∨ op = 0x7d then
            some { opcode := op, cdw10 := a' % 2 ^ 32, cdw11 := a' / 2 ^ 32, cdw12 := (n - 1) + io.dtype * 2 ^ 20 + fl * 2 ^ 24, cdw13 := io.dspec * 2 ^ 16, payload := .buf (io.buflen % 2 ^ 32) }
          else if op = 0x08 ∨ op = 0x04 ∨ op = 0x0c then
            some { opcode := op, cdw10 := a' % 2 ^ 32, cdw11 := a' / 2 ^ 32, cdw12 := (n - 1) + io.dtype * 2 ^ 20 + fl * 2 ^ 24, cdw13 := io.dspec * 2 ^ 16 }
          else none).map fun c : Cmd =>
            if d.lbaShift ≠ 0 ∧ d.ms ≠ 0 then { c with metadataLen := n * d.ms } else c := by
      unfold prep
      dsimp only
      rw [hnlb, hc12, hc13, hml]
      rcases hdir with hdd | hdd
      · have : op = rop := by rw [hopeq, opOf, if_pos hdd]
        rw [hdd, ← this]
        dsimp only
        rw [e1, slba_blk, h10, h11]
      · have : op = wop := by rw [hopeq, opOf, if_neg (by simp [hdd])]
        rw [hdd, ← this]
        dsimp only
        rw [e1, slba_blk, h10, h11]
    rw [hsel]
    have hmd : ∀ c : Cmd, c.metadataLen = 0 → ∃ c', (if d.lbaShift ≠ 0 ∧ d.ms ≠ 0 then { c with metadataLen := n * d.ms } else c) = c' ∧
        c'.metadataLen = (if d.lbaShift ≠ 0 then n * d.ms else 0) ∧ c'.opcode = c.opcode ∧ c'.cdw10 = c.cdw10 ∧ c'.cdw11 = c.cdw11 ∧
        c'.cdw12 = c.cdw12 ∧ c'.cdw13 = c.cdw13 ∧ c'.payload = c.payload := by
      intro c hc
      refine ⟨_, rfl, ?_⟩
      by_cases h1 : d.lbaShift = 0
      · simp [h1, hc]
      · by_cases h2 : d.ms = 0
        · simp [h1, h2, hc]
        · simp [h1, h2]
    have hbl : io.buflen % 2 ^ 32 = io.buflen := Nat.mod_eq_of_lt hl32
    cases vec
    · rw [if_neg (by simp)]
      rcases hop with hop | hop
      · rw [if_pos (by unfold IsData at hop; omega), Option.map_some]
        obtain ⟨c', e, p1, p2, p3, p4, p5, p6, p7⟩ := hmd { opcode := op, cdw10 := a' % 2 ^ 32, cdw11 := a' / 2 ^ 32, cdw12 := (n - 1) + io.dtype * 2 ^ 20 + fl * 2 ^ 24, cdw13 := io.dspec * 2 ^ 16, payload := .buf (io.buflen % 2 ^ 32) } rfl
        exact ⟨c', congrArg some e, p2, p3, p4, p5, p6, fun h => by simp at h, fun _ _ => by rw [p7, hbl],
          fun _ h => by unfold IsData at hop; unfold NoData at h; omega, p1⟩
      · rw [if_neg (by unfold NoData at hop; omega), if_pos (by unfold NoData at hop; omega), Option.map_some]
        obtain ⟨c', e, p1, p2, p3, p4, p5, p6, p7⟩ := hmd { opcode := op, cdw10 := a' % 2 ^ 32, cdw11 := a' / 2 ^ 32, cdw12 := (n - 1) + io.dtype * 2 ^ 20 + fl * 2 ^ 24, cdw13 := io.dspec * 2 ^ 16 } rfl
        exact ⟨c', congrArg some e, p2, p3, p4, p5, p6, fun h => by simp at h,
          fun _ h => by unfold IsData at h; unfold NoData at hop; omega, fun _ _ => p7, p1⟩
    · rw [if_pos rfl, Option.map_some]
      obtain ⟨c', e, p1, p2, p3, p4, p5, p6, p7⟩ := hmd { opcode := op, cdw10 := a' % 2 ^ 32, cdw11 := a' / 2 ^ 32, cdw12 := (n - 1) + io.dtype * 2 ^ 20 + fl * 2 ^ 24, cdw13 := io.dspec * 2 ^ 16, payload := .iov io.buflen } rfl
      exact ⟨c', congrArg some e, p2, p3, p4, p5, p6, fun _ => p7, fun h => by simp at h, fun h => by simp at h, p1⟩
  obtain ⟨c, q1, q2, q3, q4, q5, q6, q7, q8, q9, q10⟩ := main _ rfl
  refine ⟨c, q1, q2, ?_, ?_, ?_, ?_, ?_, ?_, ?_, ?_, ?_, q7, q8, q9, q10⟩
  · rw [← e2, slbaOf, q3, q4, Nat.mod_add_div']
  · rw [q3]; omega
  · rw [q4]; omega
  · rw [q5]; omega
  · rw [nlbOf, q5]; omega
  · rw [dtypeOf, q5]; omega
  · rw [ctrlOf, q5]; omega
  · rw [q5]; omega
  · rw [dspecOf, q6]; omega

/-- **C73**, more than 65536 blocks: the number of blocks overflows its field; a write of 32 MiB plus one
block of 512 bytes becomes a write of one block, and one of 512 MiB has a directive type it was not given. -/
theorem C73_nlb_counterexample :
    (∃ c, prep { lbaShift := 9, lbaSize := 512 } { dir := .write, offset := 0, buflen := 65537 * 512 } false 1 2 1 0 = some c ∧ nlbOf c = 1) ∧
    ∃ c, prep { lbaShift := 9, lbaSize := 512 } { dir := .write, offset := 0, buflen := 2 ^ 29 + 512 } false 1 2 1 0 = some c ∧ nlbOf c = 1 ∧ dtypeOf c = 1 :=
  ⟨⟨_, rfl, by decide⟩, ⟨_, rfl, by decide, by decide⟩⟩

/-- **C73**, deallocation of one range: it is the range of the I/O. -/
theorem C73_trim (d : NsData) (io : IoU) (vec : Bool) (rop wop fl a n : Nat) (hdir : io.dir = .trim)
    (ho : io.offset = a * blk d) (hl : io.buflen = n * blk d) (h1 : 1 ≤ n) (h2 : n < 2 ^ 32) :
    prep d io vec 1 rop wop fl = some { opcode := 9, cdw11 := 4, cdw10 := 0, payload := .ranges [(a, n)] 16 } := by
  unfold prep
  simp only [hdir]
  unfold trimPrep
  rw [if_pos rfl, ho, hl, slba_blk, nlb_blk d n h1 (by omega), Nat.sub_add_cancel h1, Nat.mod_eq_of_lt h2]

/-- **C73**, deallocation of several ranges: one range for each of the ranges of the I/O, in order, and
their number (zero based) in the command. -/
theorem C73_trim_multi (d : NsData) (io : IoU) (vec : Bool) (nr rop wop fl : Nat) (hdir : io.dir = .trim) (hnr : nr ≠ 1)
    (blks : List (Nat × Nat)) (hb : ∀ p ∈ blks, 1 ≤ p.2 ∧ p.2 < 2 ^ 32)
    (hr : io.ranges = blks.map fun p => (p.1 * blk d, p.2 * blk d)) (hlen : 1 ≤ blks.length) (hlen2 : blks.length ≤ 256) :
    ∃ c, prep d io vec nr rop wop fl = some c ∧ c.opcode = 9 ∧ c.cdw11 = 4 ∧ c.cdw10 + 1 = blks.length ∧
      c.payload = .ranges blks (16 * blks.length) := by
  unfold prep
  simp only [hdir]
  refine ⟨_, rfl, ?_⟩
  unfold trimPrep
  rw [if_neg hnr]
  have hm : io.ranges.map (fun r => (getSlba d r.1, (getNlb d r.2 + 1) % 2 ^ 32)) = blks := by
    rw [hr, List.map_map]
    conv => rhs; rw [← List.map_id blks]
    apply List.map_congr_left
    intro p hp
    obtain ⟨q1, q2⟩ := hb p hp
    simp only [Function.comp, slba_blk, nlb_blk d p.2 q1 (by omega), Nat.sub_add_cancel q1, Nat.mod_eq_of_lt q2, id]
  have hle : io.ranges.length = blks.length := by rw [hr, List.length_map]
  refine ⟨rfl, rfl, ?_, ?_⟩
  · simp only [hle]; omega
  · simp only [hm, hle, Nat.mul_comm]

/-- **C73**, protection information in the command: with the reference tag checked, the expected initial tag
in the command is the address of the block, cut to the width of the tag; the application tag and its mask are
in their fields; the flags are added to the control bits and nothing else changes. -/
theorem C73_pi (d : NsData) (io : IoU) (flags apptag mask a : Nat) (c : Cmd)
    (ho : io.offset = a * blk d) (h3 : c.cdw3 = 0) (h14 : c.cdw14 = 0) (ha : apptag < 2 ^ 16)
    (ht : d.piType = 1 ∨ d.piType = 2 ∨ d.piType = 3) (hg : d.guardType = 0 ∨ d.guardType = 2) :
    let c' := piFill d io flags apptag mask c
    c'.cdw12 = (c.cdw12 ||| flags) ∧
    (flags.testBit 26 = true → d.piType ≠ 3 →
      c'.cdw14 + c'.cdw3 * 2 ^ 32 = a % 2 ^ (if d.guardType = 2 then 48 else 32)) ∧
    (flags.testBit 27 = true → c'.cdw15 % 2 ^ 16 = apptag ∧ c'.cdw15 / 2 ^ 16 = mask) ∧
    c'.opcode = c.opcode ∧ c'.cdw10 = c.cdw10 ∧ c'.cdw11 = c.cdw11 ∧ c'.cdw13 = c.cdw13 ∧ c'.payload = c.payload ∧
    c'.metadataLen = c.metadataLen := by
  have hs : getSlba d io.offset = a := by rw [ho, slba_blk]
  have h15 : mask <<< 16 ||| apptag = mask * 2 ^ 16 + apptag := by
    rw [← Nat.shiftLeft_add_eq_or_of_lt (by omega), Nat.shiftLeft_eq]
  have hff : a >>> 32 &&& 0xffff = a / 2 ^ 32 % 2 ^ 16 := by
    rw [Nat.shiftRight_eq_div_pow]; exact Nat.and_two_pow_sub_one_eq_mod _ 16
  have h48 : a % 2 ^ 32 + a / 2 ^ 32 % 2 ^ 16 * 2 ^ 32 = a % 2 ^ 48 := by omega
  intro c'
  have e : c' = piFill d io flags apptag mask c := rfl
  unfold piFill at e
  rw [hs] at e
  dsimp only at e
  rw [h15, hff] at e
  clear_value c'
  have r1 : (mask * 2 ^ 16 + apptag) % 2 ^ 16 = apptag := by omega
  have r2 : (mask * 2 ^ 16 + apptag) / 2 ^ 16 = mask := by omega
  rcases ht with h | h | h <;> rcases hg with g | g <;> simp only [h, g] at e ⊢ <;>
    cases b26 : flags.testBit 26 <;> cases b27 : flags.testBit 27 <;> simp [b26, b27] at e <;> subst e <;>
    simp [h3, h14] <;> omega

theorem zone_go (d : NsData) (zs k : Nat) (hz : zs = k * 2 ^ d.lbaShift) : ∀ (n z : Nat), z + n * k < 2 ^ 64 →
    zoneCmds.go d zs n z = (List.range n).map fun i => ((z + i * k) % 2 ^ 32, (z + i * k) / 2 ^ 32) := by
  intro n
  induction n with
  | zero => intro z _; rfl
  | succ n ih =>
    intro z h
    rw [Nat.succ_mul] at h
    have hs : zs >>> d.lbaShift = k := by rw [hz, Nat.shiftRight_eq_div_pow, Nat.mul_div_cancel _ (Nat.two_pow_pos _)]
    rw [zoneCmds.go, hs, Nat.mod_eq_of_lt (by omega), ih _ (by omega), List.range_succ_eq_map, List.map_cons, List.map_map]
    congr 1
    · rw [Nat.zero_mul, Nat.add_zero, Nat.shiftRight_eq_div_pow]
      exact congrArg (·, _) (Nat.and_two_pow_sub_one_eq_mod z 32)
    · apply List.map_congr_left
      intro i _
      simp only [Function.comp, Nat.succ_mul]
      rw [show z + k + i * k = z + (i * k + k) by omega]

/-- **C73**, zones: with metadata that is not part of the blocks, resetting or finishing a range of zones issues
one command for each zone touched, and each addresses the first block of its zone. -/
theorem C73_zones_partial (d : NsData) (he : d.lbaExt = 0) (k a len : Nat) (hk : 0 < k)
    (hlen : (len + k * 2 ^ d.lbaShift - 1) / (k * 2 ^ d.lbaShift) < 2 ^ 32)
    (hfit : a + (len + k * 2 ^ d.lbaShift - 1) / (k * 2 ^ d.lbaShift) * k < 2 ^ 64) :
    ∃ l, zoneCmds d (k * blk d) (a * blk d) len = some l ∧
      l.length = (len + k * blk d - 1) / (k * blk d) ∧
      ∀ i (h : i < l.length), l[i].1 < 2 ^ 32 ∧ l[i].1 + l[i].2 * 2 ^ 32 = a + i * k := by
  have hblk : blk d = 2 ^ d.lbaShift := by unfold blk; simp [he]
  have hp : 0 < k * 2 ^ d.lbaShift := Nat.mul_pos hk (Nat.two_pow_pos _)
  rw [hblk]
  unfold zoneCmds
  rw [if_neg (by omega)]
  refine ⟨_, rfl, ?_⟩
  rw [Nat.mod_eq_of_lt hlen, Nat.shiftRight_eq_div_pow, Nat.mul_div_cancel _ (Nat.two_pow_pos _),
    zone_go d _ k rfl _ _ hfit]
  refine ⟨by simp, ?_⟩
  intro i h
  simp only [List.getElem_map, List.getElem_range]
  exact ⟨Nat.mod_lt _ (by decide), Nat.mod_add_div' _ _⟩

/-- **C73**, zones with extended blocks: the device data then have no shift, and the command that should reset
the zone at block 1024 is sent to block 1024 * 520. -/
theorem C73_zones_counterexample :
    ∃ (d : NsData), d.lbaExt = 520 ∧ getSlba d (1024 * 520) = 1024 ∧
      zoneCmds d (1024 * 520) (1024 * 520) (1024 * 520) = some [(1024 * 520, 0)] :=
  ⟨{ lbaSize := 512, lbaExt := 520, ms := 8 }, rfl, by decide, by decide⟩

/-- **C73**, write zeroes: asked for deallocation and for forced unit access, the command has only the latter. -/
theorem C73_deac_counterexample : (writeFlags true true true).testBit 30 = true ∧ (writeFlags true true true).testBit 25 = false ∧
    (writeFlags true true false).testBit 25 = true := by decide

/-! ## Cases -/

/-- A zone append of 8 blocks of 4096 bytes in the second zone of 2 MiB. -/
example : prep { lbaShift := 12, lbaSize := 4096 } { dir := .write, offset := 2 ^ 21 + 3 * 4096, buflen := 8 * 4096, zoneSize := some (2 ^ 21) } false 1 2 0x7d (64 * 2 ^ 24) =
    some { opcode := 0x7d, cdw10 := 512, cdw12 := 7 + 2 ^ 30, payload := .buf (8 * 4096) } := by decide

example : ∃ c, prep { lbaSize := 512, lbaExt := 520, ms := 8 } { dir := .read, offset := 100 * 520, buflen := 4 * 520, dtype := 2, dspec := 5 } true 1 2 1 (0 * 2 ^ 24) = some c ∧
    nlbOf c = 4 := by
  obtain ⟨c, h1, -, -, -, -, -, h2, -⟩ := C73_blocks_partial { lbaSize := 512, lbaExt := 520, ms := 8 }
    { dir := .read, offset := 100 * 520, buflen := 4 * 520, dtype := 2, dspec := 5 } true 1 2 1 0 100 4
    (by decide) (by left; right; left; rfl) rfl (by decide) rfl (by decide) (by decide) (by decide) (by decide) (by decide) (by decide) (by decide) (by intro z h; cases h)
  exact ⟨c, h1, h2⟩

end Fio.Nvme
