import Verif.Blkmerge.Spec
/-
Lemmas for C98: records in bytes.
-/
namespace Fio.Blkmerge

@[simp] theorem num_length (b : Bool) (n v : Nat) : (num b n v).length = n := by
  unfold num; split <;> simp

@[simp] theorem recBytes_length (b : Bool) (t : Trace) : (recBytes b t).length = 48 := by
  simp [recBytes]

theorem encode_eq (t : Trace) : encode t = recBytes false t := rfl

theorem field_append (a b c : List Byte) {o n : Nat} (ho : a.length = o) (hn : b.length = n) :
    field (a ++ (b ++ c)) o n = fromLe b := by
  subst ho hn
  simp [field]

theorem fields (b : Bool) (t : Trace) :
    decode (recBytes b t) =
    { magic := BitVec.ofNat 32 (fromLe (num b 4 t.magic.toNat))
      sequence := BitVec.ofNat 32 (fromLe (num b 4 t.sequence.toNat))
      time := BitVec.ofNat 64 (fromLe (num b 8 t.time.toNat))
      sector := BitVec.ofNat 64 (fromLe (num b 8 t.sector.toNat))
      bytes := BitVec.ofNat 32 (fromLe (num b 4 t.bytes.toNat))
      action := BitVec.ofNat 32 (fromLe (num b 4 t.action.toNat))
      pid := BitVec.ofNat 32 (fromLe (num b 4 t.pid.toNat))
      device := BitVec.ofNat 32 (fromLe (num b 4 t.device.toNat))
      cpu := BitVec.ofNat 32 (fromLe (num b 4 t.cpu.toNat))
      error := BitVec.ofNat 16 (fromLe (num b 2 t.error.toNat))
      pduLen := BitVec.ofNat 16 (fromLe (num b 2 t.pduLen.toNat)) } := by
  unfold decode recBytes
  congr 2
  all_goals
    simp only [field, List.append_assoc]
    congr 1
    simp [List.drop_append, List.drop_eq_nil_of_le, List.take_of_length_le]

theorem fromLe_le_toNat {w n : Nat} (v : BitVec w) (h : w = 8 * n) :
    BitVec.ofNat w (fromLe (le n v.toNat)) = v := by
  rw [fromLe_le, Nat.mod_eq_of_lt]
  · simp
  · have := v.isLt
    rw [show (256 : Nat) = 2 ^ 8 from rfl, ← Nat.pow_mul, ← h]
    exact this

theorem decode_little (t : Trace) : decode (recBytes false t) = t := by
  rw [fields]
  simp only [num, Bool.false_eq_true, if_false]
  simp only [fromLe_le_toNat (n := 4) _ (show 32 = 8 * 4 from rfl),
    fromLe_le_toNat (n := 8) _ (show 64 = 8 * 8 from rfl),
    fromLe_le_toNat (n := 2) _ (show 16 = 8 * 2 from rfl)]

theorem swap_big {w n : Nat} (v : BitVec w) (h : w = 8 * n) :
    BitVec.ofNat w (swap n (BitVec.ofNat w (fromLe (le n v.toNat).reverse)).toNat) = v := by
  have h1 : fromLe (le n v.toNat).reverse < 2 ^ w := by
    have := fromLe_lt (le n v.toNat).reverse
    rw [List.length_reverse, le_length, show (256 : Nat) = 2 ^ 8 from rfl, ← Nat.pow_mul, ← h] at this
    exact this
  rw [BitVec.toNat_ofNat, Nat.mod_eq_of_lt h1, swap]
  have h2 := le_fromLe (le n v.toNat).reverse
  rw [List.length_reverse, le_length] at h2
  rw [h2, List.reverse_reverse, fromLe_le_toNat v h]

theorem decode_big (t : Trace) : byteswap (decode (recBytes true t)) = t := by
  rw [fields]
  simp only [num, if_true, byteswap]
  simp only [swap_big (n := 4) _ (show 32 = 8 * 4 from rfl),
    swap_big (n := 8) _ (show 64 = 8 * 8 from rfl),
    swap_big (n := 2) _ (show 16 = 8 * 2 from rfl)]

theorem decoded (b : Bool) (t : Trace) :
    (if b then byteswap (decode (recBytes b t)) else decode (recBytes b t)) = t := by
  cases b
  · simp [decode_little]
  · simp [decode_big]

theorem bit_ne (x : BitVec 32) (i : Nat) (hi : i < 32) :
    (x &&& BitVec.twoPow 32 i != 0#32) = x.toNat.testBit i := by
  rw [BitVec.and_twoPow, BitVec.testBit_toNat]
  have h0 : BitVec.twoPow 32 i ≠ 0#32 := by
    intro h
    have := congrArg (fun y => y.getLsbD i) h
    simp at this
    omega
  cases h : x.getLsbD i <;> simp [h0]

theorem skip_iff (t : Trace) :
    (t.action &&& 0xffff#32 ≠ 1#32 ∨ hasDdir t = false) ↔ ¬ Wanted t := by
  have h1 : t.action &&& 0xffff#32 = 1#32 ↔ t.action.toNat % 65536 = 1 := by
    rw [← BitVec.toNat_inj, BitVec.toNat_and]
    rw [show (0xffff#32).toNat = 2 ^ 16 - 1 from rfl, Nat.and_two_pow_sub_one_eq_mod]
    simp
  have h2 : hasDdir t = (t.action.toNat.testBit 16 || t.action.toNat.testBit 17 ||
      t.action.toNat.testBit 29) := by
    rw [← bit_ne _ 16 (by decide), ← bit_ne _ 17 (by decide), ← bit_ne _ 29 (by decide)]
    rfl
  rw [Wanted, ne_eq, h1, h2]
  cases t.action.toNat.testBit 16 <;> cases t.action.toNat.testBit 17 <;>
    cases t.action.toNat.testBit 29 <;> simp

theorem magic_small : ∀ v : Fin 256,
    (BitVec.ofNat 32 (0x65617400 + v.val) &&& 0xffffff00#32 = 0x65617400#32) ∧
    ¬ (BitVec.ofNat 32 (fromLe (le 4 (0x65617400 + v.val)).reverse) &&& 0xffffff00#32 =
        0x65617400#32) := by
  decide +kernel

theorem isBlktrace_file (b : Bool) (r : Rec) (l : List Rec)
    (h : r.t.magic.toNat / 256 = 0x656174) :
    isBlktrace (fileBytes b (r :: l)) = some b := by
  have ht : (fileBytes b (r :: l)).take 48 = recBytes b r.t := by
    simp [fileBytes]
  have hm := magic_small ⟨r.t.magic.toNat % 256, Nat.mod_lt _ (by decide)⟩
  have hv : 0x65617400 + r.t.magic.toNat % 256 = r.t.magic.toNat := by omega
  simp only [hv] at hm
  rw [BitVec.ofNat_toNat, BitVec.setWidth_eq] at hm
  rw [isBlktrace, ht, if_pos (by simp), fields]
  cases b
  · simp only [num, Bool.false_eq_true, if_false, fromLe_le_toNat (n := 4) _ (show 32 = 8 * 4 from rfl)]
    rw [if_pos hm.1]
  · simp only [num, if_true, swap_big (n := 4) _ (show 32 = 8 * 4 from rfl)]
    rw [if_neg hm.2, if_pos hm.1]

/-- The records to replay of a file, as `read_trace` finds them. -/
def wanted (l : List Rec) : List Trace := (l.map (·.t)).filter (fun t => decide (Wanted t))

/-- Bytes left in a file. -/
def Left (c : Cursor) (b : Bool) (l : List Rec) : Prop :=
  ∃ d, c.f = some d ∧ d.drop c.pos = fileBytes b l

/-- The time as the code computes it. -/
def timeOf (c : Cursor) (t : Trace) : BitVec 64 :=
  (t.time + BitVec.ofInt 64 c.iter * c.length) * BitVec.ofInt 64 c.scalar / 100#64

theorem readLoop_spec (b : Bool) : ∀ (l : List Rec) (n : Nat) (c : Cursor), l.length < n →
    Left c b l → c.swap = b →
    (wanted l = [] ∧ ∃ c', readLoop n c = some (0, c') ∧ c'.f = c.f ∧ c'.iter = c.iter ∧
      c'.nrIter = c.nrIter ∧ c'.swap = c.swap ∧ c'.scalar = c.scalar) ∨
    (∃ (r : Rec) (l' : List Rec) (c' : Cursor), wanted l = r.t :: wanted l' ∧ Wanted r.t ∧
      r ∈ l ∧ (∀ x ∈ l', x ∈ l) ∧ l'.length < l.length ∧
      readLoop n c = some (48, c') ∧
      c'.f = c.f ∧ c'.iter = c.iter ∧ c'.nrIter = c.nrIter ∧ c'.swap = c.swap ∧
      c'.scalar = c.scalar ∧ c'.t = { r.t with time := timeOf c r.t } ∧
      (∃ d, c'.f = some d ∧ d.drop (c'.pos + r.t.pduLen.toNat) = fileBytes b l'))
  | [], n + 1, c, _, ⟨d, hf, hd⟩, hs => by
    left
    refine ⟨rfl, ?_⟩
    rw [readLoop, hf]
    simp only [hd, fileBytes, List.take_nil, List.length_nil]
    rw [if_pos (by decide)]
    exact ⟨_, rfl, rfl, rfl, rfl, rfl, rfl⟩
  | r :: l, n + 1, c, hn, ⟨d, hf, hd⟩, hs => by
    have hgot : (d.drop c.pos).take 48 = recBytes b r.t := by
      rw [hd]
      simp [fileBytes]
    have hrest : d.drop (c.pos + 48 + r.t.pduLen.toNat) = fileBytes b l := by
      rw [← List.drop_drop, ← List.drop_drop, hd, r.ok]
      simp [fileBytes]
    rw [readLoop, hf]
    simp only [hgot, recBytes_length, Nat.lt_irrefl, if_false, hs, decoded]
    by_cases hw : Wanted r.t
    · right
      rw [if_neg (by rw [skip_iff]; simpa using hw)]
      refine ⟨r, l, _, by simp [wanted, hw], hw, by simp, ?_, by simp, rfl, rfl, rfl, rfl, rfl, rfl, rfl, ?_⟩
      · intro x hx
        exact List.mem_cons_of_mem _ hx
      · exact ⟨d, rfl, hrest⟩
    · rw [if_pos ((skip_iff _).mpr hw)]
      have hwl : wanted (r :: l) = wanted l := by simp [wanted, hw]
      have := readLoop_spec b l n
        { f := some d, pos := c.pos + 48 + r.t.pduLen.toNat, length := c.length, t := r.t,
          swap := b, scalar := c.scalar, iter := c.iter, nrIter := c.nrIter }
        (by simpa using hn) ⟨d, rfl, hrest⟩ rfl
      rw [hwl]
      rcases this with ⟨h1, c', h2, h3, h4, h5, h6, h7⟩ |
        ⟨r', l', c', h1, h2, h3, h4, h5, h6, h7, h8, h9, h10, h11, h12, h13⟩
      · left
        exact ⟨h1, c', h2, h3, h4, h5, h6, h7⟩
      · right
        refine ⟨r', l', c', h1, h2, List.mem_cons_of_mem _ h3, fun x hx => List.mem_cons_of_mem _ (h4 x hx), ?_, h6, h7, h8, h9, h10, h11, h12, h13⟩
        simp only [List.length_cons]
        omega

end Fio.Blkmerge
