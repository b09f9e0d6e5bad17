import Verif.Pattern.Model
/-
C21: pattern fill and pattern check agree.
-/
namespace Fio.Pattern

/-! ## Duplicating a prefix -/

/-- The first `k` bytes of the buffer repeat the first `n` bytes of `p`. -/
def Rep (p : Nat → Option Byte) (n k : Nat) (out : List Byte) : Prop := ∀ i < k, out[i]? = p (i % n)

theorem copyUp_some {out : List Byte} {dst len : Nat} (h1 : len ≤ dst) (h2 : dst + len ≤ out.length) :
    ∃ b, copyUp out dst len = some b ∧ b.length = out.length ∧
      ∀ i, b[i]? = if dst ≤ i ∧ i < dst + len then out[i - dst]? else out[i]? := by
  obtain ⟨s, hs, hl, hg⟩ := memRead_some (buf := out) (off := 0) (len := len) (by omega)
  obtain ⟨b, hb, hbl, hbg⟩ := memWrite_some (buf := out) (src := s) (off := dst) (by omega)
  refine ⟨b, ?_, hbl, ?_⟩
  · unfold copyUp; rw [if_pos h1, hs]; exact hb
  · intro i
    rw [hbg i, hl]
    split
    · rename_i h; rw [hg _ (by omega)]; congr 1; omega
    · rfl

theorem dupLoop_spec (p : Nat → Option Byte) (n : Nat) :
    ∀ (left fuel off : Nat) (out : List Byte), 0 < off → n ∣ off → off + left = out.length → out.length < 2 ^ 32 →
      left ≤ fuel → Rep p n off out →
      ∃ b, dupLoop fuel out off left (min left off) = some b ∧ b.length = out.length ∧ Rep p n out.length b := by
  intro left
  induction left using Nat.strongRecOn with
  | _ left ih =>
  intro fuel off out hoff hd hsum hlen hfuel hrep
  cases left with
  | zero =>
    refine ⟨out, by unfold dupLoop; cases fuel <;> rfl, rfl, ?_⟩
    rw [← hsum]; exact hrep
  | succ left =>
    cases fuel with
    | zero => omega
    | succ fuel =>
      obtain ⟨b, hb, hbl, hbg⟩ := copyUp_some (out := out) (dst := off) (len := min (left + 1) off) (by omega) (by omega)
      show ∃ r, (copyUp out off (min (left + 1) off)).bind _ = some r ∧ _
      rw [hb, Option.bind_some]
      have hrep' : Rep p n (off + min (left + 1) off) b := by
        intro i hi
        rw [hbg i]
        split
        · rename_i h
          rw [hrep (i - off) (by omega)]
          obtain ⟨c, rfl⟩ := hd
          congr 1
          have e : (i - n * c + n * c) % n = (i - n * c) % n := Nat.add_mul_mod_self_left _ _ _
          rw [← e, show i - n * c + n * c = i by omega]
        · rename_i h; exact hrep i (by omega)
      by_cases hc : left + 1 ≤ off
      · -- last round
        have e1 : min (left + 1) off = left + 1 := by omega
        rw [e1] at hrep' ⊢
        rw [Nat.sub_self]
        refine ⟨b, by unfold dupLoop; cases fuel <;> rfl, hbl, ?_⟩
        rw [← hsum]; exact hrep'
      · have e1 : min (left + 1) off = off := by omega
        have e2 : off * 2 % 2 ^ 32 = off * 2 := Nat.mod_eq_of_lt (by omega)
        rw [e1] at hrep' ⊢
        rw [e2]
        obtain ⟨r, hr, hrl, hrr⟩ := ih (left + 1 - off) (by omega) fuel (off * 2) b (by omega)
          (Nat.dvd_trans hd (Nat.dvd_mul_right off 2)) (by omega) (by omega) (by omega)
          (by rw [Nat.mul_two]; exact hrep')
        exact ⟨r, hr, by omega, by rw [← hbl]; exact hrr⟩

theorem dupPattern_spec (p : Nat → Option Byte) (n : Nat) (hn : 0 < n) (out : List Byte) (hlen : out.length < 2 ^ 32)
    (hrep : ∀ i, i < n → i < out.length → out[i]? = p i) :
    ∃ b, dupPattern out n = some b ∧ b.length = out.length ∧ Rep p n out.length b := by
  unfold dupPattern
  by_cases h : out.length ≤ n
  · rw [if_pos h]
    refine ⟨out, rfl, rfl, ?_⟩
    intro i hi
    rw [Nat.mod_eq_of_lt (by omega)]; exact hrep i (by omega) hi
  · rw [if_neg h]
    refine dupLoop_spec p n _ _ n out hn (Nat.dvd_refl n) (by omega) hlen (Nat.le_refl _) ?_
    intro i hi
    rw [Nat.mod_eq_of_lt hi]; exact hrep i hi (by omega)

/-- **C21**, fill: cpy_pattern makes byte `i` of the buffer byte `i mod n` of the pattern. -/
theorem C21_fill (pattern out : List Byte) (hp : pattern ≠ []) (hlen : out.length < 2 ^ 32) :
    ∃ b, cpyPattern pattern out = some b ∧ b.length = out.length ∧
      ∀ i < out.length, b[i]? = pattern[i % pattern.length]? := by
  have hn : 0 < pattern.length := List.length_pos_iff.2 hp
  unfold cpyPattern
  by_cases h0 : out.length = 0
  · rw [if_pos (Or.inr h0)]
    exact ⟨out, rfl, rfl, fun i hi => by omega⟩
  · rw [if_neg (by omega)]
    obtain ⟨s, hs, hl, hg⟩ := memRead_some (buf := pattern) (off := 0) (len := min pattern.length out.length) (by omega)
    obtain ⟨b, hb, hbl, hbg⟩ := memWrite_some (buf := out) (src := s) (off := 0) (by omega)
    rw [hs, Option.bind_some, hb, Option.bind_some]
    obtain ⟨r, hr, hrl, hrr⟩ := dupPattern_spec (fun i => pattern[i]?) pattern.length hn b (by omega) (by
      intro i hi hi'
      rw [hbg i, if_pos (by omega), hg _ (by omega)]
      congr 1; omega)
    exact ⟨r, hr, by omega, by rw [← hbl]; exact hrr⟩

/-! ## Checking -/

theorem memEq_some {a b : List Byte} {ao bo n : Nat} (h1 : ao + n ≤ a.length) (h2 : bo + n ≤ b.length) :
    ∃ r, memEq a ao b bo n = some r ∧ (r = true ↔ ∀ i < n, a[ao + i]? = b[bo + i]?) := by
  obtain ⟨x, hx, hxl, hxg⟩ := memRead_some (buf := a) (off := ao) (len := n) h1
  obtain ⟨y, hy, hyl, hyg⟩ := memRead_some (buf := b) (off := bo) (len := n) h2
  refine ⟨x == y, ?_, ?_⟩
  · unfold memEq; rw [hx, Option.bind_some, hy, Option.bind_some]
  · rw [beq_iff_eq]
    constructor
    · intro h i hi; rw [← hxg i hi, ← hyg i hi, h]
    · intro h
      apply List.ext_getElem?
      intro i
      by_cases hi : i < n
      · rw [hxg i hi, hyg i hi, h i hi]
      · rw [List.getElem?_eq_none (by omega), List.getElem?_eq_none (by omega)]

/-- The buffer holds the pattern, starting with pattern byte `off`. -/
def Holds (pattern : List Byte) (off : Nat) (buf : List Byte) : Prop :=
  ∀ i < buf.length, buf[i]? = pattern[(off + i) % pattern.length]?

theorem cmpPattern_spec (pattern : List Byte) (off : Nat) (buf : List Byte) (ho : off < pattern.length) :
    ∃ r, cmpPattern pattern off buf = some r ∧ (r = true ↔ Holds pattern off buf) := by
  obtain ⟨n, hn⟩ : ∃ n, n = pattern.length := ⟨_, rfl⟩
  obtain ⟨len, hlen⟩ : ∃ l, l = buf.length := ⟨_, rfl⟩
  unfold cmpPattern
  simp only [← hn, ← hlen]
  -- first comparison: the buffer has period n
  obtain ⟨r1, e1, h1⟩ : ∃ r, (if n < len then memEq buf 0 buf n (len - n) else some true) = some r ∧
      (r = true ↔ ∀ i, i + n < len → buf[i]? = buf[i + n]?) := by
    by_cases h : n < len
    · obtain ⟨r, hr, hh⟩ := memEq_some (a := buf) (b := buf) (ao := 0) (bo := n) (n := len - n) (by omega) (by omega)
      refine ⟨r, by rw [if_pos h]; exact hr, hh.trans ⟨fun g i hi => ?_, fun g i hi => ?_⟩⟩
      · have := g i (by omega); rw [Nat.zero_add, Nat.add_comm n i] at this; exact this
      · rw [Nat.zero_add, Nat.add_comm n i]; exact g i (by omega)
    · exact ⟨true, by rw [if_neg h], by simp; intro i hi; omega⟩
  -- second comparison
  obtain ⟨r2, e2, h2⟩ : ∃ r, (if off ≠ 0 then memEq buf 0 pattern off (min len (n - off)) else some true) = some r ∧
      (r = true ↔ (off ≠ 0 → ∀ i < min len (n - off), buf[i]? = pattern[off + i]?)) := by
    by_cases h : off ≠ 0
    · obtain ⟨r, hr, hh⟩ := memEq_some (a := buf) (b := pattern) (ao := 0) (bo := off) (n := min len (n - off)) (by omega) (by omega)
      refine ⟨r, by rw [if_pos h]; exact hr, hh.trans ⟨fun g _ i hi => ?_, fun g i hi => ?_⟩⟩
      · have := g i hi; rwa [Nat.zero_add] at this
      · rw [Nat.zero_add]; exact g h i hi
    · exact ⟨true, by rw [if_neg h], by simp [h]⟩
  obtain ⟨d, hd⟩ : ∃ d, d = (if off ≠ 0 then min len (n - off) else 0) := ⟨_, rfl⟩
  obtain ⟨m, hm⟩ : ∃ m, m = (if off ≠ 0 then off else n) := ⟨_, rfl⟩
  obtain ⟨r3, e3, h3⟩ : ∃ r, (if len - d ≠ 0 then memEq buf d pattern 0 (min (len - d) m) else some true) = some r ∧
      (r = true ↔ ∀ i < min (len - d) m, buf[d + i]? = pattern[i]?) := by
    have hdl : d ≤ len := by rw [hd]; split <;> omega
    have hmn : m ≤ n := by rw [hm]; split <;> omega
    by_cases h : len - d ≠ 0
    · obtain ⟨r, hr, hh⟩ := memEq_some (a := buf) (b := pattern) (ao := d) (bo := 0) (n := min (len - d) m) (by omega) (by omega)
      refine ⟨r, by rw [if_pos h]; exact hr, hh.trans ⟨fun g i hi => ?_, fun g i hi => ?_⟩⟩
      · have := g i hi; rwa [Nat.zero_add] at this
      · rw [Nat.zero_add]; exact g i hi
    · refine ⟨true, by rw [if_neg h], ?_⟩
      simp only [true_iff]; intro i hi; omega
  rw [e1, Option.bind_some, e2, Option.bind_some, ← hd, ← hm, e3]
  -- the conjunction of the three is the claim
  have key : (r1 = true ∧ r2 = true ∧ r3 = true) ↔ Holds pattern off buf := by
    rw [h1, h2, h3]
    unfold Holds
    rw [← hn, ← hlen]
    constructor
    · rintro ⟨g1, g2, g3⟩ i
      induction i using Nat.strongRecOn with
      | _ i ih =>
      intro hi
      by_cases hin : i < n
      · -- within the first period
        by_cases h0 : off = 0
        · subst h0
          have hd0 : d = 0 := by rw [hd]; simp
          have hmn : m = n := by rw [hm]; simp
          have := g3 i (by omega)
          rw [hd0, Nat.zero_add] at this
          rw [this, Nat.zero_add, Nat.mod_eq_of_lt hin]
        · have hdd : d = min len (n - off) := by rw [hd, if_pos h0]
          have hmo : m = off := by rw [hm, if_pos h0]
          by_cases hlt : i < n - off
          · rw [g2 h0 i (by omega), Nat.mod_eq_of_lt (by omega)]
          · have := g3 (i - (n - off)) (by omega)
            rw [show d + (i - (n - off)) = i by omega] at this
            rw [this, show off + i = (i - (n - off)) + n by omega, Nat.add_mod_right, Nat.mod_eq_of_lt (by omega)]
      · have a := g1 (i - n) (by omega)
        rw [show i - n + n = i by omega] at a
        rw [← a, ih (i - n) (by omega) (by omega)]
        congr 1
        rw [show off + i = off + (i - n) + n by omega, Nat.add_mod_right]
    · intro g
      refine ⟨fun i hi => ?_, fun h0 i hi => ?_, fun i hi => ?_⟩
      · rw [g i (by omega), g (i + n) hi, ← Nat.add_assoc, Nat.add_mod_right]
      · rw [g i (by omega), Nat.mod_eq_of_lt (by omega)]
      · by_cases h0 : off = 0
        · subst h0
          have hd0 : d = 0 := by rw [hd]; simp
          have hmn : m = n := by rw [hm]; simp
          rw [hd0, Nat.zero_add, g i (by omega), Nat.zero_add, Nat.mod_eq_of_lt (by omega)]
        · have hdd : d = min len (n - off) := by rw [hd, if_pos h0]
          have hmo : m = off := by rw [hm, if_pos h0]
          have hdn : d = n - off := by omega
          rw [g (d + i) (by omega), show off + (d + i) = i + n by omega, Nat.add_mod_right, Nat.mod_eq_of_lt (by omega)]
  cases r1 <;> cases r2 <;> simp at key ⊢
  · exact key
  · exact key
  · exact key
  · exact key

theorem slowPath_some (pattern : List Byte) (buf : List Byte) : ∀ mod, mod < pattern.length →
    ∃ r, slowPath pattern buf mod = some r := by
  induction buf with
  | nil => intro mod _; exact ⟨true, rfl⟩
  | cons b buf ih =>
    intro mod hm
    unfold slowPath
    rw [List.getElem?_eq_getElem hm]
    dsimp only
    split
    · exact ⟨false, rfl⟩
    · apply ih; split <;> omega

theorem checkPattern_spec (buf : List Byte) (mod : Nat) (pattern : List Byte) (ho : mod < pattern.length) :
    ∃ r, checkPattern buf mod pattern = some r ∧ (r = true ↔ Holds pattern mod buf) := by
  obtain ⟨r, hr, hh⟩ := cmpPattern_spec pattern mod buf ho
  obtain ⟨s, hs⟩ := slowPath_some pattern buf mod ho
  unfold checkPattern
  rw [hr, Option.bind_some, hs, Option.bind_some]
  cases r
  · exact ⟨false, rfl, hh⟩
  · exact ⟨true, rfl, hh⟩

/-- **C21**, check: cmp_pattern and check_pattern never read outside the buffers, accept a buffer if and
only if byte `i` is pattern byte `(off + i) mod n` for every `i`, and so reject every buffer that differs in
any byte. -/
theorem C21_check (pattern : List Byte) (off : Nat) (buf : List Byte) (ho : off < pattern.length) :
    (∃ r, cmpPattern pattern off buf = some r ∧
      (r = true ↔ ∀ i < buf.length, buf[i]? = pattern[(off + i) % pattern.length]?)) ∧
    (∃ r, checkPattern buf off pattern = some r ∧
      (r = true ↔ ∀ i < buf.length, buf[i]? = pattern[(off + i) % pattern.length]?)) :=
  ⟨cmpPattern_spec pattern off buf ho, checkPattern_spec buf off pattern ho⟩

/-- **C21**, agreement: any part of a filled buffer is accepted at its phase. -/
theorem C21_agree (pattern out : List Byte) (hp : pattern ≠ []) (hlen : out.length < 2 ^ 32) (s k : Nat) (hk : s + k ≤ out.length) :
    ∃ b, cpyPattern pattern out = some b ∧
      checkPattern ((b.drop s).take k) (s % pattern.length) pattern = some true := by
  have hn : 0 < pattern.length := List.length_pos_iff.2 hp
  obtain ⟨b, hb, hbl, hg⟩ := C21_fill pattern out hp hlen
  refine ⟨b, hb, ?_⟩
  obtain ⟨r, hr, hh⟩ := checkPattern_spec ((b.drop s).take k) (s % pattern.length) pattern (Nat.mod_lt _ hn)
  rw [hr]
  congr 1
  rw [hh]
  intro i hi
  simp only [List.length_take, List.length_drop] at hi
  rw [List.getElem?_take_of_lt (by omega), List.getElem?_drop, hg _ (by omega), Nat.mod_add_mod]

/-! ## Formats -/

/-- Formats are at increasing, non-overlapping offsets (they are recorded in the order of the pattern). -/
def Sorted (fmts : List Nat) : Prop := fmts.Pairwise fun f g => f + 8 ≤ g

/-- Byte `j` of the pattern after pasting the offset `x`: inside a format a byte of the offset,
otherwise the pattern byte. -/
def pasted (pattern : List Byte) (fmts : List Nat) (x : BitVec 64) (j : Nat) : Option Byte :=
  match fmts.find? (fun f => decide (f ≤ j ∧ j < f + 8)) with
  | some f => (leBytes x)[j - f]?
  | none => pattern[j]?

theorem pasteInplace_spec (x : BitVec 64) : ∀ (fmts : List Nat) (pattern : List Byte), Sorted fmts →
    ∃ r, pasteInplace pattern fmts x = some r ∧ r.length = pattern.length ∧
      ∀ j < pattern.length, r[j]? = pasted pattern fmts x j := by
  intro fmts
  induction fmts with
  | nil => intro pattern _; exact ⟨pattern, rfl, rfl, fun j _ => rfl⟩
  | cons f fs ih =>
    intro pattern hs
    have hs' := List.pairwise_cons.1 hs
    unfold pasteInplace
    by_cases hf : pattern.length ≤ f
    · rw [if_pos hf]
      refine ⟨pattern, rfl, rfl, fun j hj => ?_⟩
      have : (f :: fs).find? (fun f => decide (f ≤ j ∧ j < f + 8)) = none := by
        rw [List.find?_eq_none]
        intro g hg
        rcases List.mem_cons.1 hg with rfl | hg
        · simp; omega
        · have := hs'.1 g hg; simp; omega
      unfold pasted; rw [this]
    · rw [if_neg hf]
      have hle : (leBytes x).length = 8 := by simp [leBytes]
      obtain ⟨p', hp, hpl, hpg⟩ := memWrite_some (buf := pattern) (off := f)
        (src := (leBytes x).take (min (min (pattern.length - f) 8) 8)) (by rw [List.length_take]; omega)
      obtain ⟨r, hr, hrl, hrg⟩ := ih p' hs'.2
      rw [hp, Option.bind_some]
      refine ⟨r, hr, by omega, fun j hj => ?_⟩
      rw [hrg j (by omega)]
      rw [List.length_take, hle] at hpg
      by_cases hj' : f ≤ j ∧ j < f + 8
      · have e1 : (f :: fs).find? (fun f => decide (f ≤ j ∧ j < f + 8)) = some f := by
          rw [List.find?_cons_of_pos (by simpa using hj')]
        have e2 : fs.find? (fun f => decide (f ≤ j ∧ j < f + 8)) = none := by
          rw [List.find?_eq_none]
          intro g hg
          have := hs'.1 g hg; simp; omega
        unfold pasted
        rw [e1, e2]
        dsimp only
        rw [hpg j, if_pos (by omega), List.getElem?_take_of_lt (by omega)]
      · have e1 : (f :: fs).find? (fun f => decide (f ≤ j ∧ j < f + 8)) =
            fs.find? (fun f => decide (f ≤ j ∧ j < f + 8)) := by
          rw [List.find?_cons_of_neg (by simpa using hj')]
        unfold pasted
        rw [e1, hpg j, if_neg (by omega)]

/-- paste_format fills the range with the pasted pattern. -/
theorem pasteFormat_spec (pattern : List Byte) (fmts : List Nat) (out : List Byte) (x : BitVec 64)
    (hp : 0 < pattern.length) (hs : Sorted fmts) (hlen : out.length < 2 ^ 32) :
    ∃ r, pasteFormat pattern fmts out x = some r ∧ r.length = out.length ∧
      ∀ i < out.length, r[i]? = pasted pattern fmts x (i % pattern.length) := by
  unfold pasteFormat
  by_cases h0 : out.length = 0
  · rw [if_pos (Or.inr h0)]; exact ⟨out, rfl, rfl, fun i hi => by omega⟩
  · rw [if_neg (by omega)]
    dsimp only
    obtain ⟨len, hl⟩ : ∃ l, l = min pattern.length out.length := ⟨_, rfl⟩
    rw [← hl]
    obtain ⟨s, hs1, hsl, hsg⟩ := memRead_some (buf := pattern) (off := 0) (len := len) (by omega)
    obtain ⟨b, hb, hbl, hbg⟩ := memWrite_some (buf := out) (src := s) (off := 0) (by omega)
    obtain ⟨h, hh, hhl, hhg⟩ := pasteInplace_spec x fmts (b.take len) hs
    rw [hs1, Option.bind_some, hb, Option.bind_some, hh, Option.bind_some]
    rw [List.length_take] at hhl hhg
    have hlen2 : (h ++ b.drop len).length = out.length := by rw [List.length_append, List.length_drop]; omega
    obtain ⟨r, hr, hrl, hrr⟩ := dupPattern_spec (pasted pattern fmts x) pattern.length hp (h ++ b.drop len) (by omega) (by
      intro i hi hi'
      rw [List.getElem?_append_left (by omega), hhg i (by omega)]
      unfold pasted
      have : (b.take len)[i]? = pattern[i]? := by
        rw [List.getElem?_take_of_lt (by omega), hbg i, if_pos (by omega), hsg _ (by omega)]
        congr 1; omega
      rw [this])
    exact ⟨r, hr, by omega, by rw [← hlen2]; exact hrr⟩

/-! ## The verify buffer -/

/-- What byte `i` of a buffer at file offset `offset` should be: the pattern starts afresh at every
`interval` (once, when the interval is 0), and formats hold the file offset of that start. -/
def wanted (pattern : List Byte) (fmts : List Nat) (interval : Nat) (offset : BitVec 64) (i : Nat) : Option Byte :=
  if interval = 0 then pasted pattern fmts offset (i % pattern.length)
  else pasted pattern fmts (offset + BitVec.ofNat 64 (i / interval * interval)) (i % interval % pattern.length)

theorem fillLoop_spec (pattern : List Byte) (fmts : List Nat) (interval : Nat) (offset : BitVec 64)
    (hp : 0 < pattern.length) (hs : Sorted fmts) (hi : 0 < interval) :
    ∀ (fuel k pos : Nat) (buf : List Byte), pos = min (k * interval) buf.length → buf.length < 2 ^ 32 → buf.length - pos ≤ fuel →
      (∀ i < pos, buf[i]? = wanted pattern fmts interval offset i) →
      ∃ b, fillLoop pattern fmts interval buf.length fuel buf pos pos (offset + BitVec.ofNat 64 (k * interval)) = some b ∧
        b.length = buf.length ∧ ∀ i < buf.length, b[i]? = wanted pattern fmts interval offset i := by
  intro fuel
  induction fuel with
  | zero =>
    intro k pos buf hpos hlen hf hw
    unfold fillLoop
    rw [if_neg (by omega)]
    exact ⟨buf, rfl, rfl, fun i h => hw i (by omega)⟩
  | succ fuel ih =>
    intro k pos buf hpos hlen hf hw
    unfold fillLoop
    by_cases hc : pos < buf.length
    · rw [if_pos hc]
      dsimp only
      have hpk : pos = k * interval := by omega
      rw [if_neg (by omega), if_pos (by rw [hpk]; exact Nat.mul_mod_left k interval)]
      obtain ⟨todo, ht⟩ : ∃ t, t = min interval (buf.length - pos) := ⟨_, rfl⟩
      rw [← ht]
      obtain ⟨o, ho, hol, -⟩ := memRead_some (buf := buf) (off := pos) (len := todo) (by omega)
      obtain ⟨r, hr, hrl, hrg⟩ := pasteFormat_spec pattern fmts o (offset + BitVec.ofNat 64 (k * interval)) hp hs (by omega)
      obtain ⟨b, hb, hbl, hbg⟩ := memWrite_some (buf := buf) (src := r) (off := pos) (by omega)
      rw [ho, Option.bind_some, hr, Option.bind_some, hb, Option.bind_some]
      have hoff : offset + BitVec.ofNat 64 (k * interval) + BitVec.ofNat 64 interval =
          offset + BitVec.ofNat 64 ((k + 1) * interval) := by
        rw [BitVec.add_assoc, ← BitVec.ofNat_add, Nat.succ_mul]
      rw [hoff, ← hbl]
      have hkk : (k + 1) * interval = k * interval + interval := Nat.succ_mul k interval
      obtain ⟨q, hq, hql, hqg⟩ := ih (k + 1) (pos + todo) b (by omega) (by omega) (by omega) (by
        intro i hi'
        rw [hbg i]
        split
        · rename_i h
          rw [hrg _ (by omega)]
          unfold wanted
          rw [if_neg (by omega)]
          have e1 : i / interval = k := by
            rw [Nat.div_eq_iff (by omega)]
            constructor
            · omega
            · have : interval * k = k * interval := Nat.mul_comm _ _
              omega
          have e2 : i % interval = i - pos := by
            have := Nat.div_add_mod i interval
            rw [e1] at this
            have : interval * k = k * interval := Nat.mul_comm _ _
            omega
          rw [e1, e2]
        · exact hw i (by omega))
      exact ⟨q, hq, hql, hqg⟩
    · rw [if_neg hc]
      exact ⟨buf, rfl, rfl, fun i h => hw i (by omega)⟩

theorem C21_fill_verify (pattern : List Byte) (fmts : List Nat) (interval : Nat) (buf : List Byte) (offset : BitVec 64)
    (hp : pattern ≠ []) (hs : Sorted fmts) (hlen : buf.length < 2 ^ 32) :
    ∃ b, fillVerifyPattern pattern fmts interval buf offset = some b ∧ b.length = buf.length ∧
      ∀ i < buf.length, b[i]? = wanted pattern fmts interval offset i := by
  have hn : 0 < pattern.length := List.length_pos_iff.2 hp
  unfold fillVerifyPattern
  by_cases h0 : buf.length = 0
  · refine ⟨buf, ?_, rfl, fun i hi => by omega⟩
    unfold fillLoop; rw [if_neg (by omega)]
  · have hi : 0 < (if interval = 0 then buf.length else interval) := by split <;> omega
    obtain ⟨b, hb, hbl, hbg⟩ := fillLoop_spec pattern fmts _ offset hn hs hi buf.length 0 0 buf (by omega) hlen (by omega)
      (fun i h => by omega)
    have e0 : offset + BitVec.ofNat 64 (0 * if interval = 0 then buf.length else interval) = offset := by
      rw [Nat.zero_mul]; simp
    rw [e0] at hb
    refine ⟨b, hb, hbl, fun i hi' => ?_⟩
    rw [hbg i hi']
    by_cases hz : interval = 0
    · rw [if_pos hz]
      unfold wanted
      rw [if_neg h0, if_pos hz, Nat.div_eq_of_lt hi', Nat.mod_eq_of_lt hi', Nat.zero_mul]
      simp
    · rw [if_neg hz]

/-- Two patterns that agree outside the formats. -/
def SamePasted (fmts : List Nat) (p q : List Byte) : Prop :=
  p.length = q.length ∧ ∀ x j, j < q.length → pasted p fmts x j = pasted q fmts x j

theorem samePasted_paste {fmts : List Nat} {p q r : List Byte} {x : BitVec 64} (hs : Sorted fmts)
    (h : SamePasted fmts p q) (hr : pasteInplace p fmts x = some r) :
    SamePasted fmts r q ∧ ∀ j < q.length, r[j]? = pasted q fmts x j := by
  obtain ⟨r', hr', hl, hg⟩ := pasteInplace_spec x fmts p hs
  rw [hr] at hr'
  cases hr'
  have hpq := h.1
  refine ⟨⟨by omega, fun y j hj => ?_⟩, fun j hj => ?_⟩
  · rw [← h.2 y j hj]
    have := hg j (by omega)
    unfold pasted at this ⊢
    split
    · rfl
    · rename_i hn
      rw [hn] at this
      exact this
  · rw [hg j (by omega), h.2 x j hj]

theorem verifyLoop_spec (pattern0 : List Byte) (fmts : List Nat) (interval len : Nat) (buf : List Byte) (extent : Nat) (offset : BitVec 64)
    (hp : 0 < pattern0.length) (hs : Sorted fmts) (hi : 0 < interval) (hb : extent + len ≤ buf.length) :
    ∀ (fuel done : Nat) (pattern : List Byte), SamePasted fmts pattern pattern0 → done < len → len - done ≤ fuel →
      ∃ r, verifyLoop fmts interval len buf fuel pattern (extent + done) done
          (min (len - done) (interval - (extent + done) % interval)) ((extent + done) % interval % pattern0.length)
          (offset + BitVec.ofNat 64 ((extent + done) / interval * interval)) = some r ∧
        (r = true ↔ ∀ i, extent + done ≤ i → i < extent + len → buf[i]? = wanted pattern0 fmts interval offset i) := by
  intro fuel
  induction fuel with
  | zero => intro done pattern _ h1 h2; omega
  | succ fuel ih =>
    intro done pattern hsp hd hf
    obtain ⟨s, hse⟩ : ∃ s, s = extent + done := ⟨_, rfl⟩
    rw [← hse]
    have hm : s % interval < interval := Nat.mod_lt _ hi
    obtain ⟨todo, ht⟩ : ∃ t, t = min (len - done) (interval - s % interval) := ⟨_, rfl⟩
    rw [← ht]
    unfold verifyLoop
    rw [if_pos hd]
    dsimp only
    rw [if_pos (by omega)]
    obtain ⟨pat, hpat, -, -⟩ := pasteInplace_spec (offset + BitVec.ofNat 64 (s / interval * interval)) fmts pattern hs
    obtain ⟨hsp', hpg⟩ := samePasted_paste hs hsp hpat
    have hpl := hsp'.1
    obtain ⟨b, hbr, hbl, hbg⟩ := memRead_some (buf := buf) (off := s) (len := todo) (by omega)
    obtain ⟨rc, hrc, hrh⟩ := checkPattern_spec b (s % interval % pattern0.length) pat (by rw [hpl]; exact Nat.mod_lt _ hp)
    rw [hpat, Option.bind_some, hbr, Option.bind_some, hrc, Option.bind_some]
    -- the chunk just checked
    have chunk : rc = true ↔ ∀ i, s ≤ i → i < s + todo → buf[i]? = wanted pattern0 fmts interval offset i := by
      rw [hrh]
      unfold Holds
      have aux : ∀ j < todo, pat[(s % interval % pattern0.length + j) % pat.length]? =
          wanted pattern0 fmts interval offset (s + j) := by
        intro j hj
        have e := Nat.div_add_mod s interval
        have ec : interval * (s / interval) = s / interval * interval := Nat.mul_comm _ _
        have e1 : (s + j) / interval = s / interval := by
          rw [Nat.div_eq_iff hi]
          constructor <;> omega
        have e2 : (s + j) % interval = s % interval + j := by
          have := Nat.div_add_mod (s + j) interval
          rw [e1] at this
          omega
        rw [hpl, Nat.mod_add_mod, hpg _ (Nat.mod_lt _ hp)]
        unfold wanted
        rw [if_neg (by omega), e1, e2]
      constructor
      · intro g i h1 h2
        have a := g (i - s) (by omega)
        rw [hbg _ (by omega), aux _ (by omega), show s + (i - s) = i by omega] at a
        exact a
      · intro g j hj
        rw [hbg _ (by omega), aux _ (by omega)]
        exact g (s + j) (by omega) (by omega)
    cases rc with
    | false =>
      refine ⟨false, rfl, ⟨fun h => by simp at h, fun g => ?_⟩⟩
      exact chunk.2 fun i h1 h2 => g i h1 (by omega)
    | true =>
      have ck := chunk.1 rfl
      simp only [if_true]
      by_cases hend : len ≤ done + todo
      · rw [if_pos hend]
        exact ⟨true, rfl, ⟨fun _ i h1 h2 => ck i h1 (by omega), fun _ => rfl⟩⟩
      · rw [if_neg hend]
        have e := Nat.div_add_mod s interval
        have ec : interval * (s / interval) = s / interval * interval := Nat.mul_comm _ _
        have ek : (s / interval + 1) * interval = s / interval * interval + interval := Nat.succ_mul _ _
        have hnext : extent + (done + todo) = (s / interval + 1) * interval := by omega
        obtain ⟨r, hr, hrr⟩ := ih (done + todo) pat hsp' (by omega) (by omega)
        have hm0 : (extent + (done + todo)) % interval = 0 := by rw [hnext]; exact Nat.mul_mod_left _ _
        have hd0 : (extent + (done + todo)) / interval = s / interval + 1 := by rw [hnext]; exact Nat.mul_div_cancel _ hi
        rw [hm0, hd0, Nat.sub_zero, Nat.zero_mod] at hr
        have hoff : offset + BitVec.ofNat 64 (s / interval * interval) + BitVec.ofNat 64 interval =
            offset + BitVec.ofNat 64 ((s / interval + 1) * interval) := by
          rw [BitVec.add_assoc, ← BitVec.ofNat_add, ek]
        rw [hoff, show s + todo = extent + (done + todo) by omega]
        refine ⟨r, hr, hrr.trans ⟨fun g i h1 h2 => ?_, fun g i h1 h2 => g i (by omega) h2⟩⟩
        by_cases h : i < s + todo
        · exact ck i h1 h
        · exact g i (by omega) h2

/-- **C21**, the verifier: for header number `num` it accepts a buffer if and only if every payload byte of
that header is the wanted one, for every pattern, format, pattern interval, header size and position. -/
theorem C21_verify (pattern : List Byte) (fmts : List Nat) (interval : Nat) (buf : List Byte) (inc hs num : Nat) (offset : BitVec 64)
    (hp : pattern ≠ []) (hf : Sorted fmts) (hh : hs < inc) (hb : inc * num + inc ≤ buf.length) :
    ∃ r, verifyIoUPattern pattern fmts interval buf inc hs num offset = some r ∧
      (r = true ↔ ∀ i, inc * num + hs ≤ i → i < inc * num + inc → buf[i]? = wanted pattern fmts interval offset i) := by
  have hn : 0 < pattern.length := List.length_pos_iff.2 hp
  unfold verifyIoUPattern
  rw [if_neg (by omega)]
  have hext : inc * num + hs + (inc - hs) = inc * num + inc := by omega
  by_cases hz : interval = 0
  · subst hz
    rw [if_pos rfl]
    obtain ⟨pat, hpat, hpl, hpg⟩ := pasteInplace_spec offset fmts pattern hf
    rw [hpat, Option.bind_some]
    dsimp only
    rw [if_neg (by simp)]
    obtain ⟨len, hlen⟩ : ∃ l, l = inc - hs := ⟨_, rfl⟩
    rw [← hlen]
    obtain ⟨b, hbr, hbl, hbg⟩ := memRead_some (buf := buf) (off := inc * num + hs) (len := len) (by omega)
    obtain ⟨rc, hrc, hrh⟩ := checkPattern_spec b ((inc * num + hs) % pat.length) pat (Nat.mod_lt _ (by omega))
    have hloop : verifyLoop fmts 0 len buf len pat (inc * num + hs) 0 len ((inc * num + hs) % pat.length) offset = some rc := by
      cases len with
      | zero => omega
      | succ len =>
        unfold verifyLoop
        rw [if_pos (by omega)]
        dsimp only
        rw [if_neg (by simp), Option.bind_some, hbr, Option.bind_some, hrc, Option.bind_some]
        cases rc
        · rfl
        · rw [if_pos rfl, if_pos (by omega)]
    refine ⟨rc, hloop, hrh.trans ?_⟩
    unfold Holds
    have aux : ∀ j < len, pat[((inc * num + hs) % pat.length + j) % pat.length]? =
        wanted pattern fmts 0 offset (inc * num + hs + j) := by
      intro j hj
      rw [Nat.mod_add_mod, hpl, hpg _ (Nat.mod_lt _ hn)]
      unfold wanted; rw [if_pos rfl]
    constructor
    · intro g i h1 h2
      have a := g (i - (inc * num + hs)) (by omega)
      rw [hbg _ (by omega), aux _ (by omega), show inc * num + hs + (i - (inc * num + hs)) = i by omega] at a
      exact a
    · intro g j hj
      rw [hbg _ (by omega), aux _ (by omega)]
      exact g _ (by omega) (by omega)
  · rw [if_neg hz, Option.bind_some]
    dsimp only
    rw [if_pos hz]
    obtain ⟨r, hr, hrr⟩ := verifyLoop_spec pattern fmts interval (inc - hs) buf (inc * num + hs) offset hn hf (by omega) (by omega)
      (inc - hs) 0 pattern ⟨rfl, fun _ _ _ => rfl⟩ (by omega) (by omega)
    rw [Nat.add_zero, Nat.sub_zero] at hr
    refine ⟨r, hr, hrr.trans ?_⟩
    rw [Nat.add_zero, hext]

/-- **C21**, the whole round trip: a buffer filled for an I/O and then given headers is accepted for every
header number, and is rejected once a payload byte is changed.  `b'` is the buffer read back. -/
theorem C21_roundtrip (pattern : List Byte) (fmts : List Nat) (interval : Nat) (buf : List Byte) (inc hs : Nat) (offset : BitVec 64)
    (hp : pattern ≠ []) (hf : Sorted fmts) (hlen : buf.length < 2 ^ 32) (hh : hs < inc) :
    ∃ b, fillVerifyPattern pattern fmts interval buf offset = some b ∧ b.length = buf.length ∧
      ∀ num b', b'.length = b.length → inc * num + inc ≤ b.length →
        ∃ r, verifyIoUPattern pattern fmts interval b' inc hs num offset = some r ∧
          (r = true ↔ ∀ i, inc * num + hs ≤ i → i < inc * num + inc → b'[i]? = b[i]?) := by
  obtain ⟨b, hb, hbl, hbg⟩ := C21_fill_verify pattern fmts interval buf offset hp hf hlen
  refine ⟨b, hb, hbl, fun num b' hl hn => ?_⟩
  obtain ⟨r, hr, hrr⟩ := C21_verify pattern fmts interval b' inc hs num offset hp hf hh (by omega)
  refine ⟨r, hr, hrr.trans ⟨fun g i h1 h2 => ?_, fun g i h1 h2 => ?_⟩⟩
  · rw [g i h1 h2, hbg i (by omega)]
  · rw [g i h1 h2, hbg i (by omega)]

/-! ### Non-trivial cases -/

def exPat : List Byte := [1#8, 2#8, 3#8, 0#8, 0#8, 0#8, 0#8, 0#8, 0#8, 0#8, 0#8, 9#8]

example : cpyPattern [1#8, 2#8, 3#8] (List.replicate 8 0#8) = some [1#8, 2#8, 3#8, 1#8, 2#8, 3#8, 1#8, 2#8] := by decide +kernel
example : cmpPattern [1#8, 2#8, 3#8] 2 [3#8, 1#8, 2#8, 3#8, 1#8] = some true ∧
    cmpPattern [1#8, 2#8, 3#8] 2 [3#8, 1#8, 2#8, 3#8, 2#8] = some false := by decide +kernel
/-- Two headers of four bytes in a 32 byte buffer, formats at 3, pattern restarting every 10 bytes. -/
example : Sorted [3] := by simp [Sorted]
example : ((fillVerifyPattern exPat [3] 10 (List.replicate 32 0#8) 0x1000#64).map fun b =>
    (b[24]?, verifyIoUPattern exPat [3] 10 b 16 4 1 0x1000#64, verifyIoUPattern exPat [3] 10 (b.set 24 7#8) 16 4 1 0x1000#64)) =
      some (some 0x10#8, some true, some false) := by
  decide +kernel

end Fio.Pattern
