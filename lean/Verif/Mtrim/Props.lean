/-
C97: trims with several ranges.
-/
import Verif.Mtrim.Spec
import Verif.Smalloc.Props
namespace Fio.Mtrim
open Fio.Smalloc (read_write_ne read_write_same memWrite_length memWrite_ok)

/-- Sizes that do not overflow: the file with a `num_range` of 256 at most, the buffer in memory. -/
structure Env (c : Cfg) (draw : Nat → Draw) (s : St) : Prop where
  size : c.size < 2 ^ 55
  ranges : c.numRange ≤ 256
  off : ∀ i, (draw i).off < 2 ^ 63
  len : ∀ i, (draw i).len < 2 ^ 63
  buf : s.buf + 16 * c.numRange ≤ s.mem.length

theorem drawn_succ (draw : Nat → Draw) (n : Nat) :
    drawn draw (n + 1) = drawn draw n ++ [((draw n).off, (draw n).len)] := by
  simp [drawn, List.range_succ]

theorem bytes_append (a b : List (Nat × Nat)) : bytes (a ++ b) = bytes a + bytes b := by
  simp [bytes]

theorem bytes_succ (draw : Nat → Draw) (n : Nat) :
    bytes (drawn draw (n + 1)) = bytes (drawn draw n) + (draw n).len := by
  rw [drawn_succ, bytes_append]
  simp [bytes]

/-- What the state is after `i` ranges. -/
structure Filled (c : Cfg) (draw : Nat → Draw) (s0 s : St) (i : Nat) : Prop where
  good : ∀ j, j < i → Good c (draw j)
  start : ∀ j, j < i → memRead s.mem (s0.buf + 16 * j) 8 = some (le 8 (draw j).off)
  len : ∀ j, j < i → memRead s.mem (s0.buf + 16 * j + 8) 8 = some (le 8 (draw j).len)
  others : ∀ o n, o + n ≤ s0.buf ∨ s0.buf + 16 * i ≤ o → memRead s.mem o n = memRead s0.mem o n
  buf : s.buf = s0.buf
  mem : s.mem.length = s0.mem.length
  last : ∀ j, j + 1 = i → s.offset = (draw j).off

theorem fillLoop_spec {c : Cfg} {draw : Nat → Draw} {s0 : St} (he : Env c draw s0) :
    ∀ (n i : Nat) (s : St), i + n = c.numRange → Filled c draw s0 s i →
      fillLoop c draw n i (bytes (drawn draw i)) s = none ∨
      ∃ k s', fillLoop c draw n i (bytes (drawn draw i)) s = some (k, bytes (drawn draw k), s') ∧
        i ≤ k ∧ k ≤ c.numRange ∧ (k < c.numRange → ¬ Good c (draw k)) ∧
        Filled c draw s0 { s' with offset := if k = c.numRange then s'.offset else
          (draw (k - 1)).off } k ∧
        (k < c.numRange → s'.offset = (draw k).off) := by
  intro n
  induction n with
  | zero =>
    intro i s hn hf
    right
    refine ⟨i, s, rfl, Nat.le_refl _, by omega, by omega, ?_, by omega⟩
    rw [if_pos (by omega)]
    exact hf
  | succ n ih =>
    intro i s hn hf
    have hoff := he.off i
    have hlen := he.len i
    have hsz := he.size
    have hr := he.ranges
    have hbuf := he.buf
    unfold fillLoop
    dsimp only
    have stop : ∀ b, ¬ Good c (draw i) →
        ∃ k s', some (i, bytes (drawn draw i),
            ({ s with offset := (draw i).off, buflen := b } : St)) =
            some (k, bytes (drawn draw k), s') ∧
          i ≤ k ∧ k ≤ c.numRange ∧ (k < c.numRange → ¬ Good c (draw k)) ∧
          Filled c draw s0 { s' with offset := if k = c.numRange then s'.offset else
            (draw (k - 1)).off } k ∧
          (k < c.numRange → s'.offset = (draw k).off) := by
      intro b hg
      refine ⟨i, _, rfl, Nat.le_refl _, by omega, fun _ => hg, ?_, fun _ => rfl⟩
      exact ⟨hf.good, hf.start, hf.len, hf.others, hf.buf, hf.mem, fun j hj => by
        simp only
        rw [if_neg (by omega), ← hj]
        rfl⟩
    by_cases hok : (draw i).ok = false
    · rw [if_pos hok]
      right
      obtain ⟨k, s', h⟩ := stop s.buflen (fun h => by rw [h.1] at hok; cases hok)
      exact ⟨k, s', h⟩
    · rw [if_neg hok]
      by_cases h0 : (draw i).len = 0
      · rw [if_pos h0]
        right
        exact stop _ (fun h => by have := h.2.1; omega)
      · rw [if_neg h0, Nat.mod_eq_of_lt (by omega)]
        by_cases hbig : (draw i).off + (draw i).len > c.size
        · rw [if_pos hbig]
          right
          exact stop _ (fun h => by have := h.2.2; omega)
        · rw [if_neg hbig]
          have hgood : Good c (draw i) := ⟨by simpa using hok, by omega, by omega⟩
          have hm := hf.mem
          have hb := hf.buf
          obtain ⟨m1, e1⟩ := memWrite_ok (m := s.mem) (d := le 8 (draw i).off)
            (off := s.buf + 16 * i) (by rw [le_length]; omega)
          have l1 := memWrite_length e1
          obtain ⟨m2, e2⟩ := memWrite_ok (m := m1) (d := le 8 (draw i).len)
            (off := s.buf + 16 * i + 8) (by rw [le_length]; omega)
          have l2 := memWrite_length e2
          simp only [e1, e2]
          have hfil : ∀ (mk : Nat → Bool), Filled c draw s0
              { s with offset := (draw i).off, buflen := (draw i).len, mem := m2,
                       lastStart := (draw i).off, lastPos := (draw i).off + (draw i).len,
                       marked := mk } (i + 1) := by
            intro mk
            refine ⟨?_, ?_, ?_, ?_, hb, by simp only; omega, ?_⟩
            · intro j hj
              by_cases hji : j = i
              · rw [hji]; exact hgood
              · exact hf.good j (by omega)
            · intro j hj
              simp only
              by_cases hji : j = i
              · subst hji
                rw [read_write_ne e2 (by omega), ← hb]
                have := read_write_same e1
                rwa [le_length] at this
              · rw [read_write_ne e2 (by omega), read_write_ne e1 (by omega)]
                exact hf.start j (by omega)
            · intro j hj
              simp only
              by_cases hji : j = i
              · subst hji
                rw [← hb]
                have := read_write_same e2
                rwa [le_length] at this
              · rw [read_write_ne e2 (by omega), read_write_ne e1 (by omega)]
                exact hf.len j (by omega)
            · intro o n' ho
              simp only
              rw [read_write_ne e2 (by rw [le_length]; omega),
                read_write_ne e1 (by rw [le_length]; omega)]
              exact hf.others o n' (by omega)
            · intro j hj
              have : j = i := by omega
              rw [this]
          have hsum : bytes (drawn draw i) ≤ i * c.size := by
            have : ∀ k, (∀ j, j < k → Good c (draw j)) → bytes (drawn draw k) ≤ k * c.size := by
              intro k
              induction k with
              | zero => intro _; simp [drawn, bytes]
              | succ k ihk =>
                intro hk
                rw [bytes_succ, Nat.succ_mul]
                have h1 := ihk (fun j hj => hk j (by omega))
                have h2 := (hk k (by omega)).2.2
                omega
            exact this i hf.good
          have hsum2 : i * c.size ≤ 256 * c.size := Nat.mul_le_mul_right _ (by omega)
          have htot : (bytes (drawn draw i) + (draw i).len) % 2 ^ 64 = bytes (drawn draw (i + 1)) := by
            rw [bytes_succ]
            exact Nat.mod_eq_of_lt (by omega)
          rw [htot]
          by_cases hu : c.useMap = true
          · rw [if_pos hu]
            cases hmk : markMap c (draw i).busy (draw i).off (draw i).len s.marked with
            | none => left; rfl
            | some r =>
              obtain ⟨r1, r2⟩ := r
              simp only
              rcases ih (i + 1) _ (by omega) (hfil r2) with h | ⟨k, s', h1, h2, h3, h4, h5, h6⟩
              · exact Or.inl h
              · exact Or.inr ⟨k, s', h1, by omega, h3, h4, h5, h6⟩
          · rw [if_neg hu]
            rcases ih (i + 1) _ (by omega) (hfil s.marked) with h | ⟨k, s', h1, h2, h3, h4, h5, h6⟩
            · exact Or.inl h
            · exact Or.inr ⟨k, s', h1, by omega, h3, h4, h5, h6⟩

theorem filled_zero (c : Cfg) (draw : Nat → Draw) (s : St) : Filled c draw s s 0 :=
  ⟨fun _ h => by omega, fun _ h => by omega, fun _ h => by omega, fun _ _ _ => rfl, rfl, rfl,
    fun _ h => by omega⟩

theorem bytes_pos {c : Cfg} {draw : Nat → Draw} {k : Nat} (h : ∀ j, j < k → Good c (draw j))
    (hk : 0 < k) : 0 < bytes (drawn draw k) := by
  obtain ⟨k, rfl⟩ : ∃ k', k = k' + 1 := ⟨k - 1, by omega⟩
  rw [bytes_succ]
  have := (h k (by omega)).2.1
  omega

/-- C97: the ranges in the buffer of the io_u are exactly the draws up to the first one that fails,
`num_range` at most; the length of the io_u is their sum; nothing outside of the first
`16 * num_range` bytes of the buffer changes.  Without a range the function says so. -/
theorem C97_ranges {c : Cfg} {draw : Nat → Draw} {s : St} (he : Env c draw s) :
    fillMulti c draw s = none ∨
    ∃ b s' k, fillMulti c draw s = some (b, s') ∧ k ≤ c.numRange ∧
      (∀ j, j < k → Good c (draw j)) ∧ (k < c.numRange → ¬ Good c (draw k)) ∧
      (b = true ↔ 0 < k) ∧
      (b = true → s'.number = k ∧ s'.buflen = bytes (drawn draw k)) ∧
      (∀ j, j < k → memRead s'.mem (s.buf + 16 * j) 8 = some (le 8 (draw j).off) ∧
        memRead s'.mem (s.buf + 16 * j + 8) 8 = some (le 8 (draw j).len)) ∧
      (∀ o n, o + n ≤ s.buf ∨ s.buf + 16 * c.numRange ≤ o →
        memRead s'.mem o n = memRead s.mem o n) ∧
      s'.buf = s.buf ∧ s'.mem.length = s.mem.length ∧
      (k < c.numRange → s'.offset = (draw k).off) ∧
      (0 < k → k = c.numRange → s'.offset = (draw (k - 1)).off) := by
  unfold fillMulti
  have hr := he.ranges
  rcases fillLoop_spec he c.numRange 0 s (by omega) (filled_zero c draw s) with h |
    ⟨k, s', h1, h2, h3, h4, h5, h6⟩
  · left
    change fillLoop c draw c.numRange 0 0 s = none at h
    rw [h]
  · right
    change fillLoop c draw c.numRange 0 0 s = _ at h1
    rw [h1]
    simp only
    have hl : 0 < k → k = c.numRange → s'.offset = (draw (k - 1)).off := by
      intro hk hk2
      have := h5.last (k - 1) (by omega)
      simp only [if_pos hk2] at this
      exact this
    by_cases hk : 0 < k
    · have hp := bytes_pos h5.good hk
      rw [if_pos (by omega)]
      refine ⟨true, _, k, rfl, h3, h5.good, h4, by simp [hk], fun _ => ⟨?_, rfl⟩,
        fun j hj => ⟨h5.start j hj, h5.len j hj⟩, fun o n ho => h5.others o n (by omega), h5.buf,
        h5.mem, h6, hl⟩
      exact Nat.mod_eq_of_lt (by omega)
    · have hk0 : k = 0 := by omega
      subst hk0
      rw [if_neg (by simp [drawn, bytes])]
      refine ⟨false, s', 0, rfl, h3, h5.good, h4, by simp, (fun h => by cases h), (fun j hj => by omega),
        (fun o n ho => h5.others o n (by omega)), h5.buf, h5.mem, h6, (fun h => by omega)⟩

/-! ### When the assert holds -/

/-- Blocks a draw takes. -/
def blocksOf (c : Cfg) (d : Draw) (x : Nat) : Prop :=
  (d.off - c.fileOff) / c.minBs ≤ x ∧
    x < (d.off - c.fileOff) / c.minBs + (d.len + c.minBs - 1) / c.minBs

theorem freeRun_le (m : Nat → Bool) (b n : Nat) : freeRun m b n ≤ n := by
  induction n generalizing b with
  | zero => exact Nat.le_refl _
  | succ n ih =>
    unfold freeRun
    split
    · omega
    · have := ih (b + 1)
      omega

theorem freeRun_pos {m : Nat → Bool} {b n : Nat} (h : m b = false) (hn : 0 < n) :
    0 < freeRun m b n := by
  cases n with
  | zero => omega
  | succ n =>
    unfold freeRun
    rw [h]
    simp

theorem markMap_spec {c : Cfg} (hbs : 0 < c.minBs) (hbs2 : c.minBs < 2 ^ 63) {d : Draw}
    (ho : d.off < 2 ^ 63) (hl : d.len < 2 ^ 63) (h0 : 0 < d.len) (hfo : c.fileOff ≤ d.off)
    {m : Nat → Bool} (hm : m ((d.off - c.fileOff) / c.minBs) = false) :
    ∃ r m', markMap c d.busy d.off d.len m = some (r, m') ∧
      ∀ x, m' x = true → m x = true ∨ blocksOf c d x := by
  have hb : (d.off + 2 ^ 64 - c.fileOff) % 2 ^ 64 = d.off - c.fileOff := by omega
  have hn : (d.len + c.minBs - 1) % 2 ^ 64 = d.len + c.minBs - 1 := by omega
  have hpos : 0 < (d.len + c.minBs - 1) / c.minBs := Nat.div_pos (by omega) hbs
  unfold markMap
  rw [if_neg (by omega), hb, hn]
  dsimp only
  rw [if_neg (by omega)]
  by_cases hbusy : d.busy = true
  · rw [if_pos hbusy]
    exact ⟨_, _, rfl, fun x hx => Or.inl hx⟩
  · rw [if_neg hbusy, if_neg (by have := freeRun_pos hm hpos; omega)]
    refine ⟨_, _, rfl, fun x hx => ?_⟩
    simp only [Bool.or_eq_true, Bool.and_eq_true, decide_eq_true_eq] at hx
    rcases hx with hx | ⟨hx1, hx2⟩
    · exact Or.inl hx
    · have := freeRun_le m ((d.off - c.fileOff) / c.minBs) ((d.len + c.minBs - 1) / c.minBs)
      exact Or.inr ⟨hx1, by omega⟩

theorem fillLoop_total {c : Cfg} {draw : Nat → Draw} {s0 : St} (he : Env c draw s0)
    (hbs : 0 < c.minBs) (hbs2 : c.minBs < 2 ^ 63) (hfo : ∀ i, c.fileOff ≤ (draw i).off)
    (hfree : ∀ i, Good c (draw i) → s0.marked (((draw i).off - c.fileOff) / c.minBs) = false ∧
      ∀ j, j < i → ¬ blocksOf c (draw j) (((draw i).off - c.fileOff) / c.minBs)) :
    ∀ (n i tot : Nat) (s : St), i + n = c.numRange → s.buf = s0.buf →
      s.mem.length = s0.mem.length →
      (∀ x, s.marked x = true → s0.marked x = true ∨ ∃ j, j < i ∧ blocksOf c (draw j) x) →
      fillLoop c draw n i tot s ≠ none := by
  intro n
  induction n with
  | zero => intro i tot s _ _ _ _ h; cases h
  | succ n ih =>
    intro i tot s hn hb hm hmk
    have hbuf := he.buf
    have hoff := he.off i
    have hlen := he.len i
    unfold fillLoop
    dsimp only
    by_cases hok : (draw i).ok = false
    · rw [if_pos hok]; exact fun h => by cases h
    · rw [if_neg hok]
      by_cases h0 : (draw i).len = 0
      · rw [if_pos h0]; exact fun h => by cases h
      · rw [if_neg h0, Nat.mod_eq_of_lt (by omega)]
        by_cases hbig : (draw i).off + (draw i).len > c.size
        · rw [if_pos hbig]; exact fun h => by cases h
        · rw [if_neg hbig]
          have hgood : Good c (draw i) := ⟨by simpa using hok, by omega, by omega⟩
          obtain ⟨m1, e1⟩ := memWrite_ok (m := s.mem) (d := le 8 (draw i).off)
            (off := s.buf + 16 * i) (by rw [le_length]; omega)
          have l1 := memWrite_length e1
          obtain ⟨m2, e2⟩ := memWrite_ok (m := m1) (d := le 8 (draw i).len)
            (off := s.buf + 16 * i + 8) (by rw [le_length]; omega)
          have l2 := memWrite_length e2
          simp only [e1, e2]
          by_cases hu : c.useMap = true
          · rw [if_pos hu]
            have hmf : s.marked (((draw i).off - c.fileOff) / c.minBs) = false := by
              rw [← Bool.not_eq_true]
              intro hx
              obtain ⟨g1, g2⟩ := hfree i hgood
              rcases hmk _ hx with h | ⟨j, h1, h2⟩
              · rw [g1] at h; cases h
              · exact g2 j h1 h2
            obtain ⟨r, m', e3, e4⟩ := markMap_spec hbs hbs2 hoff hlen (by omega) (hfo i) hmf
            simp only [e3]
            refine ih (i + 1) _ _ (by omega) ?_ (by simp only; omega) ?_
            · exact hb
            intro x hx
            rcases e4 x hx with h | h
            · rcases hmk x h with h | ⟨j, h1, h2⟩
              · exact Or.inl h
              · exact Or.inr ⟨j, by omega, h2⟩
            · exact Or.inr ⟨i, by omega, h⟩
          · rw [if_neg hu]
            refine ih (i + 1) _ _ (by omega) ?_ (by simp only; omega) ?_
            · exact hb
            intro x hx
            rcases hmk x hx with h | ⟨j, h1, h2⟩
            · exact Or.inl h
            · exact Or.inr ⟨j, by omega, h2⟩

/-- C97: filling goes through when every offset drawn is a block that is free in the map and not
taken by the ranges before, as the offset generator makes sure (C03). -/
theorem C97_total {c : Cfg} {draw : Nat → Draw} {s : St} (he : Env c draw s)
    (hbs : 0 < c.minBs) (hbs2 : c.minBs < 2 ^ 63) (hfo : ∀ i, c.fileOff ≤ (draw i).off)
    (hfree : ∀ i, Good c (draw i) → s.marked (((draw i).off - c.fileOff) / c.minBs) = false ∧
      ∀ j, j < i → ¬ blocksOf c (draw j) (((draw i).off - c.fileOff) / c.minBs)) :
    fillIoU c draw s ≠ none := by
  have h := fillLoop_total he hbs hbs2 hfo hfree c.numRange 0 0 s (by omega) rfl rfl
    (fun x hx => Or.inl hx)
  unfold fillIoU fillMulti
  cases hf : fillLoop c draw c.numRange 0 0 s with
  | none => exact absurd hf h
  | some r =>
    obtain ⟨k, tot, s'⟩ := r
    dsimp only
    split
    · next heq => split at heq <;> cases heq
    · exact fun h => by cases h
    · split <;> exact fun h => by cases h

/-! ### The command -/

theorem dsmLoop_spec (d : Nvme.NsData) {cap buf : Nat} {mem : List Byte} {draw : Nat → Draw}
    {k : Nat} (hcap : k ≤ cap)
    (h1 : ∀ j, j < k → memRead mem (buf + 16 * j) 8 = some (le 8 (draw j).off))
    (h2 : ∀ j, j < k → memRead mem (buf + 16 * j + 8) 8 = some (le 8 (draw j).len))
    (ho : ∀ j, (draw j).off < 2 ^ 63) (hl : ∀ j, (draw j).len < 2 ^ 63) :
    ∀ n i, i + n = k → dsmLoop d cap buf mem n i =
      some ((List.range' i n).map fun j => (Nvme.getSlba d (draw j).off,
        (Nvme.getNlb d (draw j).len + 1) % 2 ^ 32)) := by
  intro n
  induction n with
  | zero => intro i _; rfl
  | succ n ih =>
    intro i hi
    unfold dsmLoop
    rw [if_neg (by omega), h1 i (by omega), h2 i (by omega)]
    have e1 : fromLe (le 8 (draw i).off) = (draw i).off := by
      rw [fromLe_le]
      exact Nat.mod_eq_of_lt (by have := ho i; omega)
    have e2 : fromLe (le 8 (draw i).len) = (draw i).len := by
      rw [fromLe_le]
      exact Nat.mod_eq_of_lt (by have := hl i; omega)
    simp only [ih (i + 1) (by omega), e1, e2, Option.map_some]
    rfl

/-- The size of a block as the device counts it: with the metadata when it is interleaved. -/
def lbaBytes (d : Nvme.NsData) : Nat := if d.lbaExt ≠ 0 then d.lbaExt else 2 ^ d.lbaShift

theorem lbaBytes_pos (d : Nvme.NsData) : 0 < lbaBytes d := by
  unfold lbaBytes
  split
  · omega
  · exact Nat.two_pow_pos _

theorem slba_eq (d : Nvme.NsData) (o : Nat) : Nvme.getSlba d o = o / lbaBytes d := by
  unfold Nvme.getSlba lbaBytes
  split <;> rfl

theorem nlb_eq (d : Nvme.NsData) {l : Nat} (h0 : 0 < l / lbaBytes d)
    (h1 : l / lbaBytes d < 2 ^ 32) : (Nvme.getNlb d l + 1) % 2 ^ 32 = l / lbaBytes d := by
  have : Nvme.getNlb d l = (l / lbaBytes d + 2 ^ 64 - 1) % 2 ^ 32 := by
    unfold Nvme.getNlb lbaBytes
    split <;> rfl
  rw [this]
  generalize l / lbaBytes d = q at *
  omega

/-- C97: the command frees exactly the ranges drawn, when they are whole blocks: as many as it says,
and no byte besides. -/
theorem C97_command {c : Cfg} {draw : Nat → Draw} {s s' : St} (he : Env c draw s)
    (hnr : 2 ≤ c.numRange) (hf : fillIoU c draw s = some (true, s')) (d : Nvme.NsData)
    (hal : ∀ j, lbaBytes d ∣ (draw j).off ∧ lbaBytes d ∣ (draw j).len ∧
      (draw j).len / lbaBytes d < 2 ^ 32) :
    ∃ k cmd, 0 < k ∧ k ≤ c.numRange ∧ (∀ j, j < k → Good c (draw j)) ∧
      (k < c.numRange → ¬ Good c (draw k)) ∧ trimPrep d c.numRange s' = some cmd ∧
      cmd.ranges.map (freed (lbaBytes d)) = drawn draw k ∧
      cmd.cdw10 + 1 = k ∧ cmd.dataLen = 16 * k := by
  have hm : fillMulti c draw s = some (true, s') := by
    unfold fillIoU at hf
    split at hf
    · cases hf
    · cases hf
    · next h =>
      split at hf
      · cases hf
      · cases hf
        exact h
  have hr := he.ranges
  rcases C97_ranges he with h | ⟨b, s2, k, h1, h2, h3, h4, h5, h6, h7, h8, h9, h10, h11, h12⟩
  · rw [hm] at h; cases h
  · rw [hm] at h1
    cases h1
    have hk : 0 < k := h5.1 rfl
    obtain ⟨g1, g2⟩ := h6 rfl
    have hd := dsmLoop_spec d (cap := c.numRange) (buf := s.buf) (mem := s'.mem) h2
      (fun j hj => (h7 j hj).1) (fun j hj => (h7 j hj).2) he.off he.len k 0 (by omega)
    refine ⟨k, ⟨(List.range' 0 k).map fun j => (Nvme.getSlba d (draw j).off,
        (Nvme.getNlb d (draw j).len + 1) % 2 ^ 32), k - 1, 16 * k⟩, hk, h2, h3, h4, ?_, ?_, ?_, rfl⟩
    · unfold trimPrep
      rw [if_neg (by omega), g1, h9, hd]
      simp only [Option.map_some, Option.some.injEq, Dsm.mk.injEq, true_and]
      omega
    · simp only [List.map_map, drawn, List.range_eq_range']
      apply List.map_congr_left
      intro j hj
      rw [List.mem_range'_1] at hj
      obtain ⟨a1, a2, a3⟩ := hal j
      have hlen := (h3 j (by omega)).2.1
      have hpos : 0 < (draw j).len / lbaBytes d :=
        Nat.div_pos (Nat.le_of_dvd hlen a2) (lbaBytes_pos d)
      simp only [Function.comp, freed, slba_eq, nlb_eq d hpos a3, Nat.div_mul_cancel a1,
        Nat.div_mul_cancel a2]
    · simp only
      omega

/-! ### No byte twice -/

theorem markMap_one {c : Cfg} (hbs : 0 < c.minBs) (hbs2 : c.minBs < 2 ^ 62) {off k : Nat}
    (hoff : off = c.fileOff + k * c.minBs) (ho : off < 2 ^ 63) {m m' : Nat → Bool} {r : Nat}
    (h : markMap c false off c.minBs m = some (r, m')) :
    m k = false ∧ ∀ x, m' x = true ↔ m x = true ∨ x = k := by
  have hb : (off + 2 ^ 64 - c.fileOff) % 2 ^ 64 = k * c.minBs := by omega
  have hn : (c.minBs + c.minBs - 1) % 2 ^ 64 = c.minBs + (c.minBs - 1) := by omega
  have hd : (c.minBs + (c.minBs - 1)) / c.minBs = 1 := by
    rw [Nat.add_div_left _ hbs, Nat.div_eq_of_lt (by omega)]
  unfold markMap at h
  rw [if_neg (by omega), hb, hn, hd, Nat.mul_div_cancel _ hbs] at h
  simp only [Nat.one_ne_zero, if_false, freeRun, Bool.false_eq_true] at h
  by_cases hk : m k = true
  · simp [hk] at h
  · have hk' : m k = false := by simpa using hk
    simp only [hk', Bool.false_eq_true, if_false, Nat.zero_add, Nat.one_ne_zero, Option.some.injEq,
      Prod.mk.injEq] at h
    obtain ⟨_, rfl⟩ := h
    refine ⟨hk', fun x => ?_⟩
    simp only [Bool.or_eq_true, Bool.and_eq_true, decide_eq_true_eq]
    constructor
    · rintro (h | h)
      · exact Or.inl h
      · exact Or.inr (by omega)
    · rintro (h | h)
      · exact Or.inl h
      · exact Or.inr (by omega)

theorem fillLoop_marks {c : Cfg} {draw : Nat → Draw} (hbs : 0 < c.minBs) (hbs2 : c.minBs < 2 ^ 62)
    (hmap : c.useMap = true) (blk : Nat → Nat)
    (hd : ∀ i, (draw i).busy = false ∧ (draw i).len = c.minBs ∧
      (draw i).off = c.fileOff + blk i * c.minBs ∧ (draw i).off < 2 ^ 63)
    (m0 : Nat → Bool) :
    ∀ (n i tot : Nat) (s : St),
      (∀ x, s.marked x = true ↔ m0 x = true ∨ ∃ j, j < i ∧ x = blk j) →
      (∀ j, j < i → m0 (blk j) = false) → (∀ j j', j < j' → j' < i → blk j ≠ blk j') →
      ∀ k t s', fillLoop c draw n i tot s = some (k, t, s') →
        (∀ x, s'.marked x = true ↔ m0 x = true ∨ ∃ j, j < k ∧ x = blk j) ∧
        (∀ j, j < k → m0 (blk j) = false) ∧ ∀ j j', j < j' → j' < k → blk j ≠ blk j' := by
  intro n
  induction n with
  | zero =>
    intro i tot s h1 h2 h3 k t s' h
    cases h
    exact ⟨h1, h2, h3⟩
  | succ n ih =>
    intro i tot s h1 h2 h3 k t s' h
    obtain ⟨d1, d2, d3, d4⟩ := hd i
    unfold fillLoop at h
    dsimp only at h
    split at h
    · cases h; exact ⟨h1, h2, h3⟩
    · split at h
      · cases h; exact ⟨h1, h2, h3⟩
      · split at h
        · cases h; exact ⟨h1, h2, h3⟩
        · split at h
          · cases h
          · split at h
            · cases h
            · split at h
              · cases h
              · next mk hmk =>
                rw [d1, d2] at hmk
                obtain ⟨g1, g2⟩ := markMap_one hbs hbs2 d3 d4 hmk
                apply ih (i + 1) _ _ ?_ ?_ ?_ k t s' h
                · intro x
                  rw [g2 x, h1 x]
                  constructor
                  · rintro ((h | ⟨j, j1, j2⟩) | h)
                    · exact Or.inl h
                    · exact Or.inr ⟨j, by omega, j2⟩
                    · exact Or.inr ⟨i, by omega, h⟩
                  · rintro (h | ⟨j, j1, j2⟩)
                    · exact Or.inl (Or.inl h)
                    · by_cases hj : j = i
                      · exact Or.inr (by rw [j2, hj])
                      · exact Or.inl (Or.inr ⟨j, by omega, j2⟩)
                · intro j hj
                  by_cases hji : j = i
                  · rw [hji, ← Bool.not_eq_true]
                    intro hc
                    rw [(h1 (blk i)).2 (Or.inl hc)] at g1
                    cases g1
                  · exact h2 j (by omega)
                · intro j j' hjj hj'
                  by_cases hji : j' = i
                  · rw [hji]
                    intro hc
                    rw [(h1 (blk i)).2 (Or.inr ⟨j, by omega, hc.symm⟩)] at g1
                    cases g1
                  · exact h3 j j' hjj (by omega)

/-- C97, with a single block size and a random map: no byte is in two ranges of a command, no range
was trimmed before, and afterwards the map knows all of them.  With a range of block sizes this is
not so (`C97_overlap_counterexample`). -/
theorem C97_disjoint_partial {c : Cfg} {draw : Nat → Draw} {s s' : St} (he : Env c draw s)
    (hbs : 0 < c.minBs) (hbs2 : c.minBs < 2 ^ 62) (hmap : c.useMap = true) (blk : Nat → Nat)
    (hd : ∀ i, (draw i).busy = false ∧ (draw i).len = c.minBs ∧
      (draw i).off = c.fileOff + blk i * c.minBs)
    (hf : fillIoU c draw s = some (true, s')) :
    (drawn draw s'.number).Pairwise Disjoint ∧
    (∀ j, j < s'.number → s.marked (blk j) = false ∧ s'.marked (blk j) = true) := by
  have hm : fillMulti c draw s = some (true, s') := by
    unfold fillIoU at hf
    split at hf
    · cases hf
    · cases hf
    · next h =>
      split at hf
      · cases hf
      · cases hf
        exact h
  rcases C97_ranges he with h | ⟨b, s2, k, h1, h2, h3, h4, h5, h6, _⟩
  · rw [hm] at h; cases h
  · rw [hm] at h1
    cases h1
    obtain ⟨g1, g2⟩ := h6 rfl
    unfold fillMulti at hm
    have hr := he.ranges
    split at hm
    · cases hm
    · next i tot s2 hloop =>
      obtain ⟨q1, q2, q3⟩ := fillLoop_marks hbs hbs2 hmap blk
        (fun i => ⟨(hd i).1, (hd i).2.1, (hd i).2.2, he.off i⟩) s.marked c.numRange 0 0 s
        (fun x => ⟨fun h => Or.inl h, fun h => h.elim id (fun ⟨j, h, _⟩ => absurd h (by omega))⟩)
        (fun j h => absurd h (by omega)) (fun j j' _ h => absurd h (by omega)) i tot s2 hloop
      split at hm
      · cases hm
        dsimp only at g1 ⊢
        have hik : ∀ j, j < i % 2 ^ 32 → j < i := fun j hj =>
          Nat.lt_of_lt_of_le hj (Nat.mod_le _ _)
        refine ⟨?_, fun j hj => ⟨q2 j (hik j hj), (q1 _).2 (Or.inr ⟨j, hik j hj, rfl⟩)⟩⟩
        unfold drawn
        rw [List.pairwise_map]
        have hrange : (List.range (i % 2 ^ 32)).Pairwise (· < ·) := List.pairwise_lt_range
        refine hrange.imp_of_mem ?_
        intro a b _ hb hab
        rw [List.mem_range] at hb
        have hne := q3 a b hab (hik b hb)
        obtain ⟨_, a2, a3⟩ := hd a
        obtain ⟨_, b2, b3⟩ := hd b
        unfold Disjoint
        simp only
        rw [a2, a3, b2, b3]
        rcases Nat.lt_or_gt_of_ne hne with hlt | hlt
        · left
          have := Nat.mul_le_mul_right c.minBs (Nat.succ_le_of_lt hlt)
          rw [Nat.succ_mul] at this
          omega
        · right
          have := Nat.mul_le_mul_right c.minBs (Nat.succ_le_of_lt hlt)
          rw [Nat.succ_mul] at this
          omega
      · cases hm

/-! ### What goes wrong -/

/-- C97: the check behind compares the offset of the last range plus the length of all of them with
the size of the file.  When it holds the command is accepted. -/
theorem C97_accept_partial {c : Cfg} {draw : Nat → Draw} {s : St} (he : Env c draw s)
    (hgood : ∀ j, j < c.numRange → Good c (draw j)) (hn : 0 < c.numRange)
    (hend : (draw (c.numRange - 1)).off + bytes (drawn draw c.numRange) ≤ c.size) :
    fillIoU c draw s = none ∨ ∃ s', fillIoU c draw s = some (true, s') ∧ s'.number = c.numRange := by
  unfold fillIoU
  have hsz := he.size
  rcases C97_ranges he with h | ⟨b, s2, k, h1, h2, h3, h4, h5, h6, _, _, _, _, _, h12⟩
  · left; rw [h]
  · right
    have hk : k = c.numRange := by
      apply Classical.byContradiction
      intro hc
      exact h4 (by omega) (hgood k (by omega))
    subst hk
    have hb : b = true := h5.2 hn
    subst hb
    obtain ⟨g1, g2⟩ := h6 rfl
    rw [h1]
    simp only
    rw [h12 hn rfl, g2, if_neg (by omega)]
    exact ⟨s2, rfl, g1⟩

/-- C97, where the claim fails, for every file: if the last of two or more ranges ends where the file
ends, the command is refused although every range is inside of the file; the caller takes that for
the end of the file. -/
theorem C97_tail_refused {c : Cfg} {draw : Nat → Draw} {s : St} (he : Env c draw s)
    (hgood : ∀ j, j < c.numRange → Good c (draw j)) (hn : 2 ≤ c.numRange)
    (hend : (draw (c.numRange - 1)).off + (draw (c.numRange - 1)).len = c.size) :
    fillIoU c draw s = none ∨ ∃ s', fillIoU c draw s = some (false, s') := by
  unfold fillIoU
  have hsz := he.size
  have hr := he.ranges
  rcases C97_ranges he with h | ⟨b, s2, k, h1, h2, h3, h4, h5, h6, _, _, _, _, _, h12⟩
  · left; rw [h]
  · right
    have hk : k = c.numRange := by
      apply Classical.byContradiction
      intro hc
      exact h4 (by omega) (hgood k (by omega))
    have hb : b = true := h5.2 (by omega)
    subst hb
    obtain ⟨g1, g2⟩ := h6 rfl
    rw [h1]
    simp only
    have hlast := h12 (by omega) hk
    rw [hk] at hlast g2
    obtain ⟨n, hnn⟩ : ∃ n, c.numRange = n + 2 := ⟨c.numRange - 2, by omega⟩
    have hsum : bytes (drawn draw c.numRange) > (draw (c.numRange - 1)).len := by
      rw [hnn, bytes_succ, bytes_succ, show n + 2 - 1 = n + 1 by omega]
      have := (hgood n (by omega)).2.1
      omega
    have hub : ∀ k, k ≤ c.numRange → bytes (drawn draw k) ≤ k * c.size := by
      intro k
      induction k with
      | zero => intro _; simp [drawn, bytes]
      | succ k ihk =>
        intro hk
        rw [bytes_succ, Nat.succ_mul]
        have h1 := ihk (by omega)
        have h2 := (hgood k (by omega)).2.2
        omega
    have hub2 := hub c.numRange (Nat.le_refl _)
    have hub3 : c.numRange * c.size ≤ 256 * c.size := Nat.mul_le_mul_right _ hr
    rw [hlast, g2, Nat.mod_eq_of_lt (by omega), if_pos (by omega)]
    exact ⟨s2, rfl⟩

/-- A job with blocks of 4096 bytes on a file of 16 blocks: sequential draws from block `b`. -/
def seqDraw (b i : Nat) : Draw := ⟨decide (b + i < 16), (b + i) % 16 * 4096, 4096, false⟩

/-- The state to begin with: two io_us with room for four ranges each, the second one's turn. -/
def st0 : St := ⟨0, 0, 0, 64, List.replicate 128 7, fun _ => false, 0, 0⟩

/-- The options of the job. -/
def cfg0 : Cfg := ⟨4, 65536, 0, 4096, false⟩

/-- C97: a command of four ranges, and what the device gets (blocks of 512 bytes). -/
theorem C97_case :
    ((fillIoU cfg0 (seqDraw 4) st0).any fun r => decide (r.1 = true) &&
      decide (trimPrep { lbaSize := 512, ms := 0, lbaShift := 9 } 4 r.2 =
        some ⟨[(32, 8), (40, 8), (48, 8), (56, 8)], 3, 64⟩)) = true := by
  decide +kernel

/-- C97, where the claim fails: the same job trims its file in four commands; the last one, with the
last four blocks, is refused. -/
theorem C97_tail_counterexample :
    ((fillIoU cfg0 (seqDraw 8) st0).any fun r => decide (r.1 = true)) = true ∧
    ((fillIoU cfg0 (seqDraw 12) st0).any fun r => decide (r.1 = false)) = true ∧
    ∀ j, j < 4 → Good cfg0 (seqDraw 12 j) := by
  refine ⟨by decide +kernel, by decide +kernel, ?_⟩
  intro j hj
  unfold Good seqDraw cfg0
  simp only [decide_eq_true_eq]
  omega

/-- C97, where the claim fails: with a random map and lengths of one or two blocks two ranges
overlap, and block 1 is trimmed twice: what `mark_random_map` returns is thrown away. -/
theorem C97_overlap_counterexample :
    let c : Cfg := ⟨2, 65536, 0, 4096, true⟩
    let draw : Nat → Draw := fun i => if i = 0 then ⟨true, 4096, 4096, false⟩ else ⟨true, 0, 8192, false⟩
    ((fillIoU c draw st0).any fun r => decide (r.1 = true) && decide (r.2.number = 2) &&
      decide (trimPrep { lbaSize := 512, ms := 0, lbaShift := 9 } 2 r.2 =
        some ⟨[(8, 8), (0, 16)], 1, 32⟩)) = true ∧
    ¬ (drawn draw 2).Pairwise Disjoint := by
  refine ⟨by decide +kernel, by decide⟩

/-- The hypotheses are met: the job above, with and without a map. -/
example : Env cfg0 (seqDraw 4) st0 ∧ 2 ≤ cfg0.numRange ∧
    (∀ j, j < 4 → Good cfg0 (seqDraw 4 j)) ∧
    (∀ i, Good cfg0 (seqDraw 4 i) → ∀ j, j < i →
      ¬ blocksOf cfg0 (seqDraw 4 j) ((seqDraw 4 i).off / 4096)) ∧
    (seqDraw 4 3).off + bytes (drawn (seqDraw 4) 4) ≤ cfg0.size := by
  refine ⟨⟨by decide, by decide, ?_, ?_, by decide +kernel⟩, by decide, ?_, ?_, by decide +kernel⟩
  · intro i; simp only [seqDraw]; omega
  · intro i; simp [seqDraw]
  · intro j hj
    unfold Good seqDraw cfg0
    simp only [decide_eq_true_eq]
    omega
  · intro i hi j hj
    unfold Good seqDraw cfg0 at hi
    simp only [decide_eq_true_eq] at hi
    unfold blocksOf seqDraw cfg0
    simp only
    omega

end Fio.Mtrim
