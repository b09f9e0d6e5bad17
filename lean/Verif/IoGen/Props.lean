import Verif.IoGen.Model
/-
C25: every generated I/O lies inside the file.
-/
namespace Fio.IoGen

/-- Options as they are after parsing: block sizes positive and ordered (fixup_options), splits
between the minimum and the maximum (`C25_bssplit`), and sizes far from the 64-bit limit. -/
structure Sane (o : Opts) : Prop where
  min_pos : ∀ d, 0 < o.minBs d
  min_le : ∀ d, o.minBs d ≤ o.maxBs d
  max_lt : ∀ d, o.maxBs d < 2 ^ 62
  split : ∀ d, ∀ x ∈ o.bssplit d, o.minBs d ≤ x.1 ∧ x.1 ≤ o.maxBs d
  zone : ∀ z, o.zone = some z → z.range + z.skip < 2 ^ 62

/-- File sizes and offsets fit off_t. -/
structure SaneF (f : File) : Prop where
  fileOff : f.fileOff < 2 ^ 62
  ioSize : f.ioSize < 2 ^ 62
  real : f.real < 2 ^ 62
  start : f.startOff ≤ f.fileOff

/-- The draws are those of a 32-bit or a 64-bit generator. -/
def GoodDraws (e : Draws) : Prop := (e.bits = 32 ∨ e.bits = 64) ∧ ∀ r ∈ e.bs, r < 2 ^ e.bits

/-- The geometry is the same. -/
def Same (f g : File) : Prop :=
  g.fileOff = f.fileOff ∧ g.ioSize = f.ioSize ∧ g.real = f.real ∧ g.startOff = f.startOff

theorem Same.rfl' (f : File) : Same f f := ⟨rfl, rfl, rfl, rfl⟩
theorem Same.trans {f g h : File} (a : Same f g) (b : Same g h) : Same f h :=
  ⟨b.1.trans a.1, b.2.1.trans a.2.1, b.2.2.1.trans a.2.2.1, b.2.2.2.trans a.2.2.2⟩

theorem same_randBlock (o : Opts) (f : File) (e : Draws) : Same f (randBlock o f e).1 := by
  unfold randBlock fileReset Same
  repeat' split
  all_goals simp

theorem same_seqOffset (o : Opts) (f : File) (d : Dir) : Same f (seqOffset o f d).1 := by
  have h1 : Same f (seqReset o f d) := by
    unfold seqReset Same; simp only; repeat' split
    all_goals simp
  have h2 : ∀ g, Same g (seqRewind o g d) := by
    intro g; unfold seqRewind Same; split <;> simp
  unfold seqOffset
  simp only
  split
  · exact h1.trans (h2 _)
  · exact h1

theorem same_seqElseRand (o : Opts) (f : File) (d : Dir) (e : Draws) :
    Same f (seqElseRand o f d e).1 := by
  unfold seqElseRand
  have h1 := same_seqOffset o f d
  split
  · rename_i heq; rw [heq] at h1; exact h1
  · rename_i g heq; rw [heq] at h1
    have h2 := same_randBlock o g e
    split
    · rename_i heq2; rw [heq2] at h2; exact h1.trans h2
    · rename_i heq2; rw [heq2] at h2; exact h1.trans h2

theorem same_choose (o : Opts) (f : File) (d : Dir) (hit : Bool) (e : Draws) :
    Same f (choose o f d hit e).1 := by
  unfold choose
  split
  · exact Same.rfl' f
  · split
    · split
      · split
        · have h := same_randBlock o f e
          split <;> (rename_i heq; rw [heq] at h; exact h)
        · exact same_seqElseRand o f d e
      · have h := same_seqOffset o f d
        split <;> (rename_i heq; rw [heq] at h; exact h)
    · split
      · exact same_seqElseRand o f d e
      · exact Same.rfl' f
      · exact Same.rfl' f

theorem same_nextBlock (o : Opts) (f : File) (d : Dir) (hit : Bool) (e : Draws) :
    Same f (nextBlock o f d hit e).1 := by
  unfold nextBlock
  have h := same_choose o f d hit e
  split
  · rename_i heq; rw [heq] at h; exact h
  · rename_i heq; rw [heq] at h
    repeat' split
    all_goals exact h

theorem same_seqHit (o : Opts) (f : File) : Same f (seqHit o f).1 := by
  unfold seqHit Same; simp only; repeat' split
  all_goals simp

/-- What get_next_offset guarantees. -/
theorem nextOffset_spec {o : Opts} {f g : File} {d : Dir} {e : Draws} {off : Nat} {c : Choice}
    (hf : SaneF f) (h : nextOffset o f d e = some (g, off, c)) :
    Same f g ∧ f.fileOff ≤ off ∧ off < f.fileOff + f.ioSize ∧ off < f.real := by
  unfold nextOffset at h
  have h1 := same_seqHit o f
  rcases hs : seqHit o f with ⟨f1, hit⟩
  rw [hs] at h h1
  simp only at h h1
  have h2 := same_nextBlock o f1 d hit e
  rcases hn : nextBlock o f1 d hit e with ⟨f2, r⟩
  rw [hn] at h h2
  have h3 := h1.trans h2
  obtain ⟨e1, e2, e3, e4⟩ := h3
  simp only at e1 e2 e3 e4
  cases r with
  | none => simp at h
  | some p =>
    obtain ⟨off0, c0⟩ := p
    simp only at h
    split at h
    · simp at h
    · split at h
      · simp at h
      · rename_i hlt hreal
        have := hf.fileOff
        have := hf.ioSize
        have hadd : add64 off0 f2.fileOff = off0 + f2.fileOff := by
          unfold add64; apply Nat.mod_eq_of_lt; rw [e1] ; omega
        rw [hadd] at hreal h
        split at h <;>
        · simp only [Option.some.injEq, Prod.mk.injEq] at h
          obtain ⟨rfl, rfl, rfl⟩ := h
          refine ⟨⟨e1, e2, e3, e4⟩, ?_, ?_, ?_⟩
          · rw [← e1]; omega
          · rw [← e1, ← e2]; omega
          · rw [← e3]; omega

theorem scaled_le {n r bits : Nat} (hn : n < 2 ^ 62)
    (hr : r < 2 ^ bits) : scaled n r bits ≤ 2 ^ 62 := by
  unfold scaled
  have h1 : round53 n ≤ 2 ^ 62 := round53_le (e := 62) (Nat.dvd_refl _) (by norm_num) (by omega)
  have h2 : round53 r ≤ 2 ^ bits :=
    round53_le (e := bits) (Nat.dvd_refl _) (Nat.pow_le_pow_right (by omega) (by omega)) (by omega)
  have h3 : round53 n * round53 r ≤ 2 ^ 62 * 2 ^ bits := Nat.mul_le_mul h1 h2
  rw [← Nat.pow_add] at h3
  have h4 : round53 (round53 n * round53 r) ≤ 2 ^ (62 + bits) :=
    round53_le (e := 62 + bits) (Nat.dvd_refl _) (Nat.pow_le_pow_right (by omega) (by omega)) h3
  calc round53 (round53 n * round53 r) / 2 ^ bits ≤ 2 ^ (62 + bits) / 2 ^ bits :=
        Nat.div_le_div_right h4
    _ = 2 ^ 62 := by rw [Nat.pow_add]; exact Nat.mul_div_cancel _ (Nat.two_pow_pos _)

theorem splitPick_mem (f : File) (off r fm : Nat) : ∀ (l : List (Nat × Nat)) (buflen perc : Nat),
    splitPick f off r fm l buflen perc = buflen ∨ ∃ x ∈ l, splitPick f off r fm l buflen perc = x.1
  | [], _, _ => Or.inl rfl
  | (bs, p) :: rest, buflen, perc => by
    unfold splitPick
    split
    · rcases splitPick_mem f off r fm rest buflen perc with h | ⟨x, hx, h⟩
      · exact Or.inl h
      · exact Or.inr ⟨x, List.mem_cons_of_mem _ hx, h⟩
    · simp only
      split
      · exact Or.inr ⟨(bs, p), List.mem_cons_self, rfl⟩
      · rcases splitPick_mem f off r fm rest bs (perc + p) with h | ⟨x, hx, h⟩
        · exact Or.inr ⟨(bs, p), List.mem_cons_self, h⟩
        · exact Or.inr ⟨x, List.mem_cons_of_mem _ hx, h⟩

theorem roundLen_zero (u : Bool) (a b : Nat) : roundLen u a b 0 = 0 := by
  unfold roundLen; simp

theorem roundLen_range {u : Bool} {a b l : Nat} (ha : 0 < a) (hab : a ≤ b) (hl : a ≤ l) :
    a ≤ roundLen u a b l ∧ roundLen u a b l ≤ b := by
  unfold roundLen
  simp only
  have h1 : a ≤ l - l % a := by
    have := Nat.div_add_mod l a
    have h3 : 1 ≤ l / a := (Nat.one_le_div_iff ha).2 hl
    have h4 : a * 1 ≤ a * (l / a) := Nat.mul_le_mul_left _ h3
    omega
  split <;> split <;> omega

theorem roundLen_le (u : Bool) (a b l : Nat) : roundLen u a b l ≤ l := by
  unfold roundLen
  simp only
  split <;> split <;> omega

theorem lenLoop_spec {o : Opts} {f : File} {d : Dir} {off bits : Nat} (ho : Sane o)
    (hb : bits = 32 ∨ bits = 64) : ∀ (rs : List Nat) (prev l : Nat), (∀ r ∈ rs, r < 2 ^ bits) →
    (prev = 0 ∨ (o.minBs d ≤ prev ∧ prev ≤ o.maxBs d)) →
    lenLoop o f d off bits rs prev = some l →
    (l = 0 ∨ (o.minBs d ≤ l ∧ l ≤ o.maxBs d)) ∧ fits f off l = true
  | [], _, _, _, _, h => by simp [lenLoop] at h
  | r :: rs, prev, l, hr, hp, h => by
    unfold lenLoop at h
    simp only at h
    generalize hX : drawLen o f d off bits r prev = X at h
    have h1 := ho.min_pos d
    have h2 := ho.min_le d
    have h3 := ho.max_lt d
    have hXr : X = 0 ∨ o.minBs d ≤ X := by
      unfold drawLen at hX
      split at hX
      · right
        have := scaled_le h3 (hr r List.mem_cons_self)
        rw [← hX]; unfold add64; rw [Nat.mod_eq_of_lt (by omega)]; omega
      · have hm := splitPick_mem f off r (2 ^ bits - 1) (o.bssplit d) prev 0
        rw [hX] at hm
        rcases hm with h4 | ⟨x, hx, h4⟩
        · rcases hp with h5 | h5 <;> omega
        · have := ho.split d x hx; omega
    have hR : roundLen o.bsUnaligned (o.minBs d) (o.maxBs d) X = 0 ∨
        (o.minBs d ≤ roundLen o.bsUnaligned (o.minBs d) (o.maxBs d) X ∧
          roundLen o.bsUnaligned (o.minBs d) (o.maxBs d) X ≤ o.maxBs d) := by
      rcases hXr with h4 | h4
      · left; rw [h4]; exact roundLen_zero _ _ _
      · right; exact roundLen_range h1 h2 h4
    split at h
    · rename_i hfit
      simp only [Option.some.injEq] at h
      subst h
      exact ⟨hR, hfit⟩
    · exact lenLoop_spec ho hb rs _ l (fun r' h' => hr r' (List.mem_cons_of_mem _ h')) hR h

theorem nextLen_spec {o : Opts} {f : File} {d : Dir} {off l : Nat} {isR : Bool} {e : Draws}
    (ho : Sane o) (he : GoodDraws e) (hd : ¬(o.randTrimWrite ∧ d = .write))
    (h : nextLen o f d off isR e = some l) (hl : l ≠ 0) :
    o.minBs (lenDir o d isR) ≤ l ∧ l ≤ o.maxBs (lenDir o d isR) ∧
    (o.minBs (lenDir o d isR) ≠ o.maxBs (lenDir o d isR) → fits f off l = true) := by
  unfold nextLen at h
  rw [if_neg hd] at h
  simp only at h
  split at h
  · rename_i heq
    simp only [Option.some.injEq] at h
    subst h
    exact ⟨Nat.le_refl _, by omega, fun h => absurd heq h⟩
  · split at h
    · simp only [Option.some.injEq] at h; omega
    · have := lenLoop_spec ho he.1 e.bs 0 l he.2 (Or.inl rfl) h
      rcases this with ⟨h1 | h1, h2⟩
      · exact absurd h1 hl
      · exact ⟨h1.1, h1.2, fun _ => h2⟩

/-- zonemode=strided only moves the start of the zone, to a position inside the file. -/
theorem setupZone_spec {o : Opts} {f g : File} {d : Dir} (ho : Sane o) (hf : SaneF f)
    (h : setupZone o f d = some g) :
    SaneF g ∧ g.ioSize = f.ioSize ∧ g.real = f.real ∧ g.startOff = f.startOff ∧
    (o.zone = none → g = f) := by
  unfold setupZone at h
  split at h
  · rename_i z hz
    have hz' := ho.zone z hz
    have hr := hf.real
    have hs := hf.start
    have hfo := hf.fileOff
    have hio := hf.ioSize
    unfold strided at h
    split at h
    · simp at h
    · simp only [Option.some.injEq] at h
      have hadd : add64 f.fileOff (add64 z.range z.skip) = f.fileOff + (z.range + z.skip) := by
        unfold add64
        rw [Nat.mod_eq_of_lt (a := z.range + z.skip) (by omega), Nat.mod_eq_of_lt (by omega)]
      rw [hadd] at h
      rw [hz]
      subst h
      refine ⟨⟨?_, ?_, ?_, ?_⟩, ?_, ?_, ?_, by simp⟩ <;>
      · unfold fileReset
        (repeat' split) <;> (try dsimp only) <;> omega
  · rename_i hz
    simp only [Option.some.injEq] at h
    subst h
    exact ⟨hf, rfl, rfl, rfl, fun _ => rfl⟩

theorem markMap_le {o : Opts} {d : Dir} {busy : Bool} {len nr l : Nat} (ho : Sane o)
    (hlen : 0 < len) (hnr : nr * o.minBs d < 2 ^ 64) (hlen2 : len < 2 ^ 62)
    (h : markMap o d busy len nr = some l) : l ≤ len ∧ min len (o.minBs d) ≤ l ∧
      (l ≠ len → o.minBs d ∣ l) := by
  unfold markMap at h
  simp only at h
  have h1 := ho.min_pos d
  have h2 := ho.min_le d
  have h3 := ho.max_lt d
  have hadd : add64 len (o.minBs d - 1) = len + (o.minBs d - 1) := by
    unfold add64; exact Nat.mod_eq_of_lt (by omega)
  rw [hadd] at h
  generalize hN : (if busy = true then (len + (o.minBs d - 1)) / o.minBs d else nr) = N at h
  split at h
  · simp at h
  · split at h
    · simp at h
    · rename_i hnz
      simp only [Option.some.injEq] at h
      have key : ∀ n, n ≠ 0 → n * o.minBs d < 2 ^ 64 →
          (if n * o.minBs d % 2 ^ 64 < len then n * o.minBs d % 2 ^ 64 else len) = l →
          l ≤ len ∧ min len (o.minBs d) ≤ l ∧ (l ≠ len → o.minBs d ∣ l) := by
        intro n hn hlt hl
        rw [Nat.mod_eq_of_lt hlt] at hl
        have : 1 * o.minBs d ≤ n * o.minBs d := Nat.mul_le_mul_right _ (by omega)
        split at hl
        · subst hl
          exact ⟨by omega, by omega, fun _ => Nat.dvd_mul_left _ _⟩
        · subst hl; exact ⟨Nat.le_refl _, by omega, fun h => absurd rfl h⟩
      refine key N hnz ?_ h
      rw [← hN]
      split
      · have := Nat.div_mul_le_self (len + (o.minBs d - 1)) (o.minBs d)
        omega
      · exact hnr

/-- The I/O is inside the file and starts inside the region of the job. -/
def Inside (f : File) (io : Io) : Prop :=
  f.fileOff ≤ io.off ∧ io.off < f.fileOff + f.ioSize ∧ io.off + io.gen ≤ f.real

theorem fill_unfold {o : Opts} {f g : File} {d : Dir} {e : Draws} {io : Io}
    (h : fill o f d e = some (g, io)) :
    ∃ f1 f2 c, setupZone o f d = some f1 ∧ nextOffset o f1 d e = some (f2, io.off, c) ∧
      nextLen o f2 d io.off io.isRandom e = some io.gen ∧ c.isRandom = io.isRandom ∧ io.gen ≠ 0 ∧
      add64 io.off io.gen ≤ f2.real ∧ io.dir = d ∧
      g = { f2 with zoneBytes := add64 f2.zoneBytes io.len } ∧
      ((o.tdRandom ∧ o.randomMap) → markMap o d c.busyOk io.gen e.setNr = some io.len) ∧
      (¬(o.tdRandom ∧ o.randomMap) → io.len = io.gen) := by
  unfold fill at h
  simp only [bind, Option.bind_eq_some_iff] at h
  obtain ⟨f1, hz, ⟨f2, off, c⟩, hoff, gen, hgen, h⟩ := h
  refine ⟨f1, f2, c, hz, ?_⟩
  simp only at hgen h
  split at h
  · simp at h
  · split at h
    · simp at h
    · rename_i h0 hle
      by_cases hm : (o.tdRandom ∧ o.randomMap)
      · rw [if_pos hm] at h
        simp only [Option.bind_eq_some_iff, Option.some.injEq, Prod.mk.injEq] at h
        obtain ⟨len, hlen, rfl, rfl⟩ := h
        exact ⟨hoff, hgen, rfl, h0, Nat.le_of_not_gt hle, rfl, rfl, fun _ => hlen, fun h => absurd hm h⟩
      · rw [if_neg hm] at h
        simp only [Option.bind_some, Option.some.injEq, Prod.mk.injEq] at h
        obtain ⟨rfl, rfl⟩ := h
        exact ⟨hoff, hgen, rfl, h0, Nat.le_of_not_gt hle, rfl, rfl, fun h => absurd h hm, fun _ => rfl⟩

/-- Whose block sizes apply (HOWTO, bs_is_seq_rand: "the normal read,write blocksize settings as
sequential,random blocksize settings instead"): with bs_is_seq_rand a random I/O takes the write sizes and
a sequential one the read sizes, otherwise each direction has its own. -/
def sizeDir (seqRand : Bool) (d : Dir) (random : Bool) : Dir :=
  match seqRand, random with
  | true, true => .write
  | true, false => .read
  | false, _ => d

theorem lenDir_eq (o : Opts) (d : Dir) (r : Bool) : lenDir o d r = sizeDir o.bsIsSeqRand d r := by
  unfold lenDir sizeDir; cases o.bsIsSeqRand <;> cases r <;> rfl

/-- C25: whatever state the file is in, whatever the options and the draws are, a generated I/O starts
in the region of the job, ends inside the file and its length is between the minimum and the maximum
block size of the direction that applies. -/
theorem C25 {o : Opts} {f g : File} {d : Dir} {e : Draws} {io : Io} (ho : Sane o) (hf : SaneF f)
    (he : GoodDraws e) (hd : ¬(o.randTrimWrite ∧ d = .write)) (h : fill o f d e = some (g, io)) :
    Inside g io ∧ g.startOff ≤ io.off ∧
    o.minBs (sizeDir o.bsIsSeqRand d io.isRandom) ≤ io.gen ∧
    io.gen ≤ o.maxBs (sizeDir o.bsIsSeqRand d io.isRandom) ∧
    SaneF g ∧ g.ioSize = f.ioSize ∧ g.real = f.real ∧ g.startOff = f.startOff ∧
    (o.zone = none → g.fileOff = f.fileOff) := by
  rw [← lenDir_eq]
  obtain ⟨f1, f2, c, hz, hoff, hgen, hr, h0, hle, hdir, rfl, _, _⟩ := fill_unfold h
  obtain ⟨hf1, z1, z2, z3, z4⟩ := setupZone_spec ho hf hz
  obtain ⟨⟨s1, s2, s3, s4⟩, b1, b2, b3⟩ := nextOffset_spec hf1 hoff
  have hl := nextLen_spec ho he hd hgen h0
  have := ho.max_lt (lenDir o d io.isRandom)
  have := hf1.real
  have := hf1.fileOff
  have := hf1.ioSize
  have := hf1.start
  have hadd : add64 io.off io.gen = io.off + io.gen := by
    unfold add64; exact Nat.mod_eq_of_lt (by omega)
  rw [hadd] at hle
  refine ⟨⟨?_, ?_, ?_⟩, ?_, hl.1, hl.2.1, ⟨?_, ?_, ?_, ?_⟩, ?_, ?_, ?_, ?_⟩ <;>
    simp only [s1, s2, s3, s4] at * <;> first | omega | skip
  intro hzn
  rw [z4 hzn]

/-- The same with the length that is issued: the random map only shortens it, to a multiple of the
minimum block size. -/
theorem C25_issued {o : Opts} {f g : File} {d : Dir} {e : Draws} {io : Io} (ho : Sane o)
    (hf : SaneF f) (he : GoodDraws e) (hd : ¬(o.randTrimWrite ∧ d = .write))
    (hn : e.setNr * o.minBs d < 2 ^ 64) (h : fill o f d e = some (g, io)) :
    io.off + io.len ≤ g.real ∧ 0 < io.len ∧ io.len ≤ io.gen ∧ min io.gen (o.minBs d) ≤ io.len ∧
    (io.len ≠ io.gen → o.minBs d ∣ io.len) := by
  have h25 := C25 ho hf he hd h
  rw [← lenDir_eq] at h25
  obtain ⟨f1, f2, c, hz, hoff, hgen, hr, h0, hle, hdir, rfl, hm1, hm2⟩ := fill_unfold h
  have hmp := ho.min_pos d
  have := ho.max_lt (lenDir o d io.isRandom)
  obtain ⟨⟨i1, i2, i3⟩, _, l1, l2, _⟩ := h25
  by_cases hm : (o.tdRandom ∧ o.randomMap)
  · have := markMap_le ho (by omega) hn (by omega) (hm1 hm)
    exact ⟨by omega, by omega, this.1, this.2.1, this.2.2⟩
  · rw [hm2 hm]
    exact ⟨i3, by omega, Nat.le_refl _, by omega, fun h => absurd rfl h⟩

/-- A write of a randtrimwrite job also stays inside the file. -/
theorem C25_trimwrite_inside {o : Opts} {f g : File} {e : Draws} {io : Io} (ho : Sane o)
    (hf : SaneF f) (hz : o.zone = none) (ht : o.randTrimWrite = true)
    (hl : f.lastStart .trim ≤ f.lastPos .trim) (hl2 : f.lastPos .trim < 2 ^ 62)
    (h : fill o f .write e = some (g, io)) :
    Inside g io ∧ io.off = f.lastStart .trim ∧ io.gen = f.lastPos .trim - f.lastStart .trim ∧
    io.len = io.gen ∧ g.lastStart = f.lastStart ∧ io.dir = .write ∧ Same f g := by
  obtain ⟨f1, f2, c, hz1, hoff, hgen, hr, h0, hle, hdir, rfl, hm1, hm2⟩ := fill_unfold h
  obtain ⟨hf1, z1, z2, z3, z4⟩ := setupZone_spec ho hf hz1
  have := z4 hz
  subst this
  have hspec := nextOffset_spec hf1 hoff
  obtain ⟨⟨s1, s2, s3, s4⟩, b1, b2, b3⟩ := hspec
  have hfo := hf1.fileOff
  have hio := hf1.ioSize
  -- the offset
  unfold nextOffset at hoff
  have hnb : ∀ f' hit, f'.lastStart = f1.lastStart → f'.fileOff = f1.fileOff →
      choose o f' .write hit e =
      (f', some { off := sub64 (f1.lastStart .trim) f1.fileOff, isRandom := true, busyOk := true }) := by
    intro f' hit h1 h2
    unfold choose
    rw [if_pos ⟨ht, rfl⟩, h1, h2]
  have hsh : (seqHit o f1).1.lastStart = f1.lastStart ∧ (seqHit o f1).1.lastPos = f1.lastPos ∧
      (seqHit o f1).1.fileOff = f1.fileOff := by
    unfold seqHit; simp only; repeat' split
    all_goals simp
  rcases hs : seqHit o f1 with ⟨f3, hit⟩
  rw [hs] at hsh hoff
  simp only at hsh hoff
  unfold nextBlock at hoff
  rw [hnb f3 hit hsh.1 hsh.2.2] at hoff
  simp only at hoff
  split at hoff
  · simp at hoff
  · rename_i f4 off4 c4 heq
    split at heq
    · simp only [Prod.mk.injEq, Option.some.injEq] at heq
      obtain ⟨rfl, rfl, rfl⟩ := heq
      split at hoff
      · simp at hoff
      · split at hoff
        · simp at hoff
        · simp only [reduceCtorEq, false_and, and_false, if_false, Option.some.injEq,
            Prod.mk.injEq] at hoff
          obtain ⟨rfl, h5, rfl⟩ := hoff
          have hoffeq : io.off = f1.lastStart .trim := by
            rw [← h5, hsh.2.2]
            unfold add64 sub64
            omega
          unfold nextLen at hgen
          rw [if_pos ⟨ht, rfl⟩] at hgen
          simp only [Option.some.injEq] at hgen
          rw [hsh.1, hsh.2.1] at hgen
          have hg : io.gen = f1.lastPos .trim - f1.lastStart .trim := by
            rw [← hgen]; unfold sub64; omega
          have hlen : io.len = io.gen := by
            by_cases hm : (o.tdRandom ∧ o.randomMap)
            · have hk := hm1 hm
              have h1 := ho.min_pos .write
              have h2 := ho.min_le .write
              have h3 := ho.max_lt .write
              unfold markMap at hk
              have hadd : add64 io.gen (o.minBs .write - 1) = io.gen + (o.minBs .write - 1) := by
                unfold add64; exact Nat.mod_eq_of_lt (by omega)
              simp only [hadd, if_true] at hk
              have hdm := Nat.div_add_mod (io.gen + (o.minBs .write - 1)) (o.minBs .write)
              have hlt := Nat.mod_lt (io.gen + (o.minBs .write - 1)) h1
              have hle' := Nat.div_mul_le_self (io.gen + (o.minBs .write - 1)) (o.minBs .write)
              rw [Nat.mul_comm] at hdm
              generalize (io.gen + (o.minBs .write - 1)) / o.minBs .write * o.minBs .write = P at *
              split at hk
              · simp at hk
              · simp only [Option.some.injEq] at hk
                rw [Nat.mod_eq_of_lt (by omega), if_neg (by omega)] at hk
                exact hk.symm
            · exact hm2 hm
          refine ⟨⟨?_, ?_, ?_⟩, hoffeq, hg, hlen, hsh.1, hdir, s1, s2, s3, s4⟩
          · simp only [s1]; exact b1
          · simp only [s1, s2]; exact b2
          · have hadd : add64 io.off io.gen = io.off + io.gen := by
              unfold add64; exact Nat.mod_eq_of_lt (by omega)
            rw [hadd] at hle
            exact hle
    · simp at heq

/-- An offset of an even state: the last write was at the last trim. -/
def Even (f : File) : Prop := f.lastStart .write = f.lastStart .trim

theorem even_randBlock {o : Opts} {f : File} {e : Draws} (h : Even f) : Even (randBlock o f e).1 := by
  unfold randBlock fileReset Even at *
  repeat' split
  all_goals simp_all

theorem even_seqOffset {o : Opts} {f : File} {d : Dir} (h : Even f) : Even (seqOffset o f d).1 := by
  have h1 : Even (seqReset o f d) := by
    unfold seqReset Even at *; simp only; repeat' split
    all_goals simp_all
  have h2 : ∀ g, Even g → Even (seqRewind o g d) := by
    intro g hg; unfold seqRewind Even at *; split <;> simp_all
  unfold seqOffset
  simp only
  split
  · exact h2 _ h1
  · exact h1

theorem even_seqElseRand {o : Opts} {f : File} {d : Dir} {e : Draws} (h : Even f) :
    Even (seqElseRand o f d e).1 := by
  unfold seqElseRand
  have h1 := even_seqOffset (o := o) (d := d) h
  split
  · rename_i heq; rw [heq] at h1; exact h1
  · rename_i g heq; rw [heq] at h1
    have h2 := even_randBlock (o := o) (e := e) h1
    split
    · rename_i heq2; rw [heq2] at h2; exact h2
    · rename_i heq2; rw [heq2] at h2; exact h2

theorem even_choose {o : Opts} {f : File} {d : Dir} {hit : Bool} {e : Draws} (h : Even f) :
    Even (choose o f d hit e).1 := by
  unfold choose
  split
  · exact h
  · split
    · split
      · split
        · have h := even_randBlock (o := o) (e := e) h
          split <;> (rename_i heq; rw [heq] at h; exact h)
        · exact even_seqElseRand h
      · have h := even_seqOffset (o := o) (d := d) h
        split <;> (rename_i heq; rw [heq] at h; exact h)
    · split
      · exact even_seqElseRand h
      · exact h
      · exact h

theorem nextOffset_trim {o : Opts} {f g : File} {e : Draws} {off : Nat} {c : Choice}
    (ht : o.randTrimWrite = true) (hev : Even f) (ho : off < 2 ^ 63)
    (h : nextOffset o f .trim e = some (g, off, c)) : g.lastStart .write ≠ off := by
  unfold nextOffset at h
  have h1 : Even (seqHit o f).1 := by
    unfold seqHit Even at *; simp only; repeat' split
    all_goals simp_all
  rcases hs : seqHit o f with ⟨f1, hit⟩
  rw [hs] at h h1
  simp only at h h1
  have h2 : Even (nextBlock o f1 .trim hit e).1 := by
    unfold nextBlock
    have h := even_choose (o := o) (d := .trim) (hit := hit) (e := e) h1
    split
    · rename_i heq; rw [heq] at h; exact h
    · rename_i heq; rw [heq] at h
      repeat' split
      all_goals exact h
  rcases hn : nextBlock o f1 .trim hit e with ⟨f2, r⟩
  rw [hn] at h h2
  cases r with
  | none => simp at h
  | some p =>
    obtain ⟨off0, c0⟩ := p
    unfold Even at h2
    simp only [ht, true_and] at h h2
    split at h
    · simp at h
    · split at h
      · simp at h
      · split at h
        · rename_i heq
          simp only [Option.some.injEq, Prod.mk.injEq] at h
          obtain ⟨rfl, h5, rfl⟩ := h
          rw [h5] at heq
          simp only [upd, if_true, h2, heq]
          unfold sub64
          omega
        · rename_i hne
          simp only [Option.some.injEq, Prod.mk.injEq] at h
          obtain ⟨rfl, h5, rfl⟩ := h
          rw [h2, ← h5]
          exact hne

/-- Trims and writes alternate, each write covers what the trim before it covered. -/
def Paired : List Io → Prop
  | [] => True
  | [t] => t.dir = .trim
  | t :: w :: rest => t.dir = .trim ∧ w.dir = .write ∧ w.off = t.off ∧ w.len = t.len ∧ Paired rest

/-- The state after a trim. -/
structure Odd (f : File) (off len : Nat) : Prop where
  start : f.lastStart .trim = off
  pos : f.lastPos .trim = off + len
  ne : f.lastStart .write ≠ off
  bound : off + len < 2 ^ 62

theorem odd_after_trim {o : Opts} {f g : File} {e : Draws} {io : Io} (ho : Sane o) (hf : SaneF f)
    (he : GoodDraws e) (hn : e.setNr * o.minBs .trim < 2 ^ 64)
    (ht : o.randTrimWrite = true) (hz : o.zone = none) (hev : Even f)
    (h : fill o f .trim e = some (g, io)) :
    Odd (advance g io) io.off io.len ∧ SaneF (advance g io) ∧ io.dir = .trim := by
  have h1 := C25 ho hf he (by simp) h
  have h2 := C25_issued ho hf he (by simp) hn h
  obtain ⟨f1, f2, c, hz1, hoff, hgen, hr, h0, hle, hdir, rfl, _, _⟩ := fill_unfold h
  have hf1 : f1 = f := (setupZone_spec ho hf hz1).2.2.2.2 hz
  subst hf1
  have hreal := h1.2.2.2.2.1.real
  have hne := nextOffset_trim ht hev (by omega) hoff
  refine ⟨⟨?_, ?_, ?_, by omega⟩, ?_, hdir⟩
  · simp [advance, upd, hdir]
  · simp only [advance, upd, hdir, if_true]
    unfold add64
    rw [Nat.mod_eq_of_lt (by omega)]
  · simpa [advance, upd, hdir] using hne
  · have := h1.2.2.2.2.1
    exact ⟨this.fileOff, this.ioSize, this.real, this.start⟩

theorem runTrimWrite_spec {o : Opts} (ho : Sane o) (ht : o.randTrimWrite = true)
    (hz : o.zone = none) : ∀ (es : List Draws), (∀ e ∈ es, GoodDraws e ∧ e.setNr * o.minBs .trim < 2 ^ 64) →
    ∀ f, SaneF f →
    (Even f → Paired (runTrimWrite o f es)) ∧
    (∀ off len, Odd f off len → runTrimWrite o f es = [] ∨
      ∃ w rest, runTrimWrite o f es = w :: rest ∧ w.dir = .write ∧ w.off = off ∧ w.len = len ∧
        Paired rest)
  | [], _, f, _ => ⟨fun _ => trivial, fun _ _ _ => Or.inl rfl⟩
  | e :: es, hes, f, hf => by
    have he := hes e List.mem_cons_self
    have ih := runTrimWrite_spec ho ht hz es (fun e' h' => hes e' (List.mem_cons_of_mem _ h'))
    constructor
    · intro hev
      unfold runTrimWrite
      have hd : trimWriteDir f = .trim := if_pos hev
      rw [hd]
      rcases hfl : fill o f .trim e with _ | ⟨g, io⟩
      · trivial
      · simp only
        obtain ⟨h1, h2, h3⟩ := odd_after_trim ho hf he.1 he.2 ht hz hev hfl
        rcases (ih _ h2).2 _ _ h1 with h4 | ⟨w, rest, h4, h5, h6, h7, h8⟩
        · rw [h4]; exact h3
        · rw [h4]; exact ⟨h3, h5, h6, h7, h8⟩
    · intro off len hodd
      unfold runTrimWrite
      have hd : trimWriteDir f = .write := by
        unfold trimWriteDir
        rw [if_neg]
        rw [hodd.start]; exact hodd.ne
      rw [hd]
      rcases hfl : fill o f .write e with _ | ⟨g, io⟩
      · exact Or.inl rfl
      · right
        simp only
        have h1 := C25_trimwrite_inside ho hf hz ht (by rw [hodd.start, hodd.pos]; omega)
          (by rw [hodd.pos]; exact hodd.bound) hfl
        obtain ⟨hin, h2, h3, h4, h5, h6, s1, s2, s3, s4⟩ := h1
        refine ⟨io, _, rfl, h6, ?_, ?_, ?_⟩
        · rw [h2, hodd.start]
        · rw [h4, h3, hodd.pos, hodd.start]; omega
        · refine (ih _ ⟨?_, ?_, ?_, ?_⟩).1 ?_
          · simp only [advance, s1]; exact hf.fileOff
          · simp only [advance, s2]; exact hf.ioSize
          · simp only [advance, s3]; exact hf.real
          · simp only [advance, s4, s1]; exact hf.start
          · unfold Even
            simp only [advance, upd, h6, if_true, h5, reduceCtorEq, if_false]
            exact h2

/-- C25, randtrimwrite: trims and writes alternate and each write covers exactly the blocks of the
trim before it, whatever blocks and sizes are drawn, including the same block twice in a row. -/
theorem C25_trimwrite {o : Opts} {f : File} {es : List Draws} (ho : Sane o) (hf : SaneF f)
    (ht : o.randTrimWrite = true) (hz : o.zone = none)
    (hes : ∀ e ∈ es, GoodDraws e ∧ e.setNr * o.minBs .trim < 2 ^ 64)
    (h0 : f.lastStart .write = f.lastStart .trim) : Paired (runTrimWrite o f es) :=
  (runTrimWrite_spec ho ht hz es hes f hf).1 h0

/-- C25: with a range of block sizes (or a split) the I/O also ends inside the region of the job. -/
theorem C25_region {o : Opts} {f g : File} {d : Dir} {e : Draws} {io : Io} (ho : Sane o)
    (hf : SaneF f) (he : GoodDraws e) (hd : ¬(o.randTrimWrite ∧ d = .write))
    (hbs : ∀ k, o.minBs k ≠ o.maxBs k) (hst : f.startOff = f.fileOff)
    (h : fill o f d e = some (g, io)) : io.off + io.gen ≤ f.fileOff + f.ioSize := by
  obtain ⟨⟨i1, i2, i3⟩, _, l1, l2, hg, _⟩ := C25 ho hf he hd h
  obtain ⟨f1, f2, c, hz, hoff, hgen, hr, h0, hle, hdir, rfl, _, _⟩ := fill_unfold h
  obtain ⟨hf1, z1, z2, z3, z4⟩ := setupZone_spec ho hf hz
  obtain ⟨⟨s1, s2, s3, s4⟩, b1, b2, b3⟩ := nextOffset_spec hf1 hoff
  have hl := (nextLen_spec ho he hd hgen h0).2.2 (hbs _)
  unfold fits at hl
  have := ho.max_lt (lenDir o d io.isRandom)
  have := hf1.real
  have := hf1.fileOff
  have := hf1.ioSize
  have := hf1.start
  have hadd : add64 io.off io.gen = io.off + io.gen := by
    unfold add64; exact Nat.mod_eq_of_lt (by omega)
  have hadd2 : add64 f2.ioSize f2.startOff = f2.ioSize + f2.startOff := by
    unfold add64; exact Nat.mod_eq_of_lt (by omega)
  rw [hadd, hadd2] at hl
  have := of_decide_eq_true hl
  omega

/-- With a fixed block size the choice of a random job is the drawn block. -/
theorem fill_random {o : Opts} {f g : File} {d : Dir} {e : Draws} {io : Io} {b : Nat}
    (hd : ¬(o.randTrimWrite ∧ d = .write)) (hz : o.zone = none)
    (hr : o.tdRandom = true) (hdr : e.doRandom = true) (hsq : o.seqNr = 1) (hcnt : f.seqCnt = 1)
    (hb : e.rand1 = some b) (hm : b ≠ m1) (h : fill o f d e = some (g, io)) :
    io.off = add64 (b * o.ba d % 2 ^ 64) f.fileOff ∧ io.isRandom = true := by
  obtain ⟨f1, f2, c, hz1, hoff, hgen, hri, h0, hle, hdir, rfl, _, _⟩ := fill_unfold h
  have : f1 = f := by
    unfold setupZone at hz1; rw [hz] at hz1; simpa using hz1.symm
  subst this
  unfold nextOffset at hoff
  have hs : seqHit o f1 = ({ f1 with seqCnt := 1 }, true) := by
    unfold seqHit; rw [hsq, hcnt]; simp
  have hn : nextBlock o { f1 with seqCnt := 1 } d true e =
      ({ f1 with seqCnt := 1 }, some (b * o.ba d % 2 ^ 64, { b := b, isRandom := true, busyOk := false })) := by
    unfold nextBlock choose randBlock
    rw [if_neg hd]
    simp [hr, hdr, hb, hm]
  rw [hs] at hoff
  simp only at hoff
  rw [hn] at hoff
  simp only at hoff
  split at hoff
  · simp at hoff
  · split at hoff
    · simp at hoff
    · split at hoff <;>
      · simp only [Option.some.injEq, Prod.mk.injEq] at hoff
        obtain ⟨rfl, h5, rfl⟩ := hoff
        exact ⟨h5.symm, hri.symm⟩

/-- C25: with a fixed block size a random I/O whose block is below last_block ends inside the region.
The hypothesis on the sizes is what keeps last_block from wrapping. -/
theorem C25_region_random {o : Opts} {f g : File} {d : Dir} {e : Draws} {io : Io} {b : Nat}
    (ho : Sane o) (hf : SaneF f) (he : GoodDraws e)
    (hd : ¬(o.randTrimWrite ∧ d = .write)) (hz : o.zone = none) (hsr : o.bsIsSeqRand = false)
    (hr : o.tdRandom = true) (hdr : e.doRandom = true) (hsq : o.seqNr = 1) (hcnt : f.seqCnt = 1)
    (hfix : o.minBs d = o.maxBs d) (hba : 0 < o.ba d)
    (hsz : o.minBs d - o.ba d ≤ min f.ioSize f.real)
    (hb : e.rand1 = some b) (hlt : b < lastBlock o f d)
    (h : fill o f d e = some (g, io)) : io.off + io.gen ≤ f.fileOff + min f.ioSize f.real := by
  have h1 := hf.ioSize
  have h2 := hf.fileOff
  have hmax := ho.max_lt d
  unfold lastBlock at hlt
  rw [hz] at hlt
  have hmin : (if f.ioSize > f.real then f.real else f.ioSize) = min f.ioSize f.real := by
    split <;> omega
  simp only [hmin] at hlt
  have hM : min f.ioSize f.real ≤ f.ioSize := Nat.min_le_left _ _
  generalize min f.ioSize f.real = M at *
  have hsub : (if o.minBs d > o.ba d then sub64 M (o.minBs d - o.ba d) else M) =
      M - (o.minBs d - o.ba d) := by
    split
    · unfold sub64; omega
    · omega
  rw [hsub] at hlt
  have hb1 : (b + 1) * o.ba d ≤ M - (o.minBs d - o.ba d) := by
    have := (Nat.le_div_iff_mul_le hba).1 (show b + 1 ≤ (M - (o.minBs d - o.ba d)) / o.ba d by omega)
    exact this
  rw [Nat.add_mul, Nat.one_mul] at hb1
  have hbb : b ≤ b * o.ba d := Nat.le_mul_of_pos_right _ hba
  obtain ⟨hoff, hir⟩ := fill_random hd hz hr hdr hsq hcnt hb (by unfold m1; omega) h
  obtain ⟨_, _, l1, l2, _⟩ := C25 ho hf he hd h
  have hk : sizeDir o.bsIsSeqRand d io.isRandom = d := by rw [hsr]; rfl
  rw [hk] at l1 l2
  have : io.off = b * o.ba d + f.fileOff := by
    rw [hoff]; unfold add64
    rw [Nat.mod_eq_of_lt (a := b * o.ba d) (by omega), Nat.mod_eq_of_lt (by omega)]
  omega

/-- The block that __get_next_rand_offset draws, io_u.c:117, is below last_block: always for the 32-bit
generator, except for the top 1024 draws for the 64-bit one. -/
theorem C25_uniform {lastb r : Nat} (hl : 0 < lastb) :
    (r < 2 ^ 32 → scaled lastb r 32 < lastb) ∧ (r < 2 ^ 64 - 1024 → scaled lastb r 64 < lastb) := by
  constructor
  · intro hr
    have h := scale64_lt (n := lastb) (r := 2 ^ 32 * r) hl (by omega)
    unfold scaled
    rw [round53_scale, ← Nat.mul_assoc, Nat.mul_comm (round53 lastb), Nat.mul_assoc, round53_scale,
      show (2 : Nat) ^ 64 = 2 ^ 32 * 2 ^ 32 by norm_num, Nat.mul_div_mul_left _ _ (by norm_num)] at h
    exact h
  · intro hr
    exact scale64_lt hl hr

/-- For those the block is one too far (below 2^53 blocks): the I/O fails, which ends the job. -/
theorem C25_uniform_top {lastb r : Nat} (hl : lastb < 2 ^ 53) (hr : 2 ^ 64 - 1024 ≤ r)
    (hr' : r < 2 ^ 64) : scaled lastb r 64 = lastb := by
  unfold scaled
  rw [scale64_top hr hr', round53_small hl]

/-- C25: a sequential job with a fixed block size stays in the region if the size of the region is a
multiple of the block size, and its position remains a multiple of the block size. -/
theorem C25_region_seq {o : Opts} {f g : File} {d : Dir} {e : Draws} {io : Io} {k : Nat}
    (ho : Sane o) (hf : SaneF f) (he : GoodDraws e)
    (hd : ¬(o.randTrimWrite ∧ d = .write)) (hz : o.zone = none) (hsr : o.bsIsSeqRand = false)
    (hr : o.tdRandom = false) (hsq : o.seqNr = 1) (hcnt : f.seqCnt = 1) (hadd0 : o.seqAdd = 0)
    (hfix : o.minBs d = o.maxBs d) (hdvd : o.minBs d ∣ f.ioSize)
    (hpos : f.lastPos d = f.fileOff + k * o.minBs d)
    (h : fill o f d e = some (g, io)) :
    io.off + io.gen ≤ f.fileOff + f.ioSize ∧
    ∃ k', (advance g io).lastPos d = (advance g io).fileOff + k' * o.minBs d := by
  obtain ⟨⟨i1, i2, i3⟩, _, l1, l2, hg, g1, g2, g3, g4⟩ := C25 ho hf he hd h
  have g4 := g4 hz
  have hk : sizeDir o.bsIsSeqRand d io.isRandom = d := by rw [hsr]; rfl
  rw [hk] at l1 l2
  obtain ⟨f1, f2, c, hz1, hoff, hgen, hri, h0, hle, hdir, rfl, _, hm2⟩ := fill_unfold h
  have : f1 = f := by
    unfold setupZone at hz1; rw [hz] at hz1; simpa using hz1.symm
  subst this
  have hlen := hm2 (by rw [hr]; simp)
  unfold nextOffset at hoff
  have hs : seqHit o f1 = ({ f1 with seqCnt := 1 }, true) := by
    unfold seqHit; rw [hsq, hcnt]; simp
  rw [hs] at hoff
  simp only at hoff
  generalize hf3 : ({ f1 with seqCnt := 1 } : File) = f3 at hoff
  have e1 : f3.fileOff = f1.fileOff := by rw [← hf3]
  have e2 : f3.lastPos = f1.lastPos := by rw [← hf3]
  have e3 : f3.ioSize = f1.ioSize := by rw [← hf3]
  have h1 := hf.fileOff
  have h2 := hf.ioSize
  have h3 := hf.real
  have hmp := ho.min_pos d
  have hmx := ho.max_lt d
  -- the position after the resets
  have hres : ∃ k', (seqReset o f3 d).lastPos d = f1.fileOff + k' * o.minBs d ∧
      (seqReset o f3 d).fileOff = f1.fileOff ∧ (seqReset o f3 d).ioSize = f1.ioSize := by
    have hstep : ∀ (q : Prop) [Decidable q] (x : File), (∃ k', x.lastPos d = f1.fileOff + k' * o.minBs d) →
        x.fileOff = f1.fileOff → x.ioSize = f1.ioSize →
        (∃ k', (if q then { x with lastPos := upd x.lastPos d x.fileOff } else x).lastPos d =
          f1.fileOff + k' * o.minBs d) ∧
        (if q then { x with lastPos := upd x.lastPos d x.fileOff } else x).fileOff = f1.fileOff ∧
        (if q then { x with lastPos := upd x.lastPos d x.fileOff } else x).ioSize = f1.ioSize := by
      intro q _ x h1 h2 h3
      split
      · exact ⟨⟨0, by simp [upd, h2]⟩, h2, h3⟩
      · exact ⟨h1, h2, h3⟩
    unfold seqReset
    simp only
    obtain ⟨a1, a2, a3⟩ := hstep (f3.lastPos d ≥ add64 f3.ioSize f3.startOff ∧
      o.timeBased = true ∧ o.nrFiles = 1) f3 ⟨k, by rw [e2, hpos]⟩ e1 e3
    generalize (if f3.lastPos d ≥ add64 f3.ioSize f3.startOff ∧ o.timeBased = true ∧ o.nrFiles = 1 then
      { f3 with lastPos := upd f3.lastPos d f3.fileOff } else f3) = y at a1 a2 a3 ⊢
    obtain ⟨⟨k', a1⟩, a2, a3⟩ := hstep (o.tdWrite = true ∧ o.overlap = true ∧
      y.lastPos d ≥ add64 y.ioSize y.startOff) y a1 a2 a3
    exact ⟨k', a1, a2, a3⟩
  obtain ⟨k', p1, p2, p3⟩ := hres
  have hoffk : io.off = f1.fileOff + k' * o.minBs d := by
    unfold nextBlock choose seqOffset at hoff
    rw [if_neg hd] at hoff
    simp only [if_true, hr, Bool.false_eq_true, if_false] at hoff
    by_cases hlt : (seqReset o f3 d).lastPos d < (seqReset o f3 d).real
    · have hrew : seqRewind o (seqReset o f3 d) d = seqReset o f3 d := by
        unfold seqRewind; rw [hadd0, if_neg (by omega)]
      have hreal : (seqReset o f3 d).real = f1.real := by
        unfold seqReset; simp only; repeat' split
        all_goals simp [← hf3]
      have hps : seqPos o (seqReset o f3 d) d = k' * o.minBs d := by
        unfold seqPos
        simp only [hadd0, ne_eq, not_true_eq_false, and_false, if_false]
        rw [p1, p2]; unfold sub64
        rw [p1, hreal] at hlt
        omega
      rw [if_pos hlt, hrew] at hoff
      simp only [hps] at hoff
      rw [p1, hreal] at hlt
      have hne : k' * o.minBs d ≠ m1 := by unfold m1; omega
      simp only [hne, ne_eq, not_false_eq_true, if_true] at hoff
      have hsum : add64 (k' * o.minBs d) f1.fileOff = f1.fileOff + k' * o.minBs d := by
        unfold add64; rw [Nat.mod_eq_of_lt (by omega)]; omega
      rw [p2, hsum] at hoff
      split at hoff
      · simp at hoff
      · split at hoff
        · simp at hoff
        · split at hoff <;>
          · simp only [Option.some.injEq, Prod.mk.injEq] at hoff
            exact hoff.2.1.symm
    · rw [if_neg hlt] at hoff
      simp at hoff
  refine ⟨?_, k' + 1, ?_⟩
  · obtain ⟨n, hn⟩ := hdvd
    simp only at i1 i2 i3 g1 g4
    rw [g1, g4, hoffk, hn, Nat.mul_comm k'] at i2
    have : k' < n := by
      apply Nat.lt_of_mul_lt_mul_left (a := o.minBs d)
      omega
    have h5 : o.minBs d * (k' + 1) ≤ o.minBs d * n := Nat.mul_le_mul_left _ this
    rw [Nat.mul_add] at h5
    rw [hoffk, hn, Nat.mul_comm k']
    omega
  · simp only [advance, upd, hdir, if_true]
    simp only at g4 i3 g2
    rw [g4, hlen]
    unfold add64
    rw [Nat.mod_eq_of_lt (by omega), hoffk, Nat.add_mul]
    omega

/-- C25: a sequential job with a fixed block size goes on where the last I/O ended, as long as the block
is inside the region and the file. -/
theorem C25_seq_progress {o : Opts} {f : File} {d : Dir} {e : Draws}
    (ho : Sane o) (hf : SaneF f) (hd : ¬(o.randTrimWrite ∧ d = .write)) (hz : o.zone = none)
    (hsr : o.bsIsSeqRand = false) (hr : o.tdRandom = false) (hsq : o.seqNr = 1) (hcnt : f.seqCnt = 1)
    (hadd0 : o.seqAdd = 0) (hfix : o.minBs d = o.maxBs d) (hlo : f.fileOff ≤ f.lastPos d)
    (hst : f.startOff = f.fileOff)
    (hio : f.lastPos d + o.minBs d ≤ f.fileOff + f.ioSize) (hre : f.lastPos d + o.minBs d ≤ f.real) :
    ∃ g io, fill o f d e = some (g, io) ∧ io.off = f.lastPos d ∧ io.len = o.minBs d := by
  have h1 := hf.fileOff
  have h2 := hf.ioSize
  have h3 := hf.real
  have hmp := ho.min_pos d
  have hs : seqHit o f = ({ f with seqCnt := 1 }, true) := by
    unfold seqHit; rw [hsq, hcnt]; simp
  have hf3 : ({ f with seqCnt := 1 } : File) = f := by
    cases f; simp only [File.mk.injEq, true_and] at *; exact hcnt.symm
  rw [hf3] at hs
  have hadd : add64 f.ioSize f.startOff = f.ioSize + f.fileOff := by
    unfold add64; rw [hst]; exact Nat.mod_eq_of_lt (by omega)
  have hres : seqReset o f d = f := by
    unfold seqReset
    have hc : ¬ (f.lastPos d ≥ add64 f.ioSize f.startOff) := by rw [hadd]; omega
    have hc1 : ¬ (f.lastPos d ≥ add64 f.ioSize f.startOff ∧ o.timeBased = true ∧ o.nrFiles = 1) :=
      fun h => hc h.1
    simp only [if_neg hc1]
    rw [if_neg (fun h => hc h.2.2)]
  have hoff : seqOffset o f d = (f, some (f.lastPos d - f.fileOff)) := by
    unfold seqOffset
    simp only [hres]
    have hrew : seqRewind o f d = f := by
      unfold seqRewind; rw [hadd0, if_neg (by omega)]
    rw [if_pos (by omega), hrew]
    unfold seqPos
    simp only [hadd0, ne_eq, not_true_eq_false, and_false, if_false]
    unfold sub64
    rw [Prod.mk.injEq, Option.some.injEq]
    exact ⟨rfl, by omega⟩
  have hnb : nextBlock o f d true e = (f, some (f.lastPos d - f.fileOff,
      { off := f.lastPos d - f.fileOff, isRandom := false, busyOk := false })) := by
    unfold nextBlock choose
    rw [if_neg hd, hoff]
    simp only [if_true, hr, Bool.false_eq_true, if_false]
    rw [if_pos (by unfold m1; omega)]
  have hsum : add64 (f.lastPos d - f.fileOff) f.fileOff = f.lastPos d := by
    unfold add64; omega
  have hno : ∃ g c, nextOffset o f d e = some (g, f.lastPos d, c) ∧ g.real = f.real := by
    unfold nextOffset
    rw [hs]
    simp only [hnb, hsum]
    rw [if_neg (by omega), if_neg (by omega)]
    split
    · exact ⟨_, _, rfl, rfl⟩
    · exact ⟨_, _, rfl, rfl⟩
  obtain ⟨g, c, hno, hg⟩ := hno
  have hk : lenDir o d c.isRandom = d := by unfold lenDir; rw [hsr]; simp
  have hnl : nextLen o g d (f.lastPos d) c.isRandom e = some (o.minBs d) := by
    unfold nextLen
    rw [if_neg hd]
    simp only [hk]
    rw [if_pos hfix]
  have hle : add64 (f.lastPos d) (o.minBs d) = f.lastPos d + o.minBs d := by
    unfold add64; exact Nat.mod_eq_of_lt (by omega)
  unfold fill setupZone
  rw [hz]
  simp only [bind, Option.bind_some, hno, hnl, hr, hle, Bool.false_eq_true, false_and, if_false]
  rw [if_neg (by omega), if_neg (by omega)]
  exact ⟨_, _, rfl, rfl, rfl⟩

/-- C25: a random job with a fixed block size issues the block that was drawn, if it is below last_block,
the region is inside the file, and the random map takes it. -/
theorem C25_random_progress {o : Opts} {f : File} {d : Dir} {e : Draws} {b : Nat}
    (ho : Sane o) (hf : SaneF f) (hd : ¬(o.randTrimWrite ∧ d = .write)) (hz : o.zone = none)
    (hsr : o.bsIsSeqRand = false) (hr : o.tdRandom = true) (hdr : e.doRandom = true)
    (hsq : o.seqNr = 1) (hcnt : f.seqCnt = 1) (hfix : o.minBs d = o.maxBs d)
    (hba : o.ba d = o.minBs d) (hre : f.fileOff + f.ioSize ≤ f.real)
    (hb : e.rand1 = some b) (hlt : b < lastBlock o f d) (hset : e.setNr = 1) :
    ∃ g io, fill o f d e = some (g, io) ∧ io.off = f.fileOff + b * o.ba d ∧ io.len = o.minBs d := by
  have h1 := hf.fileOff
  have h2 := hf.ioSize
  have h3 := hf.real
  have hmp := ho.min_pos d
  have hmx := ho.max_lt d
  unfold lastBlock at hlt
  rw [hz] at hlt
  simp only [hba, gt_iff_lt, Nat.lt_irrefl, if_false] at hlt
  rw [if_neg (by omega)] at hlt
  have hb1 : (b + 1) * o.minBs d ≤ f.ioSize :=
    (Nat.le_div_iff_mul_le hmp).1 (by omega)
  rw [Nat.add_mul, Nat.one_mul] at hb1
  have hbb : b ≤ b * o.minBs d := Nat.le_mul_of_pos_right _ hmp
  have hs : seqHit o f = ({ f with seqCnt := 1 }, true) := by
    unfold seqHit; rw [hsq, hcnt]; simp
  have hf3 : ({ f with seqCnt := 1 } : File) = f := by
    cases f; simp only [File.mk.injEq, true_and] at *; exact hcnt.symm
  rw [hf3] at hs
  have hnb : nextBlock o f d true e =
      (f, some (b * o.minBs d, { b := b, isRandom := true, busyOk := false })) := by
    unfold nextBlock choose randBlock
    rw [if_neg hd]
    have hm : b ≠ m1 := by unfold m1; omega
    have : b * o.minBs d % 2 ^ 64 = b * o.minBs d := Nat.mod_eq_of_lt (by omega)
    simp [hr, hdr, hb, hm, hba]
    omega
  have hsum : add64 (b * o.minBs d) f.fileOff = f.fileOff + b * o.minBs d := by
    unfold add64; rw [Nat.mod_eq_of_lt (by omega)]; omega
  have hno : ∃ g c, nextOffset o f d e = some (g, f.fileOff + b * o.minBs d, c) ∧
      g.real = f.real ∧ c.busyOk = false := by
    unfold nextOffset
    rw [hs]
    simp only [hnb, hsum]
    rw [if_neg (by omega), if_neg (by omega)]
    split
    · exact ⟨_, _, rfl, rfl, rfl⟩
    · exact ⟨_, _, rfl, rfl, rfl⟩
  obtain ⟨g, c, hno, hg, hbusy⟩ := hno
  have hk : lenDir o d c.isRandom = d := by unfold lenDir; rw [hsr]; simp
  have hnl : nextLen o g d (f.fileOff + b * o.minBs d) c.isRandom e = some (o.minBs d) := by
    unfold nextLen
    rw [if_neg hd]
    simp only [hk]
    rw [if_pos hfix]
  have hle : add64 (f.fileOff + b * o.minBs d) (o.minBs d) = f.fileOff + b * o.minBs d + o.minBs d := by
    unfold add64; exact Nat.mod_eq_of_lt (by omega)
  have hmm : markMap o d c.busyOk (o.minBs d) e.setNr = some (o.minBs d) := by
    unfold markMap
    rw [hbusy, hset]
    have hadd : add64 (o.minBs d) (o.minBs d - 1) = o.minBs d + (o.minBs d - 1) := by
      unfold add64; exact Nat.mod_eq_of_lt (by omega)
    have hdiv : (o.minBs d + (o.minBs d - 1)) / o.minBs d ≠ 0 := by
      have := (Nat.one_le_div_iff hmp).2 (show o.minBs d ≤ o.minBs d + (o.minBs d - 1) by omega)
      omega
    simp only [hadd]
    rw [if_neg hdiv]
    simp only [Bool.false_eq_true, if_false, Nat.one_ne_zero, Nat.one_mul]
    rw [Nat.mod_eq_of_lt (by omega), if_neg (by omega)]
  unfold fill setupZone
  rw [hz]
  simp only [bind, Option.bind_some, hno, hnl, hle, hmm, ite_self]
  rw [if_neg (by omega), if_neg (by omega)]
  rw [hba]
  exact ⟨_, _, rfl, rfl, rfl⟩

theorem foldl_min_le : ∀ (l : List (Nat × Nat)) (m : Nat),
    l.foldl (fun m x => if x.1 < m then x.1 else m) m ≤ m ∧
    ∀ x ∈ l, l.foldl (fun m x => if x.1 < m then x.1 else m) m ≤ x.1
  | [], m => by simp
  | y :: l, m => by
    have ih := foldl_min_le l (if y.1 < m then y.1 else m)
    simp only [List.foldl_cons, List.mem_cons, forall_eq_or_imp]
    have h1 : (if y.1 < m then y.1 else m) ≤ m ∧ (if y.1 < m then y.1 else m) ≤ y.1 := by
      split <;> omega
    exact ⟨Nat.le_trans ih.1 h1.1, Nat.le_trans ih.1 h1.2, ih.2⟩

theorem foldl_le_max : ∀ (l : List (Nat × Nat)) (m : Nat),
    m ≤ l.foldl (fun m x => if x.1 > m then x.1 else m) m ∧
    ∀ x ∈ l, x.1 ≤ l.foldl (fun m x => if x.1 > m then x.1 else m) m
  | [], m => by simp
  | y :: l, m => by
    have ih := foldl_le_max l (if y.1 > m then y.1 else m)
    simp only [List.foldl_cons, List.mem_cons, forall_eq_or_imp]
    have h1 : m ≤ (if y.1 > m then y.1 else m) ∧ y.1 ≤ (if y.1 > m then y.1 else m) := by
      split <;> omega
    exact ⟨Nat.le_trans h1.1 ih.1, Nat.le_trans h1.2 ih.1, ih.2⟩

/-- C25: parsing a split establishes what `Sane.split` asks for. -/
theorem C25_bssplit {l out : List (Nat × Nat)} {mn mx : Nat} (h : bssplitDdir l = some (mn, mx, out)) :
    ∀ x ∈ out, mn ≤ x.1 ∧ x.1 ≤ mx := by
  unfold bssplitDdir at h
  simp only at h
  split at h
  · simp at h
  · simp only [Option.some.injEq, Prod.mk.injEq] at h
    obtain ⟨rfl, rfl, rfl⟩ := h
    intro x hx
    rw [List.mem_map] at hx
    obtain ⟨y, hy, rfl⟩ := hx
    have h1 := (foldl_min_le l m1).2 y hy
    have h2 := (foldl_le_max l 0).2 y hy
    split <;> exact ⟨h1, h2⟩

/-- C25: the loop that draws a block size can finish: a draw of 0 ends it at once, if the minimum fits
and, with a split, the minimum has a positive percentage. -/
theorem C25_draw_ends {o : Opts} {f : File} {d : Dir} {off bits prev : Nat} {rs : List Nat}
    (ho : Sane o) (hfit : fits f off (o.minBs d) = true) (hoff : off < 2 ^ 62)
    (hsp : o.bssplit d ≠ [] → ∃ p, 0 < p ∧ (o.minBs d, p) ∈ o.bssplit d) :
    ∃ l, lenLoop o f d off bits (0 :: rs) prev = some l := by
  have h1 := ho.min_pos d
  have h2 := ho.min_le d
  have h3 := ho.max_lt d
  have mono : ∀ a b, a ≤ b → b < 2 ^ 62 → fits f off b = true → fits f off a = true := by
    intro a b hab hb h
    unfold fits add64 at *
    rw [Nat.mod_eq_of_lt (by omega)] at h ⊢
    have := of_decide_eq_true h
    exact decide_eq_true (by omega)
  have key : fits f off (drawLen o f d off bits 0 prev) = true ∧ drawLen o f d off bits 0 prev < 2 ^ 62 := by
    unfold drawLen
    split
    · have : scaled (o.maxBs d) 0 bits = 0 := by unfold scaled; simp [round53]
      rw [this]; unfold add64
      rw [Nat.add_zero, Nat.mod_eq_of_lt (by omega)]
      exact ⟨hfit, by omega⟩
    · rename_i hne
      obtain ⟨p, hp, hmem⟩ := hsp hne
      have hin := ho.split d
      have : ∀ (l : List (Nat × Nat)) (b perc : Nat), (∀ x ∈ l, x.1 ≤ o.maxBs d) → (o.minBs d, p) ∈ l →
          fits f off (splitPick f off 0 (2 ^ bits - 1) l b perc) = true ∧
          splitPick f off 0 (2 ^ bits - 1) l b perc < 2 ^ 62 := by
        intro l
        induction l with
        | nil => intro b perc _ h; simp at h
        | cons x l ih =>
          intro b perc hle hm
          obtain ⟨bs, q⟩ := x
          unfold splitPick
          have hx := hle (bs, q) List.mem_cons_self
          simp only at hx
          split
          · rename_i hq
            apply ih _ _ (fun y hy => hle y (List.mem_cons_of_mem _ hy))
            rcases List.mem_cons.1 hm with h | h
            · simp only [Prod.mk.injEq] at h; omega
            · exact h
          · simp only [Nat.zero_div, Nat.zero_le, true_and]
            split
            · rename_i hfb
              exact ⟨hfb, by omega⟩
            · rename_i hnf
              apply ih _ _ (fun y hy => hle y (List.mem_cons_of_mem _ hy))
              rcases List.mem_cons.1 hm with h | h
              · simp only [Prod.mk.injEq] at h
                rw [h.1] at hfit
                exact absurd hfit hnf
              · exact h
      exact this _ prev 0 (fun x hx => (hin x hx).2) hmem
  unfold lenLoop
  simp only
  rw [if_pos (mono _ _ (roundLen_le _ _ _ _) key.2 key.1)]
  exact ⟨_, rfl⟩

/-! ### Concrete cases -/

/-- One file, block size 4096 in every direction, sequential. -/
def seqJob : Opts where
  minBs _ := 4096
  maxBs _ := 4096
  ba _ := 4096
  bssplit _ := []
  bsIsSeqRand := false
  bsUnaligned := false
  seqAdd := 0
  seqNr := 1
  rwSeq := .seq
  timeBased := false
  nonUniform := false
  nrFiles := 1
  overlap := false
  tdWrite := false
  tdRandom := false
  randTrimWrite := false
  randomMap := false
  zone := none

def randJob : Opts := { seqJob with tdRandom := true, randomMap := true }
def rangeJob : Opts := { seqJob with maxBs := fun _ => 16384, tdRandom := true }
def trimJob : Opts := { randJob with randTrimWrite := true, tdWrite := true }

/-- A region of `io` bytes from `off` of a file of `real` bytes. -/
def file (off io real : Nat) : File where
  fileOff := off
  ioSize := io
  real := real
  startOff := off
  lastPos _ := off
  lastStart _ := m1
  zoneBytes := 0
  seqCnt := 1

def draws (b : Option Nat) (bs : List Nat) : Draws where
  doRandom := true
  rand1 := b
  rand2 := none
  bs := bs
  bits := 32
  setNr := 1

theorem sane_seqJob : Sane seqJob :=
  ⟨by intro d; cases d <;> decide, by intro d; cases d <;> decide, by intro d; cases d <;> decide, by simp [seqJob], by simp [seqJob]⟩
theorem sane_rangeJob : Sane rangeJob :=
  ⟨by intro d; cases d <;> decide, by intro d; cases d <;> decide, by intro d; cases d <;> decide, by simp [rangeJob, seqJob],
    by simp [rangeJob, seqJob]⟩
theorem sane_trimJob : Sane trimJob :=
  ⟨by intro d; cases d <;> decide, by intro d; cases d <;> decide, by intro d; cases d <;> decide, by simp [trimJob, randJob, seqJob],
    by simp [trimJob, randJob, seqJob]⟩
theorem saneF_file : SaneF (file 8192 40960 (2 ^ 20)) :=
  ⟨by decide, by decide, by decide, by decide⟩

/-- The I/Os of a run, as (offset, length). -/
def trace (o : Opts) (f : File) (l : List (Dir × Draws)) : Option (List (Nat × Nat)) :=
  (run o f l).map fun r => r.2.map fun io => (io.off, io.len)

example : trace seqJob (file 8192 40960 (2 ^ 20)) [(.read, draws none []), (.read, draws none [])] =
    some [(8192, 4096), (12288, 4096)] := by decide +kernel
example : trace randJob (file 8192 40960 (2 ^ 20)) [(.read, draws (some 7) []), (.read, draws (some 2) [])] =
    some [(36864, 4096), (16384, 4096)] := by decide +kernel
/-- Near the end of the region: the first draw does not fit, the second does. -/
example : trace rangeJob (file 8192 40960 (2 ^ 20)) [(.write, draws (some 8) [2 ^ 31, 2 ^ 30])] =
    some [(40960, 8192)] := by decide +kernel
example : GoodDraws (draws (some 8) [2 ^ 31, 2 ^ 30]) := by
  refine ⟨Or.inl rfl, ?_⟩; simp [draws]
/-- The same block is drawn twice: trim, write, trim, write. -/
example : (runTrimWrite trimJob (file 8192 40960 (2 ^ 20))
      [draws (some 3) [], draws none [], draws (some 3) [], draws none []]).map
        (fun io => (io.dir, io.off, io.len)) =
    [(.trim, 20480, 4096), (.write, 20480, 4096), (.trim, 20480, 4096), (.write, 20480, 4096)] := by
  decide +kernel
/-- zonemode=strided with zones of 8192 bytes every 16384 bytes. -/
example : trace { seqJob with zone := some ⟨8192, 8192, 8192⟩ } (file 8192 40960 (2 ^ 20))
      [(.read, draws none []), (.read, draws none []), (.read, draws none [])] =
    some [(8192, 4096), (12288, 4096), (24576, 4096)] := by decide +kernel
/-- The hypotheses of `C25_region_seq` hold at the start of a job. -/
example : seqJob.minBs .read ∣ (file 8192 40960 (2 ^ 20)).ioSize ∧
    (file 8192 40960 (2 ^ 20)).lastPos .read =
      (file 8192 40960 (2 ^ 20)).fileOff + 0 * seqJob.minBs .read := by decide +kernel
example : (3 : Nat) < lastBlock randJob (file 8192 40960 (2 ^ 20)) .read := by decide +kernel

/-- C25 does not extend to the end of the region: with `size=10k bs=4k` a sequential job's third I/O
covers the bytes 8192 to 12287 of a larger file or device, 2048 more than its region, into the region of
the next job if the regions are adjacent (`offset_increment`). -/
theorem C25_region_counterexample :
    trace seqJob (file 0 10240 (2 ^ 20))
      [(.write, draws none []), (.write, draws none []), (.write, draws none [])] =
    some [(0, 4096), (4096, 4096), (8192, 4096)] := by decide +kernel

/-- The distributions zipf, pareto and gauss draw from the number of blocks rounded up
(filesetup.c:1525), block 2 of `size=10k bs=4k`, which is not complete. -/
theorem C25_region_zipf_counterexample :
    ¬ (2 < lastBlock randJob (file 0 10240 (2 ^ 20)) .write) ∧
    trace randJob (file 0 10240 (2 ^ 20)) [(.write, draws (some 2) [])] = some [(8192, 4096)] := by
  decide +kernel

/-- last_block wraps if the region is smaller than the distance between block size and alignment:
`bs=4k ba=512 size=3k`: any block may be drawn. -/
theorem C25_last_block_wraps :
    lastBlock { seqJob with ba := fun _ => 512 } (file 0 3072 (2 ^ 20)) .read = 2 ^ 55 - 1 := by
  decide +kernel

/-- Holed I/O that reaches the end of the file does not return to the start of the region but to twice
its offset: the new position is relative to `file_offset`, yet set to `file_offset` (io_u.c:462). -/
theorem C25_holed_counterexample :
    trace { seqJob with seqAdd := 24576 } (file 8192 40960 49152)
      [(.read, draws none []), (.read, draws none []), (.read, draws none [])] =
    some [(8192, 4096), (36864, 4096), (16384, 4096)] := by decide +kernel

/-- The split `4k:8k/100`: the percentage of 4k is missing and nothing is left for it. -/
theorem bssplit_zero : bssplitDdir [(4096, 2 ^ 32 - 1), (8192, 100)] =
    some (4096, 8192, [(4096, 0), (8192, 100)]) := by decide +kernel

def splitJob : Opts :=
  { seqJob with maxBs := fun _ => 8192, bssplit := fun _ => [(4096, 0), (8192, 100)] }

/-- C25: with that split, get_next_buflen never returns when 4k of the region are left: the minimum fits,
but it is never drawn. -/
theorem C25_bssplit_hang (rs : List Nat) (bits prev : Nat) :
    fits (file 0 12288 (2 ^ 20)) 8192 (splitJob.minBs .read) = true ∧
    lenLoop splitJob (file 0 12288 (2 ^ 20)) .read 8192 bits rs prev = none := by
  refine ⟨by decide +kernel, ?_⟩
  induction rs generalizing prev with
  | nil => rfl
  | cons r rs ih =>
    have hd : drawLen splitJob (file 0 12288 (2 ^ 20)) .read 8192 bits r prev = 8192 := by
      unfold drawLen
      simp only [splitJob, splitPick, if_true]
      simp
    unfold lenLoop
    simp only [hd]
    rw [if_neg (by decide +kernel)]
    exact ih _

/-- A single missing percentage is not checked against what the others add up to: `4k/60:8k/50:16k`
gives 16k the percentage 2^32 - 10 (options.c:177, 196). -/
theorem C25_bssplit_percent_counterexample :
    bssplitDdir [(4096, 60), (8192, 50), (16384, 2 ^ 32 - 1)] =
    some (4096, 16384, [(4096, 60), (8192, 50), (16384, 2 ^ 32 - 10)]) := by decide +kernel

end Fio.IoGen
