import Verif.Replay.Lemmas
import Verif.Replay.Spec

/-! Lemmas: reading one line, and a whole log. -/
namespace Fio.Replay
open Spec (Out strip GoodOpts)

theorem alignOff_pow2 {k off : Nat} (ho : off < 2 ^ 64) :
    alignOff (2 ^ k) off = off / 2 ^ k * 2 ^ k := by
  have h2 : (2 : Nat) ^ k ≠ 0 := by
    have := Nat.two_pow_pos k; omega
  unfold alignOff
  rw [if_neg h2]
  apply Nat.eq_of_testBit_eq
  intro i
  rw [← Nat.shiftRight_eq_div_pow, ← Nat.shiftLeft_eq, Nat.testBit_and, Nat.testBit_xor,
    Nat.testBit_two_pow_sub_one, Nat.testBit_two_pow_sub_one, Nat.testBit_shiftLeft,
    Nat.testBit_shiftRight]
  by_cases hi : k ≤ i
  · have e : k + (i - k) = i := by omega
    rw [e]
    by_cases h64 : i < 64
    · simp [h64, hi]
    · have : off.testBit i = false :=
        Nat.testBit_lt_two_pow (Nat.lt_of_lt_of_le ho (Nat.pow_le_pow_right (by omega) (by omega)))
      simp [this]
  · by_cases h64 : i < 64
    · simp [h64, hi]; omega
    · have : off.testBit i = false :=
        Nat.testBit_lt_two_pow (Nat.lt_of_lt_of_le ho (Nat.pow_le_pow_right (by omega) (by omega)))
      simp [this, hi]

theorem place_eq {o : Opts} {off : Nat} (hg : GoodOpts o) (ho : off < 2 ^ 64) :
    alignOff o.replayAlign (if o.replayScale ≠ 0 then off / o.replayScale else off)
      = Spec.place o off := by
  have hx : (if o.replayScale ≠ 0 then off / o.replayScale else off)
      = (if o.replayScale = 0 then off else off / o.replayScale) := by
    by_cases h : o.replayScale = 0 <;> simp [h]
  have hlt : (if o.replayScale = 0 then off else off / o.replayScale) < 2 ^ 64 := by
    split
    · exact ho
    · exact Nat.lt_of_le_of_lt (Nat.div_le_self _ _) ho
  rw [hx]
  unfold Spec.place
  simp only
  generalize (if o.replayScale = 0 then off else off / o.replayScale) = x at hlt ⊢
  rcases hg with h | ⟨k, h⟩
  · rw [h]; rfl
  · have h2 : (2 : Nat) ^ k ≠ 0 := by have := Nat.two_pow_pos k; omega
    rw [h, if_neg h2]
    exact alignOff_pow2 hlt

/-- The state of the reader is sane: the counters tell whether there is an I/O,
the largest block sizes cover all I/Os. -/
structure Good (s : R) : Prop where
  cnt : 0 < s.reads + s.writes + s.trims + s.waits ↔
    ∃ p ∈ s.pieces, p.ddir = .read ∨ p.ddir = .write ∨ p.ddir = .trim ∨ p.ddir = .wait
  len6 : s.bs.length = 6
  big : ∀ p ∈ s.pieces, (p.ddir = .read ∨ p.ddir = .write ∨ p.ddir = .trim) →
    p.len ≤ s.bs.getD p.ddir.idx 0

theorem growBs_length (bs : List Nat) (d : Ddir) (n : Nat) :
    (growBs bs d n).length = bs.length := by
  unfold growBs; split <;> simp

theorem growBs_mono (bs : List Nat) (d : Ddir) (n i : Nat) :
    bs.getD i 0 ≤ (growBs bs d n).getD i 0 := by
  unfold growBs
  split
  · rename_i h
    simp only [List.getD_eq_getElem?_getD, List.getElem?_set]
    split
    · rename_i hi
      subst hi
      split
      · simp only [List.getD_eq_getElem?_getD] at h
        simp; omega
      · rename_i hl
        rw [List.getElem?_eq_none (by omega)]; simp
    · exact Nat.le_refl _
  · exact Nat.le_refl _

theorem growBs_ge (bs : List Nat) (d : Ddir) (n : Nat) (hd : d ≠ .inval) (hi : d.idx < bs.length) :
    n ≤ (growBs bs d n).getD d.idx 0 := by
  unfold growBs
  split
  · simp [List.getD_eq_getElem?_getD, hi]
  · rename_i h
    have : ¬ bs.getD d.idx 0 < n := fun c => h ⟨hd, c⟩
    omega

theorem growBs_zero (bs : List Nat) (d : Ddir) : growBs bs d 0 = bs := by
  unfold growBs
  rw [if_neg (by simp)]

theorem growBs_low (bs : List Nat) (d : Ddir) (n : Nat) (h : d.idx < 3 ∨ n = 0) :
    (growBs bs d n).drop 3 = bs.drop 3 := by
  rcases h with h | h
  · unfold growBs
    split
    · rw [List.drop_set_of_lt h]
    · rfl
  · subst h; rw [growBs_zero]

theorem queue_good {o : Opts} {s : R} {d : Ddir} {delay : Nat}
    (hg : Good s) (hw : d ≠ .wait) : Good (queue o (count s d) d delay) := by
  have hb : (count s d).bs = s.bs := by cases d <;> rfl
  have hp : (count s d).pieces = s.pieces := by cases d <;> rfl
  constructor
  · unfold queue
    rw [if_neg hw]
    have hc := hg.cnt
    cases d with
    | wait => exact absurd rfl hw
    | inval => simp [count, hc]
    | read | write | trim =>
      simp only [count, List.mem_append, List.mem_singleton]
      constructor
      · intro _; exact ⟨_, Or.inr rfl, by simp⟩
      · intro _; omega
    | sync | datasync | syncFileRange | syncfs =>
      simp only [count, List.mem_append, List.mem_singleton]
      constructor
      · intro h
        obtain ⟨p, hp, hpd⟩ := hc.mp h
        exact ⟨p, Or.inl hp, hpd⟩
      · rintro ⟨p, hp | hp, hpd⟩
        · exact hc.mpr ⟨p, hp, hpd⟩
        · subst hp; simp at hpd
  · unfold queue
    rw [if_neg hw]
    simp only [growBs_length, hb]
    exact hg.len6
  · unfold queue
    rw [if_neg hw]
    intro p hmem hpd
    simp only [hp, List.mem_append, List.mem_singleton] at hmem
    simp only [hb]
    rcases hmem with h | h
    · exact Nat.le_trans (hg.big p h hpd) (growBs_mono _ _ _ _)
    · subst h
      simp only at hpd ⊢
      apply growBs_ge
      · rcases hpd with h | h | h <;> rw [h] <;> decide
      · rw [hg.len6]
        rcases hpd with h | h | h <;> rw [h] <;> decide

theorem ddirOf_name {d : Ddir}
    (h : d = .read ∨ d = .write ∨ d = .trim ∨ d = .sync ∨ d = .datasync) :
    ddirOf (ddirName d) = some d := by
  rcases h with h | h | h | h | h <;> subst h <;> decide

theorem ddirName_not_wait {d : Ddir}
    (h : d = .read ∨ d = .write ∨ d = .trim ∨ d = .sync ∨ d = .datasync) :
    ddirName d ≠ str "wait" := by
  rcases h with h | h | h | h | h <;> subst h <;> decide

theorem kept_eq {o : Opts} {d : Ddir}
    (h : d = .read ∨ d = .write ∨ d = .trim ∨ d = .sync ∨ d = .datasync) :
    Spec.Kept o d = (!skipped o d && !dropped o d) := by
  rcases h with h | h | h | h | h <;> subst h <;> simp [Spec.Kept, skipped, dropped]

theorem delay_eq (o : Opts) (a t : Nat) : delaySince o a t = Spec.pause o a t := rfl

/-- doScan on the line of an I/O. -/
theorem doScan_io {o : Opts} {s : R} {t off len : Nat} {nm : List Nat} {d : Ddir}
    (hv : o.version = 3) (ht : t < 2 ^ 64) (ho : off < 2 ^ 64) (hl : len < 2 ^ 32)
    (hn : GoodName nm) (line : List Nat)
    (hline : line = dec t ++ [32] ++ nm ++ [32] ++ ddirName d ++ [32] ++ dec off ++ [32]
      ++ dec len)
    (hb : Body line) :
    doScan o s (line ++ [10]) =
      ({ s with fname := some nm, act := some (ddirName d), offset := off, bytes := len }, 5, t) := by
  unfold doScan
  rw [if_pos hv]
  have e : scan [.ull, .s 256, .s 256, .ull, .u] (cstr (line ++ [10]))
      = [.num t, .bytes nm, .bytes (ddirName d), .num off, .num len] := by
    rw [cstr_line hb, hline, scan_io ht ho (by omega) hn (good_ddir d),
      Nat.mod_eq_of_lt hl]
  simp only [e]
  rfl

theorem doScan_file {o : Opts} {s : R} {t : Nat} {nm : List Nat} {a : FAct}
    (hv : o.version = 3) (ht : t < 2 ^ 64) (hn : GoodName nm) (line : List Nat)
    (hline : line = dec t ++ [32] ++ nm ++ [32] ++ factName a) (hb : Body line) :
    doScan o s (line ++ [10]) =
      ({ s with fname := some nm, act := some (factName a) }, 3, t) := by
  unfold doScan
  rw [if_pos hv]
  have e : scan [.ull, .s 256, .s 256, .ull, .u] (cstr (line ++ [10]))
      = [.num t, .bytes nm, .bytes (factName a)] := by
    rw [cstr_line hb, hline, scan_file ht hn (good_fact a)]
  simp only [e]
  rfl

/-- What holds after a line was read. -/
structure After (s s' : R) (files : List (List Nat)) (t : Nat) (outs : List Out) : Prop where
  files : s'.files = files
  last : s'.last = t
  outs : s'.pieces.map strip = s.pieces.map strip ++ outs
  good : Good s → Good s'

theorem Good.of_eq {s s' : R} (h : Good s) (h1 : s'.reads = s.reads) (h2 : s'.writes = s.writes)
    (h3 : s'.trims = s.trims) (h4 : s'.waits = s.waits) (h5 : s'.bs = s.bs)
    (h6 : s'.pieces = s.pieces) : Good s' := by
  constructor
  · rw [h1, h2, h3, h4, h6]; exact h.cnt
  · rw [h5]; exact h.len6
  · rw [h5, h6]; exact h.big

theorem readLine_io {o : Opts} {s : R} {t off len f : Nat} {names : List (List Nat)} {d : Ddir}
    {i : Int}
    (hv : o.version = 3) (ho' : GoodOpts o) (ht : t < 2 ^ 64) (ho : off < 2 ^ 64)
    (hl : len < 2 ^ 32)
    (hd : d = .read ∨ d = .write ∨ d = .trim ∨ d = .sync ∨ d = .datasync)
    (hn : GoodName (names.getD f []))
    (hi : getFileno s.files (o.redirect.getD (names.getD f [])) = i) :
    ∃ s', ((readLine o s (logLine names (.io t f d off len)) = .next s' ∧
          Spec.Kept o d = false) ∨
        (readLine o s (logLine names (.io t f d off len)) = .queued s' ∧
          Spec.Kept o d = true)) ∧
      After s s' s.files t (if Spec.Kept o d = true
        then [.io d i (Spec.place o off) len (Spec.pause o s.last t)] else []) ∧
      ((d.idx < 3 ∨ len = 0) → s'.bs.drop 3 = s.bs.drop 3) := by
  have hbody := body_line (names := names) (e := .io t f d off len) hn
  have hds := doScan_io (s := s) hv ht ho hl hn (lineBody names (.io t f d off len)) rfl hbody.1
  rw [logLine_eq]
  have hio : ioAct o 5 = true := by simp [ioAct, hv]
  have key : readLine o s (lineBody names (.io t f d off len) ++ [10])
      = ioLine o { s with fname := some (names.getD f []), act := some (ddirName d), offset := off,
                          bytes := len, last := t } (ddirName d)
          (o.redirect.getD (names.getD f [])) (delaySince o s.last t) := by
    unfold readLine
    simp only [hds]
    rw [if_pos hv, if_neg (ddirName_not_wait hd)]
    unfold classify
    simp only [hio, if_true]
  rw [key]
  unfold ioLine
  simp only [ddirOf_name hd, hi]
  have hk := kept_eq (o := o) hd
  by_cases hsk : skipped o d = true
  · rw [if_pos hsk]
    refine ⟨_, Or.inl ⟨rfl, by rw [hk, hsk]; simp⟩, ⟨rfl, rfl, ?_, ?_⟩, fun _ => rfl⟩
    · rw [if_neg (by rw [hk, hsk]; simp)]; simp
    · exact fun hg => hg.of_eq rfl rfl rfl rfl rfl rfl
  · rw [if_neg hsk]
    by_cases hdr : dropped o d = true
    · rw [if_pos hdr]
      refine ⟨_, Or.inl ⟨rfl, by rw [hk, hdr]; simp⟩, ⟨rfl, rfl, ?_, ?_⟩, fun _ => rfl⟩
      · rw [if_neg (by rw [hk, hdr]; simp)]; simp
      · exact fun hg => hg.of_eq rfl rfl rfl rfl rfl rfl
    · rw [if_neg hdr]
      have hw : d ≠ .wait := by rcases hd with h | h | h | h | h <;> rw [h] <;> decide
      have hni : d ≠ .inval := by rcases hd with h | h | h | h | h <;> rw [h] <;> decide
      refine ⟨_, Or.inr ⟨rfl, by rw [hk]; simp [hsk, hdr]⟩, ⟨?_, ?_, ?_, ?_⟩, ?_⟩
      · unfold queue; rw [if_neg hw]; cases d <;> rfl
      · unfold queue; rw [if_neg hw]; cases d <;> rfl
      · rw [if_pos (by rw [hk]; simp [hsk, hdr])]
        unfold queue; rw [if_neg hw]
        have hp := place_eq ho' ho
        rcases hd with h | h | h | h | h <;> subst h <;>
          simp only [count, List.map_append, List.map_cons, List.map_nil, strip, hv, if_true, hp,
            delay_eq]
      · exact fun hg => queue_good (hg.of_eq rfl rfl rfl rfl rfl rfl) hw
      · intro h
        unfold queue; rw [if_neg hw]
        simp only
        have e : ∀ x : R, (count x d).bs = x.bs ∧ (count x d).bytes = x.bytes := by
          intro x; cases d <;> exact ⟨rfl, rfl⟩
        rw [(e _).1, (e _).2]
        exact growBs_low _ _ _ h

theorem queue_special {o : Opts} {s : R} {delay : Nat} :
    (Good s → Good (queue o s .inval delay)) ∧ (queue o s .inval delay).files = s.files ∧
      (queue o s .inval delay).last = s.last ∧
      (queue o s .inval delay).pieces.map strip =
        s.pieces.map strip ++ [.special s.fileno s.fact] ∧
      (queue o s .inval delay).bs = s.bs := by
  refine ⟨fun hg => queue_good (d := .inval) hg (by decide), rfl, rfl, ?_, ?_⟩
  · simp [queue, strip]
  · simp [queue, growBs]

theorem readLine_file {o : Opts} {s : R} {t f : Nat} {names : List (List Nat)} {a : FAct}
    (hv : o.version = 3) (ht : t < 2 ^ 64) (hn : GoodName (names.getD f [])) :
    readLine o s (logLine names (.file t f a)) =
      fileLine o { s with fname := some (names.getD f []), act := some (factName a), last := t }
        (factName a) (o.redirect.getD (names.getD f [])) (delaySince o s.last t) := by
  have hbody := body_line (names := names) (e := .file t f a) hn
  have hds := doScan_file (s := s) (a := a) hv ht hn (lineBody names (.file t f a)) rfl hbody.1
  rw [logLine_eq]
  have hio : ioAct o 3 = false := by simp [ioAct, hv]
  have hfi : fileAct o 3 = true := by simp [fileAct, hv]
  unfold readLine
  simp only [hds]
  rw [if_pos hv, if_neg (by cases a <;> decide)]
  unfold classify
  simp only [hio, hfi, if_true, Bool.false_eq_true, if_false]

theorem readLine_oc {o : Opts} {s : R} {t f : Nat} {names : List (List Nat)} {a : FAct} {i : Int}
    (hv : o.version = 3) (ht : t < 2 ^ 64) (hn : GoodName (names.getD f [])) (ha : a ≠ .add)
    (hi : getFileno s.files (o.redirect.getD (names.getD f [])) = i) :
    ∃ s', readLine o s (logLine names (.file t f a)) = .queued s' ∧
      After s s' s.files t [.special i a] ∧ s'.bs = s.bs := by
  rw [readLine_file hv ht hn]
  cases a with
  | add => exact absurd rfl ha
  | «open» =>
    unfold fileLine
    rw [if_neg (by decide), if_pos (by rfl)]
    have h := queue_special (o := o) (delay := delaySince o s.last t)
      (s := { s with fname := some (names.getD f []), act := some (factName .open), last := t,
                     fileno := i, fact := .open })
    refine ⟨_, rfl, ⟨?_, ?_, ?_, ?_⟩, ?_⟩
    · simp only [hi]; exact h.2.1
    · simp only [hi]; exact h.2.2.1
    · simp only [hi]; exact h.2.2.2.1
    · simp only [hi]; exact fun hg => h.1 (hg.of_eq rfl rfl rfl rfl rfl rfl)
    · simp only [hi]; exact h.2.2.2.2
  | close =>
    unfold fileLine
    rw [if_neg (by decide), if_neg (by decide), if_pos (by rfl)]
    have h := queue_special (o := o) (delay := delaySince o s.last t)
      (s := { s with fname := some (names.getD f []), act := some (factName .close), last := t,
                     fileno := i, fact := .close })
    refine ⟨_, rfl, ⟨?_, ?_, ?_, ?_⟩, ?_⟩
    · simp only [hi]; exact h.2.1
    · simp only [hi]; exact h.2.2.1
    · simp only [hi]; exact h.2.2.2.1
    · simp only [hi]; exact fun hg => h.1 (hg.of_eq rfl rfl rfl rfl rfl rfl)
    · simp only [hi]; exact h.2.2.2.2

/-- An `add` line that adds a file. -/
theorem readLine_add {o : Opts} {s : R} {t f : Nat} {names : List (List Nat)}
    (hv : o.version = 3) (ht : t < 2 ^ 64) (hn : GoodName (names.getD f []))
    (hi : o.redirect = none ∨ getFileno s.files (o.redirect.getD (names.getD f [])) = -1) :
    ∃ s', readLine o s (logLine names (.file t f .add)) = .queued s' ∧
      After s s' (s.files ++ [o.dir ++ o.redirect.getD (names.getD f [])]) t
        [.special s.files.length .add] ∧ s'.bs = s.bs ∧ s'.fileno = s.files.length ∧
        s'.fact = .add := by
  rw [readLine_file hv ht hn]
  unfold fileLine
  rw [if_pos (by rfl), if_neg (by
    rintro ⟨h1, h2⟩
    rcases hi with hi | hi
    · simp [hi] at h1
    · exact h2 hi)]
  have h := queue_special (o := o) (delay := delaySince o s.last t)
      (s := { s with fname := some (names.getD f []), act := some (factName .add), last := t,
                     fileno := s.files.length,
                     files := s.files ++ [o.dir ++ o.redirect.getD (names.getD f [])],
                     fact := .add })
  exact ⟨_, rfl, ⟨h.2.1, h.2.2.1, h.2.2.2.1, fun hg => h.1 (hg.of_eq rfl rfl rfl rfl rfl rfl)⟩, h.2.2.2.2, rfl, rfl⟩

/-- An `add` line whose file, the redirection, is there already. -/
theorem readLine_readd {o : Opts} {s : R} {t f : Nat} {names : List (List Nat)}
    (hv : o.version = 3) (ht : t < 2 ^ 64) (hn : GoodName (names.getD f []))
    (hr : o.redirect.isSome)
    (hi : getFileno s.files (o.redirect.getD (names.getD f [])) ≠ -1) :
    ∃ s', readLine o s (logLine names (.file t f .add)) = .queued s' ∧
      After s s' s.files t [.special s.fileno s.fact] ∧ s'.bs = s.bs ∧
      s'.fileno = s.fileno ∧ s'.fact = s.fact := by
  rw [readLine_file hv ht hn]
  unfold fileLine
  rw [if_pos (by rfl), if_pos ⟨hr, hi⟩]
  have h := queue_special (o := o) (delay := delaySince o s.last t)
      (s := { s with fname := some (names.getD f []), act := some (factName .add), last := t })
  exact ⟨_, rfl, ⟨h.2.1, h.2.2.1, h.2.2.2.1, fun hg => h.1 (hg.of_eq rfl rfl rfl rfl rfl rfl)⟩, h.2.2.2.2, rfl, rfl⟩

theorem readLoop_step {o : Opts} {s s' : R} {fuel : Nat} {names : List (List Nat)} {e : Ev}
    {rest : List Nat} (hn : GoodName (names.getD (evFile e) []))
    (h : readLine o s (logLine names e) = .next s' ∨ readLine o s (logLine names e) = .queued s') :
    readLoop o (fuel + 1) none s (logLine names e ++ rest) = readLoop o fuel none s' rest := by
  have hb := body_line hn
  have hf : fgets 4095 (logLine names e ++ rest) = (logLine names e, rest) := by
    rw [logLine_eq]; exact fgets_line _ _ _ hb.1 hb.2
  have hne : logLine names e ++ rest ≠ [] := by rw [logLine_eq]; simp
  conv => lhs; unfold readLoop
  rw [if_neg hne, hf]
  rcases h with h | h <;> rw [h]

theorem spec_name {n : List Nat} (h : Spec.Name n) : GoodName n := by
  refine ⟨?_, h.2.1, ?_⟩
  · intro e; rw [e] at h; simp [Spec.Name] at h
  · intro b hb
    have := h.2.2 b hb
    refine ⟨?_, this.1⟩
    simp only [isSpace, Bool.or_eq_false_iff, beq_eq_false_iff_ne, Bool.and_eq_false_iff,
      decide_eq_false_iff_not]
    omega

end Fio.Replay
