import Verif.Blkreplay.Steps
/-
C99: replaying a block trace.
-/
namespace Fio.Blkreplay
open Fio.Blkmerge (Trace Rec fileBytes recBytes)

theorem start_inv (o : Opts) : Inv o start :=
  ⟨fun f hf => (by cases hf), .inl rfl, fun k hk => (by simp [start] at hk),
   fun a b dd off len delay no h => (by simp [start] at h), fun dd off len delay no h => (by cases h)⟩

theorem start_cnt : Cnt start :=
  ⟨fun _ => rfl, fun i hi => (by cases hi), fun _ => .inl rfl, fun _ => Int.le_refl _⟩

theorem byName_closed (ns : List Nat) : ∀ l : List Nat, byName ns (l.map Ev.closed) = []
  | [] => rfl
  | _ :: l => by simp [byName, byName_closed ns l]

theorem order_closed (x : List Nat) : ∀ {evs : List Ev},
    (∀ a b dd off len delay no, evs = a ++ Ev.io dd off len delay no :: b → Ev.opened no ∈ a) →
    ∀ a b dd off len delay no, evs ++ x.map Ev.closed = a ++ Ev.io dd off len delay no :: b →
      Ev.opened no ∈ a := by
  intro evs h a b dd off len delay no he
  rcases List.append_eq_append_iff.mp he with ⟨c, h1, h2⟩ | ⟨c, h1, h2⟩
  · exfalso
    have : Ev.io dd off len delay no ∈ x.map Ev.closed := by rw [h2]; simp
    obtain ⟨k, _, hk⟩ := List.mem_map.mp this
    cases hk
  · cases c with
    | nil =>
      exfalso
      have : Ev.io dd off len delay no ∈ x.map Ev.closed := by
        rw [List.nil_append] at h2
        rw [← h2]; simp
      obtain ⟨k, _, hk⟩ := List.mem_map.mp this
      cases hk
    | cons y c =>
      rw [List.cons_append] at h2
      injection h2 with h3 h4
      subst h3
      exact h a c dd off len delay no h1

theorem clamp_bounds {d : Int} {n : Nat} (hd : 0 ≤ d) :
    0 ≤ clamp d n ∧ clamp d n ≤ 1024 ∧ (n ≠ 0 → 1 ≤ clamp d n) := by
  unfold clamp
  split
  · omega
  · split
    · omega
    · refine ⟨hd, by omega, fun h => ?_⟩
      omega

/-- C99: a block trace of any byte order, with any records and data behind them, that has something to
replay becomes the list of its queued I/Os, in order, at their places, with their delays and on their
devices; each file is opened before its I/Os; the directions and block sizes of the job are those of
the I/Os; the depth is at most 1024 and at least 1 if there is a read, a write or a trim. A trace
without anything to replay is refused. -/
theorem C99_replay (o : Opts) (big : Bool) (l : List Rec) (hl : l ≠ []) (hf : Fits o l) :
    (expected o 0 (l.map (·.t)) = [] → replay o (fileBytes big l) = some .failed) ∧
    (expected o 0 (l.map (·.t)) ≠ [] → ∃ j, replay o (fileBytes big l) = some (.ready j) ∧
      iosOf j.files j.evs = expected o 0 (l.map (·.t)) ∧
      (∀ a b dd off len delay no, j.evs = a ++ Ev.io dd off len delay no :: b → Ev.opened no ∈ a) ∧
      (∀ d, j.ddir d = true ↔ d ≠ .sync ∧ ∃ i ∈ expected o 0 (l.map (·.t)), i.dd = d) ∧
      (∀ i ∈ expected o 0 (l.map (·.t)), i.len ≤ j.maxBs i.dd) ∧
      (∀ d, j.maxBs d = 0 ∨ ∃ i ∈ expected o 0 (l.map (·.t)), i.dd = d ∧ i.len = j.maxBs d) ∧
      0 ≤ j.iodepth ∧ j.iodepth ≤ 1024 ∧
      ((∃ i ∈ expected o 0 (l.map (·.t)), i.dd ≠ .sync) → 1 ≤ j.iodepth)) := by
  obtain ⟨r, l', rfl⟩ : ∃ r l', l = r :: l' := by
    cases l with
    | nil => exact absurd rfl hl
    | cons r l' => exact ⟨r, l', rfl⟩
  have hmagic := hf.magic r (by simp)
  have hisb := Fio.Blkmerge.isBlktrace_file big r l' (by rw [hmagic])
  have hlen : (r :: l').length < (fileBytes big (r :: l')).length + 1 := by
    have : ∀ m : List Rec, m.length ≤ (fileBytes big m).length := by
      intro m
      induction m with
      | nil => simp [fileBytes]
      | cons a m ih =>
        simp only [fileBytes, List.length_append, Fio.Blkmerge.recBytes_length, List.length_cons]
        omega
    have := this (r :: l')
    omega
  have hft : ∀ x ∈ r :: l', FitsT o x.t := by
    intro x hx
    refine ⟨hf.align, hf.sector x hx, hf.bytes x hx, ?_⟩
    cases h : deviceOf o x.t with
    | none => exact absurd h (hf.found x hx)
    | some n => exact ⟨n, rfl⟩
  obtain ⟨s, h1, h2, h3, h4⟩ := readLoop_spec (d := fileBytes big (r :: l')) (r :: l') _ 0 start hlen rfl
    hft hf.magic (start_inv o) start_cnt
  have h4' : got s = expected o 0 ((r :: l').map (·.t)) := by
    rw [h4]
    simp [got, start, byName]
  generalize expected o 0 ((r :: l').map (·.t)) = E at h4' ⊢
  have hzero : ∀ d, s.ios d = 0 ↔ ¬ ∃ i ∈ E, i.dd = d := by
    intro d
    rw [h3.ios d, h4', List.length_eq_zero_iff, List.filter_eq_nil_iff]
    simp
  unfold replay initRead
  rw [hisb]
  simp only [h1]
  constructor
  · intro hE
    have hz : ∀ d, s.ios d = 0 := by
      intro d
      rw [hzero, hE]
      simp
    rw [if_pos ⟨hz _, hz _, hz _, hz _⟩]
  · intro hE
    obtain ⟨i, hi⟩ := List.exists_mem_of_ne_nil E hE
    have hne : ¬ (s.ios .read = 0 ∧ s.ios .write = 0 ∧ s.ios .trim = 0 ∧ s.ios .sync = 0) := by
      rintro ⟨a1, a2, a3, a4⟩
      have : s.ios i.dd = 0 := by cases i.dd <;> assumption
      exact (hzero i.dd).mp this ⟨i, hi, rfl⟩
    have hfiles : s.files ≠ [] := by
      intro he
      have hev : ∀ evs : List Ev, (∀ dd off len delay no, Ev.io dd off len delay no ∉ evs) → byName [] evs = [] := by
        intro evs
        induction evs with
        | nil => intro _; rfl
        | cons e evs ih =>
          intro h
          have ih := ih (fun dd off len delay no hm => h dd off len delay no (by simp [hm]))
          cases e with
          | io dd off len delay no => exact absurd (List.mem_cons_self) (h dd off len delay no)
          | opened k => simpa [byName] using ih
          | closed k => simpa [byName] using ih
      have : got s = [] := by
        unfold got names
        rw [he]
        apply hev
        intro dd off len delay no hm
        have := h2.valid dd off len delay no hm
        rw [he] at this
        simp at this
      rw [h4'] at this
      exact hE this
    rw [if_neg hne, if_neg hfiles]
    have cr := clamp_bounds (n := s.ios .read) (h3.depth .read)
    have cw := clamp_bounds (n := s.ios .write) (h3.depth .write)
    have ct := clamp_bounds (n := s.ios .trim) (h3.depth .trim)
    refine ⟨_, rfl, ?_, ?_, ?_, ?_, ?_, ?_, ?_, ?_⟩
    · rw [iosOf_eq, byName_append, byName_closed, List.append_nil]
      exact h4'
    · exact order_closed _ h2.order
    · intro d
      simp only [Bool.and_eq_true, bne_iff_ne, ne_eq, hzero, Classical.not_not]
      exact And.comm
    · intro i hi
      rw [← h4'] at hi
      exact h3.big i hi
    · intro d
      rw [← h4']
      exact h3.bs d
    · simp only [imax]
      split <;> split <;> split <;> omega
    · simp only [imax]
      split <;> split <;> split <;> omega
    · rintro ⟨i, hi, hd⟩
      have hnz : s.ios i.dd ≠ 0 := fun h => (hzero i.dd).mp h ⟨i, hi, rfl⟩
      simp only [imax]
      cases hdd : i.dd with
      | read =>
        rw [hdd] at hnz
        have := cr.2.2 hnz
        split <;> split <;> split <;> omega
      | write =>
        rw [hdd] at hnz
        have := cw.2.2 hnz
        split <;> split <;> split <;> omega
      | trim =>
        rw [hdd] at hnz
        have := ct.2.2 hnz
        split <;> split <;> split <;> omega
      | sync => exact absurd hdd hd

/-- Records that are all replayed. -/
def All (o : Opts) (l : List Trace) : Prop := ∀ t ∈ l, Queued t ∧ ¬ Forbidden o t ∧ Kept o t

/-- The sum of the first delays. -/
def waited (k : Nat) (l : List Io) : Nat := ((l.take k).map (·.delay)).sum

theorem timing_from {o : Opts} (h100 : o.timeScale = 100) (hns : o.noStall = false) :
    ∀ (l : List Trace) (last : Nat), All o l → last ≠ 0 → (∀ t ∈ l, last ≤ t.time.toNat) →
    l.Pairwise (fun a b => a.time.toNat ≤ b.time.toNat) →
    ∀ (k : Nat) (t : Trace), l[k]? = some t →
      1000 * waited (k + 1) (expected o last l) ≤ t.time.toNat - last ∧
      t.time.toNat - last ≤ 1000 * waited (k + 1) (expected o last l) + 999 * (k + 1)
  | [], _, _, _, _, _, k, t, hk => by simp at hk
  | x :: l, last, ha, h0, hle, hs, k, t, hk => by
    obtain ⟨hq, hfb, hkp⟩ := ha x (by simp)
    have hx := hle x (by simp)
    have hex : expected o last (x :: l) =
        ioOf o last ((deviceOf o x).getD 0) x :: expected o x.time.toNat l := by
      rw [expected, if_pos ⟨hq, hfb⟩, if_pos hkp]
      rfl
    have hd : (ioOf o last ((deviceOf o x).getD 0) x).delay = (x.time.toNat - last) / 1000 := by
      simp only [ioOf, h100, hns, if_true]
      rw [if_neg (by simp [h0]; omega)]
    rw [List.pairwise_cons] at hs
    cases k with
    | zero =>
      cases hk
      rw [hex]
      simp only [waited, List.take_succ_cons, List.take_zero, List.map_cons, List.map_nil, List.sum_cons, List.sum_nil, hd]
      omega
    | succ k =>
      have hk' : l[k]? = some t := by simpa using hk
      have ht := hs.1 t (List.mem_of_getElem? hk')
      obtain ⟨i1, i2⟩ := timing_from h100 hns l x.time.toNat (fun y hy => ha y (by simp [hy])) (by omega)
        (fun y hy => hs.1 y hy) hs.2 k t hk'
      have hw : waited (k + 1 + 1) (expected o last (x :: l)) =
          (x.time.toNat - last) / 1000 + waited (k + 1) (expected o x.time.toNat l) := by
        rw [hex]
        simp only [waited, List.take_succ_cons, List.map_cons, List.sum_cons, hd]
      rw [hw]
      omega

/-- C99: the times of a replay. When nothing is skipped, the times do not go back and the first one is
not 0: the sum of the delays up to an I/O is the time since the first I/O, less than one microsecond
short for each I/O in between.

Not there: traces with skipped records and a first time of 0 (see the witnesses). -/
theorem C99_timing_partial (o : Opts) (h100 : o.timeScale = 100) (hns : o.noStall = false) (x : Trace)
    (l : List Trace) (ha : All o (x :: l)) (h0 : x.time.toNat ≠ 0)
    (hs : (x :: l).Pairwise fun a b => a.time.toNat ≤ b.time.toNat) (k : Nat) (t : Trace)
    (hk : (x :: l)[k]? = some t) :
    1000 * waited (k + 1) (expected o 0 (x :: l)) ≤ t.time.toNat - x.time.toNat ∧
    t.time.toNat - x.time.toNat ≤ 1000 * waited (k + 1) (expected o 0 (x :: l)) + 999 * k := by
  obtain ⟨hq, hfb, hkp⟩ := ha x (by simp)
  have hex : expected o 0 (x :: l) = ioOf o 0 ((deviceOf o x).getD 0) x :: expected o x.time.toNat l := by
    rw [expected, if_pos ⟨hq, hfb⟩, if_pos hkp]
    rfl
  have hd : (ioOf o 0 ((deviceOf o x).getD 0) x).delay = 0 := by simp [ioOf]
  rw [List.pairwise_cons] at hs
  rw [hex]
  cases k with
  | zero =>
    cases hk
    simp [waited, hd]
  | succ k =>
    have hk' : l[k]? = some t := by simpa using hk
    have := timing_from h100 hns l x.time.toNat (fun y hy => ha y (by simp [hy])) h0 hs.1 hs.2 k t hk'
    have hw : waited (k + 1 + 1) (ioOf o 0 ((deviceOf o x).getD 0) x :: expected o x.time.toNat l) =
        waited (k + 1) (expected o x.time.toNat l) := by
      simp only [waited, List.take_succ_cons, List.map_cons, List.sum_cons, hd]
      omega
    rw [hw]
    exact this

/-! ### Cases -/

/-- A record of the cases. -/
def mk (time action sector bytes dev : Nat) (pdu : List Byte) (magic : Nat := 0x65617407)
    (h : pdu.length < 65536 := by decide) : Rec where
  t := { magic := BitVec.ofNat 32 magic, sequence := 1#32, time := BitVec.ofNat 64 time
         sector := BitVec.ofNat 64 sector, bytes := BitVec.ofNat 32 bytes
         action := BitVec.ofNat 32 action, pid := 7#32, device := BitVec.ofNat 32 dev
         cpu := 3#32, error := 0#16, pduLen := BitVec.ofNat 16 pdu.length }
  pdu := pdu
  ok := by simp [Nat.mod_eq_of_lt h]

/-- Actions of the cases: queueing a read, a write, a discard, a flush, and a completed read. -/
def qR : Nat := 0x10001
/-- Queueing a write. -/
def qW : Nat := 0x20001
/-- Queueing a discard. -/
def qD : Nat := 0x20020001
/-- Queueing a flush. -/
def qF : Nat := 0x60001
/-- Completion of a read. -/
def cR : Nat := 0x10008

/-- Options of the cases: two devices are known. -/
def opts : Opts where
  align := 4096
  scale := 2
  skip := fun _ => false
  noStall := false
  timeScale := 100
  readOnly := false
  lookup := fun maj min => if maj = 8 then some (100 + min) else none
  stretch := id

/-- A trace of two devices with all kinds of records. -/
def egTrace : List Rec :=
  [mk 5000 qR 80 4096 0x800000 [1#8, 2#8], mk 6000 qR 96 512 0x800001 [],
   mk 9000 cR 80 4096 0x800000 [], mk 12500 qW 16 8192 0x800000 [], mk 13000 qF 0 0 0x800000 [],
   mk 20000 qD 2048 65536 0x800001 [3#8]]

/-- What a replay has. -/
def ioList (r : Option Res) : List Io :=
  match r with
  | some (.ready j) => iosOf j.files j.evs
  | _ => []

/-- The depth of a replay. -/
def depthOf (r : Option Res) : Option Int :=
  match r with
  | some (.ready j) => some j.iodepth
  | _ => none

theorem egTrace_fits : Fits opts egTrace := by
  refine ⟨.inr ⟨12, by decide, rfl⟩, ?_, ?_, ?_, ?_⟩ <;>
  · intro r hr
    simp only [egTrace, List.mem_cons, List.not_mem_nil, or_false] at hr
    rcases hr with rfl | rfl | rfl | rfl | rfl | rfl <;> decide

/-- C99: the trace meets the hypotheses, in the other byte order too, and is replayed. -/
theorem C99_case : egTrace ≠ [] ∧ Fits opts egTrace ∧
    ioList (replay opts (fileBytes true egTrace)) =
      [⟨.read, 20480, 4096, 0, 100⟩, ⟨.read, 24576, 4096, 1, 101⟩, ⟨.write, 4096, 8192, 6, 100⟩,
       ⟨.sync, 0, 0, 0, 100⟩, ⟨.trim, 524288, 65536, 7, 101⟩] ∧
    depthOf (replay opts (fileBytes true egTrace)) = some 2 ∧
    All opts ((egTrace.filter fun r => decide (Queued r.t)).map (·.t)) := by
  refine ⟨by simp [egTrace], egTrace_fits, by decide +kernel, by decide +kernel, ?_⟩
  intro t ht
  obtain ⟨r, hr, rfl⟩ := List.mem_map.mp ht
  have := (List.mem_filter.mp hr).1
  have hq := (List.mem_filter.mp hr).2
  clear hr
  revert hq
  simp only [egTrace, List.mem_cons, List.not_mem_nil, or_false] at this
  rcases this with rfl | rfl | rfl | rfl | rfl | rfl <;> decide

/-- C99: a skipped record takes the time up to it with it: with writes skipped, reads a second apart
are replayed half a second apart. -/
theorem C99_skip_counterexample :
    (ioList (replay { opts with skip := fun d => d == .write } (fileBytes false
      [mk 1000000 qR 0 4096 0x800000 [], mk 501000000 qW 0 4096 0x800000 [],
       mk 1001000000 qR 8 4096 0x800000 []]))).map (·.delay) = [0, 500000] := by
  decide +kernel

/-- C99: and a first time of 0 is taken for no time: the first delay is lost. -/
theorem C99_first_counterexample :
    (ioList (replay opts (fileBytes false
      [mk 0 qR 0 4096 0x800000 [], mk 500000000 qR 8 4096 0x800000 []]))).map (·.delay) = [0, 0] := by
  decide +kernel

/-- C99: I/O of a device that is not found is done to the device before: the cache has its number
already when the lookup fails (blktrace.c:108-109, 139). -/
theorem C99_device_counterexample :
    ioList (replay opts (fileBytes false
      [mk 1000 qR 0 4096 0x800000 [], mk 2000 qW 16 4096 0x900000 []])) =
      [⟨.read, 0, 4096, 0, 100⟩, ⟨.write, 4096, 4096, 1, 100⟩] ∧
    opts.lookup 9 0 = none := by
  decide +kernel

/-- Whether it is undefined. -/
def undefd (r : Option Res) : Bool := r.isNone

/-- C99: a record with another magic, or another version, behind a good one: the file is closed
twice. -/
theorem C99_close_counterexample :
    undefd (replay opts (fileBytes false
      [mk 1000 qR 0 4096 0x800000 [], mk 2000 qR 16 4096 0x800000 [] (magic := 0x12345678)])) = true ∧
    undefd (replay opts (fileBytes false
      [mk 1000 qR 0 4096 0x800000 [], mk 2000 qR 16 4096 0x800000 [] (magic := 0x65617408)])) = true ∧
    undefd (replay opts (fileBytes false [mk 1000 qR 0 4096 0x800000 [] (magic := 0x65617408)])) = true := by
  decide +kernel

/-- C99: a trace of flushes only has depth 0. -/
theorem C99_flush_counterexample :
    depthOf (replay opts (fileBytes false [mk 1000 qF 0 0 0x800000 []])) = some 0 := by
  decide +kernel

/-- C99: a length that the alignment lifts over 32 bits is none: the I/O is dropped. -/
theorem C99_long_counterexample :
    ioList (replay opts (fileBytes false
      [mk 1000 qR 0 0xfffff200 0x800000 [], mk 2000 qR 16 4096 0x800000 []])) =
      [⟨.read, 4096, 4096, 1, 100⟩] := by
  decide +kernel

end Fio.Blkreplay
