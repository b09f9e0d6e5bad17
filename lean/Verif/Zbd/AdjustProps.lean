import Verif.Zbd.Adjust
import Mathlib.Tactic.Linarith
/-
C36: I/O accepted by zonemode=zbd obeys the rules of the zones.
-/
namespace Fio.Zbd

/-! ### Specification -/

/-- A device as zbd_init_zone_info and zbd_setup_files leave it and as a run keeps it: equally large
zones, the sentinel behind them, write pointers inside, and the job's range consisting of whole
zones (zbd_zone_align_file_sizes). -/
structure Geo (c : Cfg) (d : Dev) : Prop where
  size : 0 < c.zoneSize
  log2 : c.log2 = 0 ∨ c.zoneSize = 2 ^ c.log2
  len : d.zones.length = c.nrZones + 1
  nr : c.nrZones < 2 ^ 32
  start : ∀ (i : Nat) (z : Zone), d.zones[i]? = some z → z.start = i * c.zoneSize
  wp : ∀ (i : Nat) (z : Zone), d.zones[i]? = some z → i < c.nrZones →
    z.cap ≤ c.zoneSize ∧ z.start ≤ z.wp ∧ z.wp ≤ z.start + c.zoneSize
  fileEnd : c.fileOff + c.ioSize < 2 ^ 64
  maxZone : c.maxZone * c.zoneSize = c.fileOff + c.ioSize
  maxNr : c.maxZone ≤ c.nrZones
  minZone : c.minZone * c.zoneSize ≤ c.fileOff

/-- A zone a job may write to: in its range, sequential, not offline (asserted at the end of
zbd_convert_to_write_zone, zbd.c:1773-1774). -/
def GoodConv (c : Cfg) (d : Dev) (conv : List (Option Nat)) : Prop :=
  ∀ zi : Nat, some zi ∈ conv → c.minZone ≤ zi ∧ zi < c.maxZone ∧
    ∃ z, d.zones[zi]? = some z ∧ z.hasWp = true ∧ z.offline = false

/-! ### Offsets and zones -/

theorem validOff_iff {c : Cfg} (h : c.fileOff + c.ioSize < 2 ^ 64) {off : Nat} (ho : off < 2 ^ 64) :
    validOff c off = true ↔ c.fileOff ≤ off ∧ off < c.fileOff + c.ioSize := by
  unfold validOff
  rw [decide_eq_true_eq]
  omega

theorem zoneIdx_eq {c : Cfg} {d : Dev} (hg : Geo c d) {off : Nat} (ho : off < c.nrZones * c.zoneSize) :
    zoneIdx c off = off / c.zoneSize := by
  have hlt : off / c.zoneSize < c.nrZones := by
    rw [Nat.div_lt_iff_lt_mul hg.size]; exact ho
  have hnr := hg.nr
  have he : (if c.log2 > 0 then off >>> c.log2 else off / c.zoneSize) = off / c.zoneSize := by
    split
    · next h =>
      rcases hg.log2 with h0 | h0
      · omega
      · rw [Nat.shiftRight_eq_div_pow, h0]
    · rfl
  unfold zoneIdx
  rw [he, Nat.mod_eq_of_lt (by omega)]
  exact Nat.min_eq_left (by omega)

/-- **C36**, an offset in the file is in the zone that zbd_offset_to_zone finds, and this zone is in
the range of the job. -/
theorem C36_zone {c : Cfg} {d : Dev} (hg : Geo c d) {off : Nat} (h1 : c.fileOff ≤ off)
    (h2 : off < c.fileOff + c.ioSize) :
    ∃ z, d.zones[zoneIdx c off]? = some z ∧ z.start ≤ off ∧ off < z.start + c.zoneSize ∧
      c.minZone ≤ zoneIdx c off ∧ zoneIdx c off < c.maxZone := by
  have hm : c.maxZone * c.zoneSize ≤ c.nrZones * c.zoneSize := Nat.mul_le_mul_right _ hg.maxNr
  have hmz := hg.maxZone
  have ho : off < c.nrZones * c.zoneSize := by omega
  have hlt : off / c.zoneSize < c.maxZone := by
    rw [Nat.div_lt_iff_lt_mul hg.size]; omega
  have hge : c.minZone ≤ off / c.zoneSize := by
    rw [Nat.le_div_iff_mul_le hg.size]; have := hg.minZone; omega
  rw [zoneIdx_eq hg ho]
  have hlen : off / c.zoneSize < d.zones.length := by have := hg.len; have := hg.maxNr; omega
  refine ⟨d.zones[off / c.zoneSize], List.getElem?_eq_getElem hlen, ?_, ?_, hge, hlt⟩
  · rw [hg.start _ _ (List.getElem?_eq_getElem hlen)]
    exact Nat.div_mul_le_self _ _
  · rw [hg.start _ _ (List.getElem?_eq_getElem hlen)]
    have := Nat.lt_div_mul_add hg.size (a := off)
    omega

/-! ### zbd_find_zone -/

/-- A zone with at least `n` bytes of data that is not offline. -/
def HasData (d : Dev) (i n : Nat) : Prop :=
  ∃ z, d.zones[i]? = some z ∧ z.offline = false ∧ z.start + n ≤ z.wp

theorem findZoneFrom_sound {c : Cfg} {d : Dev} {zb zl n : Nat} : ∀ fuel k zi,
    findZoneFrom c d zb zl n fuel k = some (some zi) →
    HasData d zi n ∧ (zb < zi ∧ zi < zl ∨ c.minZone ≤ zi ∧ zi < zb)
  | 0, k, zi, h => by cases h
  | fuel + 1, k, zi, h => by
    unfold findZoneFrom at h
    simp only at h
    split at h
    · cases h
    have second : ∀ (b : Bool), b = decide (c.minZone + 1 + k ≤ zb) →
        (if c.random = true ∧ b = true then
          match d.zones[zb - 1 - k]? with
          | none => none
          | some z => if (!z.offline) = true ∧ z.start + n ≤ z.wp then some (some (zb - 1 - k))
            else findZoneFrom c d zb zl n fuel (k + 1)
        else findZoneFrom c d zb zl n fuel (k + 1)) = some (some zi) →
        HasData d zi n ∧ (zb < zi ∧ zi < zl ∨ c.minZone ≤ zi ∧ zi < zb) := by
      intro b hb h
      split at h
      · next hc =>
        split at h
        · cases h
        next z hz =>
        split at h
        · next hd =>
          simp only [Option.some.injEq] at h
          subst h
          rw [hb, decide_eq_true_eq] at hc
          exact ⟨⟨z, hz, by simpa using hd.1, hd.2⟩, Or.inr ⟨by omega, by omega⟩⟩
        · exact findZoneFrom_sound fuel (k + 1) zi h
      · exact findZoneFrom_sound fuel (k + 1) zi h
    split at h
    · next hlt =>
      split at h
      · cases h
      next z hz =>
      split at h
      · next ho =>
        split at h
        · next hd =>
          simp only [Option.some.injEq] at h
          subst h
          exact ⟨⟨z, hz, by simpa using ho, hd⟩, Or.inl ⟨by omega, hlt⟩⟩
        · exact second _ rfl h
      · split at h
        · cases h
        · exact second _ rfl h
    · split at h
      · cases h
      · exact second _ rfl h

theorem findZoneFrom_defined {c : Cfg} {d : Dev} {zb zl n : Nat} (hzl : zl ≤ d.zones.length)
    (hzb : zb ≤ d.zones.length) : ∀ fuel k, findZoneFrom c d zb zl n fuel k ≠ none
  | 0, k => by simp [findZoneFrom]
  | fuel + 1, k => by
    unfold findZoneFrom
    simp only
    split
    · simp
    have ih := findZoneFrom_defined hzl hzb (c := c) (n := n) fuel (k + 1)
    have second : ∀ (b : Bool), b = decide (c.minZone + 1 + k ≤ zb) →
        (if c.random = true ∧ b = true then
          match d.zones[zb - 1 - k]? with
          | none => none
          | some z => if (!z.offline) = true ∧ z.start + n ≤ z.wp then some (some (zb - 1 - k))
            else findZoneFrom c d zb zl n fuel (k + 1)
        else findZoneFrom c d zb zl n fuel (k + 1)) ≠ none := by
      intro b hb
      split
      · next hc =>
        rw [hb, decide_eq_true_eq] at hc
        have : zb - 1 - k < d.zones.length := by omega
        rw [List.getElem?_eq_getElem this]
        simp only
        split
        · simp
        · exact ih
      · exact ih
    split
    · next hlt =>
      have : zb + 1 + k < d.zones.length := by omega
      rw [List.getElem?_eq_getElem this]
      simp only
      split
      · split
        · simp
        · exact second _ rfl
      · split
        · simp
        · exact second _ rfl
    · split
      · simp
      · exact second _ rfl

/-- **C36**, the search for a zone with data: what it finds is in the range of the job, is not
offline and has the data asked for. -/
theorem C36_find {c : Cfg} {d : Dev} {zb zl n zi : Nat}
    (h : findZone c d zb zl n = some (some zi)) :
    HasData d zi n ∧ (zb < zi ∧ zi < zl ∨ c.minZone ≤ zi ∧ zi < zb) :=
  findZoneFrom_sound _ _ _ h

theorem findZoneFrom_complete {c : Cfg} {d : Dev} {zb zl n : Nat} (hr : c.random = true) : ∀ fuel k,
    zb + zl ≤ fuel + k → findZoneFrom c d zb zl n fuel k = some none →
    (∀ zi, zb + 1 + k ≤ zi → zi < zl → ¬HasData d zi n) ∧
    (∀ zi, c.minZone ≤ zi → zi + 1 + k ≤ zb → ¬HasData d zi n)
  | 0, k, hf, h => ⟨fun zi h1 h2 => by omega, fun zi h1 h2 => by omega⟩
  | fuel + 1, k, hf, h => by
    unfold findZoneFrom at h
    simp only at h
    split at h
    · next hn =>
      simp only [decide_eq_true_eq, not_or] at hn
      exact ⟨fun zi h1 h2 => by omega, fun zi h1 h2 => by omega⟩
    have ih := findZoneFrom_complete (d := d) (zb := zb) (zl := zl) (n := n) hr fuel (k + 1) (by omega)
    have second : ∀ (b : Bool), b = decide (c.minZone + 1 + k ≤ zb) →
        (if c.random = true ∧ b = true then
          match d.zones[zb - 1 - k]? with
          | none => none
          | some z => if (!z.offline) = true ∧ z.start + n ≤ z.wp then some (some (zb - 1 - k))
            else findZoneFrom c d zb zl n fuel (k + 1)
        else findZoneFrom c d zb zl n fuel (k + 1)) = some none →
        findZoneFrom c d zb zl n fuel (k + 1) = some none ∧
        (c.minZone + 1 + k ≤ zb → ¬HasData d (zb - 1 - k) n) := by
      intro b hb h
      split at h
      · split at h
        · cases h
        next z hz =>
        split at h
        · cases h
        · next hnd =>
          refine ⟨h, ?_⟩
          rintro _ ⟨z', hz', ho, hw⟩
          rw [hz] at hz'; cases hz'
          exact hnd ⟨by simp [ho], hw⟩
      · next hc =>
        refine ⟨h, fun hk => ?_⟩
        exact absurd ⟨hr, by rw [hb, decide_eq_true_eq]; exact hk⟩ hc
    have fin : (zb + 1 + k < zl → ¬HasData d (zb + 1 + k) n) →
        (findZoneFrom c d zb zl n fuel (k + 1) = some none ∧
        (c.minZone + 1 + k ≤ zb → ¬HasData d (zb - 1 - k) n)) →
        (∀ zi, zb + 1 + k ≤ zi → zi < zl → ¬HasData d zi n) ∧
        (∀ zi, c.minZone ≤ zi → zi + 1 + k ≤ zb → ¬HasData d zi n) := by
      rintro hup ⟨hrec, hdown⟩
      obtain ⟨i1, i2⟩ := ih hrec
      constructor
      · intro zi h1 h2
        rcases Nat.eq_or_lt_of_le h1 with h3 | h3
        · subst h3; exact hup h2
        · exact i1 zi (by omega) h2
      · intro zi h1 h2
        by_cases h3 : zi = zb - 1 - k
        · subst h3; exact hdown (by omega)
        · exact i2 zi h1 (by omega)
    split at h
    · next hlt =>
      split at h
      · cases h
      next z hz =>
      split at h
      · split at h
        · cases h
        · next hnd =>
          refine fin ?_ (second _ rfl h)
          rintro _ ⟨z', hz', ho, hw⟩
          rw [hz] at hz'; cases hz'
          exact hnd hw
      · next hoff =>
        split at h
        · next hc => simp [hr] at hc
        refine fin ?_ (second _ rfl h)
        rintro _ ⟨z', hz', ho, hw⟩
        rw [hz] at hz'; cases hz'
        rw [ho] at hoff; simp at hoff
    · next hge =>
      split at h
      · next hc => simp [hr] at hc
      exact fin (fun hlt => absurd hlt hge) (second _ rfl h)

/-- **C36**, a random job is told that there is no zone with data only if there is none in its
range besides the one it asked for. -/
theorem C36_find_complete {c : Cfg} {d : Dev} {zb zl n : Nat} (hr : c.random = true)
    (h : findZone c d zb zl n = some none) (zi : Nat) (h1 : c.minZone ≤ zi) (h2 : zi < zl)
    (h3 : zi ≠ zb) : ¬HasData d zi n := by
  obtain ⟨a, b⟩ := findZoneFrom_complete hr _ 0 (by omega) h
  rcases Nat.lt_or_gt_of_ne h3 with h4 | h4
  · exact b zi h1 (by omega)
  · exact a zi (by omega) h2

/-! ### Writes -/

theorem remainder_le {z : Zone} : z.wp + z.remainder ≤ z.capEnd ∨ z.remainder = 0 := by
  unfold Zone.remainder; split
  · exact Or.inr rfl
  · left; omega

theorem accept_eq {off len zi : Nat} {d : Dev} {a : Act} (h : accept off len zi d = some a) :
    a = .accept off len (some zi) d ∧ ∃ z, d.zones[zi]? = some z ∧ z.hasWp = true ∧ z.offline = false := by
  unfold accept at h
  split at h
  · cases h
  next z hz =>
  split at h
  · next hc => cases h; exact ⟨rfl, z, hz, hc.1, by simpa using hc.2⟩
  · cases h

/-- What C36 says about a write of zone `zi` on device `d`. -/
structure WriteOk (c : Cfg) (j : Job) (d : Dev) (zi off len : Nat) (z : Zone) : Prop where
  zone : d.zones[zi]? = some z
  seq : z.hasWp = true
  online : z.offline = false
  /-- at the write pointer -/
  atWp : off = z.wp
  pos : 0 < len
  /-- inside the capacity of the zone -/
  inCap : off + len ≤ z.start + z.cap
  /-- whole blocks, or the rest of the zone if write_zone_remainder allows it -/
  blocks : c.minBs ∣ len ∨ (j.wzr = true ∧ off + len = z.start + z.cap)

theorem remainder_eq {z : Zone} (h : z.wp < z.capEnd) : z.remainder = z.capEnd - z.wp := by
  unfold Zone.remainder; rw [if_neg (by omega)]

theorem remainder_pos {z : Zone} (h : 0 < z.remainder) : z.wp < z.capEnd := by
  unfold Zone.remainder at h; split at h <;> omega

theorem rounded_pos {n b : Nat} (hb : 0 < b) (h : b ≤ n) : 0 < n / b * b ∧ b ≤ n / b * b := by
  have : 1 ≤ n / b := (Nat.one_le_div_iff hb).mpr h
  have := Nat.mul_le_mul_right b this
  omega

theorem writeIn_ok {c : Cfg} {j : Job} {d : Dev} {len zi off' len' : Nat} {zo : Option Nat} {d' : Dev}
    (hb : 0 < c.minBs) (hlen : c.minBs ≤ len)
    (h : adjustWriteIn c j d len zi = some (.accept off' len' zo d')) :
    d' = d ∧ zo = some zi ∧ len' ≤ len ∧ validOff c off' = true ∧
      ∃ z, WriteOk c j d zi off' len' z := by
  unfold adjustWriteIn at h
  split at h
  · cases h
  next z hz =>
  split at h
  · cases h
  · cases h
  next hfull =>
  simp only at h
  split at h
  · cases h
  next hv =>
  simp only [Bool.not_eq_true', Bool.not_eq_false] at hv
  -- the length after rounding
  generalize hnl : (if (j.wzr = true ∧ Nat.min len (z.capEnd - z.wp) > c.minBs) ∨ (!j.wzr) = true
    then Nat.min len (z.capEnd - z.wp) / c.minBs * c.minBs
    else Nat.min len (z.capEnd - z.wp)) = nl at h
  have key : ∀ (hwp : z.hasWp = true), 0 < nl ∧ z.wp + nl ≤ z.capEnd ∧ nl ≤ len ∧
      (c.minBs ∣ nl ∨ (j.wzr = true ∧ z.wp + nl = z.capEnd)) := by
    intro hwp
    have hmin1 : Nat.min len (z.capEnd - z.wp) ≤ len := Nat.min_le_left _ _
    have hmin2 : Nat.min len (z.capEnd - z.wp) ≤ z.capEnd - z.wp := Nat.min_le_right _ _
    have hmin3 : Nat.min len (z.capEnd - z.wp) = len ∨
        Nat.min len (z.capEnd - z.wp) = z.capEnd - z.wp := by
      rcases Nat.le_total len (z.capEnd - z.wp) with h | h
      · exact Or.inl (Nat.min_eq_left h)
      · exact Or.inr (Nat.min_eq_right h)
    generalize Nat.min len (z.capEnd - z.wp) = m at *
    have hdiv := Nat.div_mul_le_self m c.minBs
    unfold Zone.full at hfull
    simp only [hwp, Bool.not_true, Bool.false_eq_true, if_false] at hfull
    by_cases hwz : j.wzr = true
    · simp only [hwz, if_true, Option.some.injEq, beq_eq_false_iff_ne] at hfull
      have hlt := remainder_pos (Nat.pos_of_ne_zero hfull)
      simp only [hwz, true_and, Bool.not_true, Bool.false_eq_true, or_false] at hnl
      split at hnl
      · next hgt =>
        have := rounded_pos hb (Nat.le_of_lt hgt)
        subst hnl
        exact ⟨this.1, by omega, by omega, Or.inl (Nat.dvd_mul_left _ _)⟩
      · next hgt =>
        subst hnl
        refine ⟨by omega, by omega, by omega, ?_⟩
        rcases hmin3 with h3 | h3
        · left; rw [show m = c.minBs by omega]
        · right; exact ⟨hwz, by omega⟩
    · simp only [hwz, Bool.false_eq_true, if_false] at hfull
      split at hfull
      · simp only [Option.some.injEq, decide_eq_false_iff_not, Nat.not_lt] at hfull
        have hlt := remainder_pos (Nat.lt_of_lt_of_le hb hfull)
        rw [remainder_eq hlt] at hfull
        rw [if_pos (Or.inr (by simpa using hwz))] at hnl
        have := rounded_pos hb (show c.minBs ≤ m by omega)
        subst hnl
        exact ⟨this.1, by omega, by omega, Or.inl (Nat.dvd_mul_left _ _)⟩
      · cases hfull
  have main : ∀ l, accept z.wp l zi d = some (.accept off' len' zo d') → l = nl →
      d' = d ∧ zo = some zi ∧ len' ≤ len ∧ validOff c off' = true ∧
      ∃ z, WriteOk c j d zi off' len' z := by
    intro l ha hl
    obtain ⟨he, z', hz', hwp, hoff⟩ := accept_eq ha
    rw [hz] at hz'; cases hz'
    simp only [Act.accept.injEq] at he
    obtain ⟨rfl, rfl, rfl, rfl⟩ := he
    subst hl
    obtain ⟨k1, k2, k3, k4⟩ := key hwp
    exact ⟨rfl, rfl, k3, hv, z, hz, hwp, hoff, rfl, k1, k2, k4⟩
  split at h
  · next he => exact main _ h he.symm
  split at h
  · exact main _ h rfl
  · cases h

theorem Geo.set {c : Cfg} {d d' : Dev} {i : Nat} {z z' : Zone} (hg : Geo c d)
    (hz : d.zones[i]? = some z) (hd : d'.zones = d.zones.set i z') (hs : z'.start = z.start)
    (hc : z'.cap = z.cap) (hw : i < c.nrZones → z'.start ≤ z'.wp ∧ z'.wp ≤ z'.start + c.zoneSize) :
    Geo c d' := by
  have hget : ∀ k t, d'.zones[k]? = some t → (k = i ∧ t = z') ∨ d.zones[k]? = some t := by
    intro k t ht
    rw [hd, List.getElem?_set] at ht
    split at ht
    · next h =>
      split at ht
      · cases ht; exact Or.inl ⟨h.symm, rfl⟩
      · cases ht
    · exact Or.inr ht
  refine { hg with len := by rw [hd, List.length_set]; exact hg.len, start := ?_, wp := ?_ }
  · intro k t ht
    rcases hget k t ht with ⟨rfl, rfl⟩ | h
    · rw [hs]; exact hg.start _ _ hz
    · exact hg.start _ _ h
  · intro k t ht hk
    rcases hget k t ht with ⟨rfl, rfl⟩ | h
    · exact ⟨by rw [hc]; exact (hg.wp _ _ hz hk).1, hw hk⟩
    · exact hg.wp _ _ h hk

theorem resetWp_geo {c : Cfg} {j : Job} {d d' : Dev} {i : Nat} (hg : Geo c d)
    (h : resetWp j d i = some d') : Geo c d' := by
  unfold resetWp at h
  split at h
  · cases h
  next z hz =>
  split at h
  · cases h; exact hg
  · cases h; exact hg.set hz rfl rfl rfl (fun _ => ⟨Nat.le_refl _, Nat.le_add_right _ _⟩)

theorem writeZone_mem {c : Cfg} {j : Job} {d : Dev} {zi : Nat} : ∀ {conv : List (Option Nat)},
    writeZone c j d conv = some (some zi) → some zi ∈ conv
  | [], h => by cases h
  | none :: _, h => by cases h
  | some k :: rest, h => by
    unfold writeZone at h
    split at h
    · cases h
    split at h
    · exact List.mem_cons_of_mem _ (writeZone_mem h)
    · simp only [Option.some.injEq] at h
      subst h; simp

/-- **C36** for writes to sequential zones: an accepted write starts at the write pointer of a
sequential zone that is not offline, lies inside the zone's capacity and inside the job's range, is
not empty, not longer than asked for, and consists of whole blocks unless it fills up the zone and
write_zone_remainder is set.  `d'` is the device after a possible reset of the zone. -/
theorem C36_write {c : Cfg} {j : Job} {d d' : Dev} {e : WEnv} {off len off' len' : Nat}
    {zo : Option Nat} {zb : Zone} (hg : Geo c d) (hconv : GoodConv c d e.conv)
    (hlen : c.minBs ≤ len)
    (hzb : d.zones[zoneIdx c off]? = some zb) (hseq : zb.hasWp = true)
    (h : adjust c j d e .write off len = some (.accept off' len' zo d')) :
    ∃ zi z, zo = some zi ∧ WriteOk c j d' zi off' len' z ∧ len' ≤ len ∧
      c.fileOff ≤ off' ∧ off' + len' ≤ c.fileOff + c.ioSize := by
  unfold adjust at h
  split at h
  · cases h
  next hpre =>
  simp only [not_or] at hpre
  simp only [hzb, hseq, Bool.not_true, Bool.false_eq_true, if_false, reduceCtorEq, false_and, and_false] at h
  have hb : 0 < c.minBs := Nat.pos_of_ne_zero hpre.1
  unfold adjustWrite at h
  split at h
  · cases h
  split at h
  · cases h
  · cases h
  next zi hwz =>
  obtain ⟨hz1, hz2, z, hz, hzs, hzo⟩ := hconv zi (writeZone_mem hwz)
  have fin : ∀ d1, Geo c d1 → adjustWriteIn c j d1 len zi = some (.accept off' len' zo d') →
      ∃ zi z, zo = some zi ∧ WriteOk c j d' zi off' len' z ∧ len' ≤ len ∧
      c.fileOff ≤ off' ∧ off' + len' ≤ c.fileOff + c.ioSize := by
    intro d1 hg1 hw
    obtain ⟨rfl, rfl, h1, h2, z1, hok⟩ := writeIn_ok hb hlen hw
    have hzn : zi < c.nrZones := Nat.lt_of_lt_of_le hz2 hg1.maxNr
    have hwp := hg1.wp _ _ hok.zone hzn
    have hst := hg1.start _ _ hok.zone
    have hmz := hg1.maxZone
    have hsucc : (zi + 1) * c.zoneSize ≤ c.maxZone * c.zoneSize := Nat.mul_le_mul_right _ (by omega)
    rw [Nat.add_mul, Nat.one_mul] at hsucc
    have hfe := hg1.fileEnd
    have hin := hok.inCap
    have hlt : off' < 2 ^ 64 := by omega
    rw [validOff_iff hg1.fileEnd hlt] at h2
    exact ⟨zi, z1, rfl, hok, h1, h2.1, by omega⟩
  rw [hz] at h
  simp only at h
  split at h
  · cases h
  next reset hreset =>
  split at h
  · split at h
    · cases h
    split at h
    · cases h
    split at h
    · cases h
    next d1 hr =>
    split at h
    · cases h
    · exact fin d1 (resetWp_geo hg hr) h
  · exact fin d hg h

/-- The zone after resetWp. -/
theorem resetWp_zone {j : Job} {d d1 : Dev} {i : Nat} {z : Zone} (hz : d.zones[i]? = some z)
    (hw : z.start ≤ z.wp) (h : resetWp j d i = some d1) :
    d1.zones[i]? = some { z with wp := z.start } := by
  unfold resetWp at h
  rw [hz] at h
  simp only at h
  split at h
  · cases h
    rw [hz]
    have h0 : z.wp = z.start := by omega
    cases z
    simp only at h0
    simp [h0]
  · cases h
    have : i < d.zones.length := by
      rw [List.getElem?_eq_some_iff] at hz; exact hz.1
    simp [this]

/-- Writing in a zone that is not full succeeds: the error "zone remainder too small"
(zbd.c:2324-2328) and the assertions are not reached. -/
theorem writeIn_total {c : Cfg} {j : Job} {d : Dev} {len zi : Nat} {z : Zone} (hb : 0 < c.minBs)
    (hlen : c.minBs ≤ len) (hz : d.zones[zi]? = some z) (hs : z.hasWp = true)
    (ho : z.offline = false) (hfull : z.full j c.minBs = some false) :
    ∃ len', adjustWriteIn c j d len zi =
      some (if validOff c z.wp then .accept z.wp len' (some zi) d else .eof) := by
  have hacc : ∀ l, accept z.wp l zi d = some (.accept z.wp l (some zi) d) := by
    intro l
    unfold accept
    rw [hz]
    simp [hs, ho]
  unfold adjustWriteIn
  rw [hz]
  simp only [hfull]
  by_cases hv : validOff c z.wp = true
  · simp only [hv, Bool.not_true, Bool.false_eq_true, if_false, if_true]
    generalize hnl : (if (j.wzr = true ∧ Nat.min len (z.capEnd - z.wp) > c.minBs) ∨ (!j.wzr) = true
      then Nat.min len (z.capEnd - z.wp) / c.minBs * c.minBs
      else Nat.min len (z.capEnd - z.wp)) = nl
    split
    · exact ⟨_, hacc _⟩
    split
    · exact ⟨_, hacc _⟩
    · next hno =>
      exfalso
      simp only [not_or, Nat.not_le] at hno
      unfold Zone.full at hfull
      simp only [hs, hno.1, Bool.not_true, Bool.false_eq_true, if_false] at hfull
      split at hfull
      · simp only [Option.some.injEq, decide_eq_false_iff_not, Nat.not_lt] at hfull
        have hlt := remainder_pos (Nat.lt_of_lt_of_le hb hfull)
        rw [remainder_eq hlt] at hfull
        rw [if_pos (Or.inr (by simpa using hno.1))] at hnl
        have := rounded_pos hb (show c.minBs ≤ Nat.min len (z.capEnd - z.wp) from
          Nat.le_min.mpr ⟨hlen, hfull⟩)
        omega
      · cases hfull
  · simp [hv]

/-- **C36**, a write to a sequential zone does not run into an assertion: given a block size of whole
sectors and that zbd_convert_to_write_zone comes up with a usable zone in the end. -/
theorem C36_write_defined {c : Cfg} {j : Job} {d : Dev} {e : WEnv} {off len : Nat} {zb : Zone}
    (hg : Geo c d) (hconv : GoodConv c d e.conv) (hend : writeZone c j d e.conv ≠ none)
    (hlen : c.minBs ≤ len) (hb : 0 < c.minBs) (hs : c.minBs % 512 = 0)
    (hv : validOff c off = true)
    (hzb : d.zones[zoneIdx c off]? = some zb) (hseq : zb.hasWp = true) :
    adjust c j d e .write off len ≠ none := by
  unfold adjust
  rw [if_neg (by simp [hv]; omega)]
  simp only [hzb, hseq, Bool.not_true, Bool.false_eq_true, if_false, reduceCtorEq, false_and, and_false]
  unfold adjustWrite
  split
  · simp
  split
  · next h => exact absurd h hend
  · simp
  next zi hwz =>
  obtain ⟨hz1, hz2, z, hz, hzs, hzo⟩ := hconv zi (writeZone_mem hwz)
  have hfull : ∀ t : Zone, ∃ b, t.full j c.minBs = some b := by
    intro t
    unfold Zone.full
    repeat' split
    all_goals exact ⟨_, rfl⟩
  rw [hz]
  simp only
  have hwp := hg.wp _ _ hz (Nat.lt_of_lt_of_le hz2 hg.maxNr)
  have tot : ∀ d1 t, d1.zones[zi]? = some t → t.hasWp = true → t.offline = false →
      t.full j c.minBs = some false → adjustWriteIn c j d1 len zi ≠ none := by
    intro d1 t ht h1 h2 h3
    obtain ⟨l, hl⟩ := writeIn_total hb hlen ht h1 h2 h3
    rw [hl]; simp
  split
  · next h =>
    split at h
    · cases h
    · obtain ⟨b, hb⟩ := hfull z
      rw [hb] at h; cases h
  next reset hreset =>
  split
  · split
    · simp
    split
    · simp
    split
    · next h =>
      unfold resetWp at h
      rw [hz] at h
      simp only at h
      split at h <;> cases h
    next d1 hr =>
    split
    · simp
    · next hcap =>
      refine tot d1 _ (resetWp_zone hz hwp.2.1 hr) hzs hzo ?_
      have : Zone.remainder { z with wp := z.start } = z.cap := by
        rw [remainder_eq (by simp only [Zone.capEnd]; omega)]
        simp only [Zone.capEnd]; omega
      unfold Zone.full
      rw [this]
      simp only [hzs, Bool.not_true, Bool.false_eq_true, if_false, hs, if_true]
      split
      · simp only [Option.some.injEq, beq_eq_false_iff_ne]; omega
      · simp only [Option.some.injEq, decide_eq_false_iff_not]; omega
  · next hnr =>
    refine tot d z hz hzs hzo ?_
    split at hreset
    · cases hreset; simp at hnr
    · cases reset
      · exact hreset
      · simp at hnr

/-! ### Reads -/

/-- What C36 says about a read of a sequential zone. -/
structure ReadOk (c : Cfg) (d : Dev) (zi off len : Nat) (z : Zone) : Prop where
  zone : d.zones[zi]? = some z
  seq : z.hasWp = true
  online : z.offline = false
  ge : z.start ≤ off
  pos : 0 < len
  /-- only data that was written -/
  le : off + len ≤ z.wp
  blocks : c.minBs ∣ len

theorem readIn_spec {c : Cfg} {d : Dev} {off len zi orig : Nat} {z : Zone} (hb : 0 < c.minBs)
    (hlen : c.minBs ≤ len) (hz : d.zones[zi]? = some z) (ho : z.offline = false)
    (hrange : c.minBs ≤ z.wp - z.start) (hst : z.start ≤ z.wp)
    (hseqoff : c.random = false → z.start ≤ off ∧ off + c.minBs ≤ z.wp) :
    ∃ off' len', adjustReadIn c d off len zi (z.wp - z.start) orig z =
      some (.accept off' len' (if z.hasWp then some zi else none) d) ∧
      (z.hasWp = true → ReadOk c d zi off' len' z ∧ len' ≤ len) ∧
      (z.hasWp = false → len' = len ∧ z.start ≤ off' ∧ off' < z.wp) := by
  unfold adjustReadIn
  simp only
  generalize hoff' : (if z.wp - z.start ≤ len then z.start
    else if c.random = true then z.start + ((off - orig) % (z.wp - z.start - len)) / c.minBs * c.minBs
    else off) = off'
  have hk : z.start ≤ off' ∧ off' + c.minBs ≤ z.wp := by
    split at hoff'
    · omega
    next hgt =>
    split at hoff'
    · have h1 := Nat.mod_lt (off - orig) (show 0 < z.wp - z.start - len by omega)
      have h2 := Nat.div_mul_le_self ((off - orig) % (z.wp - z.start - len)) c.minBs
      omega
    · next hr => subst hoff'; exact hseqoff (by simpa using hr)
  by_cases hs : z.hasWp = true
  · simp only [hs, Bool.not_true, Bool.false_eq_true, if_false, if_true, forall_const,
      reduceCtorEq, false_implies, and_true]
    have hmin1 : Nat.min len (z.wp - off') ≤ len := Nat.min_le_left _ _
    have hmin2 : Nat.min len (z.wp - off') ≤ z.wp - off' := Nat.min_le_right _ _
    have hmin3 : c.minBs ≤ Nat.min len (z.wp - off') := Nat.le_min.mpr ⟨hlen, by omega⟩
    generalize Nat.min len (z.wp - off') = m at *
    have hdiv := Nat.div_mul_le_self m c.minBs
    have hpos := rounded_pos hb hmin3
    have hl : (if m / c.minBs * c.minBs < len then m / c.minBs * c.minBs else len) =
        m / c.minBs * c.minBs := by split <;> omega
    rw [hl, if_pos ⟨hk.1, by omega⟩]
    refine ⟨off', m / c.minBs * c.minBs, ?_, ?_, by omega⟩
    · unfold accept; rw [hz]; simp [hs, ho]
    · exact ⟨hz, hs, ho, hk.1, hpos.1, by omega, Nat.dvd_mul_left _ _⟩
  · have hs' : z.hasWp = false := by simpa using hs
    simp only [hs', Bool.not_false, if_true, Bool.false_eq_true, if_false,
      false_implies, true_and, forall_const]
    exact ⟨off', len, rfl, rfl, hk.1, by omega⟩

/-- **C36** for reads of sequential zones, unless reading beyond the write pointer is asked for or
data is being verified: the read is accepted or there is no data to read; an accepted read of a
sequential zone covers only written data of one zone that is not offline, in whole blocks, not empty
and not longer than asked for.  A read moved to a conventional zone starts in it. -/
theorem C36_read {c : Cfg} {j : Job} {d : Dev} {e : WEnv} {off len : Nat}
    {zb : Zone} (hg : Geo c d) (hb : 0 < c.minBs) (hlen : c.minBs ≤ len)
    (h1 : c.fileOff ≤ off) (h2 : off < c.fileOff + c.ioSize)
    (hzb : d.zones[zoneIdx c off]? = some zb) (hseq : zb.hasWp = true)
    (hbw : c.readBeyondWp = false) (hver : c.verifying = false) :
    adjust c j d e .read off len = some .eof ∨
    ∃ zi z off' len' zo, adjust c j d e .read off len = some (.accept off' len' zo d) ∧
      c.minZone ≤ zi ∧ zi < c.maxZone ∧ d.zones[zi]? = some z ∧
      (z.hasWp = true → zo = some zi ∧ ReadOk c d zi off' len' z ∧ len' ≤ len) ∧
      (z.hasWp = false → zo = none ∧ len' = len ∧ z.start ≤ off' ∧ off' < z.wp) := by
  have hv : validOff c off = true := by
    rw [validOff_iff hg.fileEnd (by have := hg.fileEnd; omega)]; exact ⟨h1, h2⟩
  obtain ⟨zb', hzb', hle, hlt, hzmin, hzmax⟩ := C36_zone hg h1 h2
  rw [hzb] at hzb'; cases hzb'
  have hadj : adjust c j d e .read off len = adjustRead c d off len (zoneIdx c off) zb := by
    unfold adjust
    rw [if_neg (by simp [hv]; omega)]
    simp only [hzb, hseq, hbw, Bool.not_true, Bool.false_eq_true, if_false, and_false]
  rw [hadj]
  unfold adjustRead
  simp only [hver, Bool.false_eq_true, if_false]
  have hzn : zoneIdx c off < c.nrZones := Nat.lt_of_lt_of_le hzmax hg.maxNr
  have hwp := hg.wp _ _ hzb hzn
  have fin : ∀ zi z o, c.minZone ≤ zi → zi < c.maxZone → d.zones[zi]? = some z → z.offline = false →
      c.minBs ≤ z.wp - z.start → (c.random = false → z.start ≤ o ∧ o + c.minBs ≤ z.wp) →
      ∃ zi' z' off' len' zo, adjustReadIn c d o len zi (z.wp - z.start) zb.start z =
        some (.accept off' len' zo d) ∧
      c.minZone ≤ zi' ∧ zi' < c.maxZone ∧ d.zones[zi']? = some z' ∧
      (z'.hasWp = true → zo = some zi' ∧ ReadOk c d zi' off' len' z' ∧ len' ≤ len) ∧
      (z'.hasWp = false → zo = none ∧ len' = len ∧ z'.start ≤ off' ∧ off' < z'.wp) := by
    intro zi z o hz1 hz2 hz ho hr hso
    have hst := (hg.wp _ _ hz (Nat.lt_of_lt_of_le hz2 hg.maxNr)).2.1
    obtain ⟨off', len', he, ha, hc⟩ := readIn_spec (orig := zb.start) hb hlen hz ho hr hst hso
    refine ⟨zi, z, off', len', _, he, hz1, hz2, hz, ?_, ?_⟩
    · intro hs; exact ⟨by simp [hs], ha hs⟩
    · intro hs; exact ⟨by simp [hs], hc hs⟩
  generalize hrg : (if (!zb.offline) = true then zb.wp - zb.start else 0) = range
  split
  · cases hf : findZone c d (zoneIdx c off) c.maxZone c.minBs with
    | none =>
      exfalso
      refine findZoneFrom_defined ?_ ?_ _ _ hf
      · have := hg.len; have := hg.maxNr; omega
      · have := hg.len; omega
    | some r =>
      cases r with
      | none => exact Or.inl rfl
      | some zi' =>
        right
        obtain ⟨⟨z, hz, ho, hw⟩, hin⟩ := C36_find hf
        simp only [hz]
        have hr : c.minBs ≤ z.wp - z.start := by omega
        rw [if_neg (by omega)]
        refine fin zi' z _ (by omega) (by omega) hz ho hr ?_
        intro hrand
        simp only [hrand, Bool.not_false, if_true]
        omega
  · next hno =>
    right
    simp only [not_or, not_and, Nat.not_lt] at hno
    have ho : zb.offline = false := by
      cases hoo : zb.offline
      · rfl
      · rw [hoo] at hrg
        simp only [Bool.not_true, Bool.false_eq_true, if_false] at hrg
        omega
    simp only [ho, Bool.not_false, if_true] at hrg
    subst hrg
    refine fin _ zb off hzmin hzmax hzb ho hno.1 ?_
    intro hrand
    exact ⟨hle, hno.2 (by simp [hrand])⟩

/-! ### Conventional zones -/

/-- **C36** for writes to conventional zones: an accepted write not longer than a zone does not
reach into a sequential zone (of the two that follow) and starts in its zone; if two blocks fit in a
zone it is not empty. -/
theorem C36_conv {c : Cfg} {j : Job} {d d' : Dev} {e : WEnv} {off len off' len' : Nat}
    {zo : Option Nat} {zb : Zone} (hg : Geo c d) (hlen : c.minBs ≤ len)
    (hlz : len ≤ c.zoneSize) (h1 : c.fileOff ≤ off) (h2 : off < c.fileOff + c.ioSize)
    (hzb : d.zones[zoneIdx c off]? = some zb) (hconv : zb.hasWp = false)
    (h : adjust c j d e .write off len = some (.accept off' len' zo d')) :
    zo = none ∧ d' = d ∧ zb.start ≤ off' ∧ off' ≤ zb.start + c.zoneSize ∧ len' ≤ len ∧
    (∀ zn : Zone, d.zones[zoneIdx c off + 1]? = some zn → zn.hasWp = true → off' + len' ≤ zn.start) ∧
    (∀ zn : Zone, d.zones[zoneIdx c off + 2]? = some zn → off' + len' ≤ zn.start) ∧
    (2 * c.minBs ≤ c.zoneSize → 0 < len') := by
  obtain ⟨zb', hzb', hle, hlt, hzmin, hzmax⟩ := C36_zone hg h1 h2
  rw [hzb] at hzb'; cases hzb'
  have hst := hg.start _ _ hzb
  have hst2 : ∀ zn : Zone, d.zones[zoneIdx c off + 2]? = some zn →
      zn.start = zb.start + 2 * c.zoneSize := by
    intro zn hzn
    rw [hg.start _ _ hzn, hst, Nat.add_mul]
  unfold adjust at h
  split at h
  · cases h
  next hpre =>
  simp only [not_or] at hpre
  have hb : 0 < c.minBs := Nat.pos_of_ne_zero hpre.1
  simp only [hzb, hconv, Bool.not_false, if_true] at h
  unfold adjustConv at h
  simp only [ne_eq, not_true_eq_false, if_false] at h
  split at h
  · cases h
  next zn hzn =>
  have hst1 : zn.start = zb.start + c.zoneSize := by
    rw [hg.start _ _ hzn, hst, Nat.add_mul, Nat.one_mul]
  split at h
  · next hc =>
    cases h
    refine ⟨rfl, rfl, hle, by omega, Nat.le_refl _, ?_, ?_, by omega⟩
    · intro zn' hzn' hw
      rw [hzn] at hzn'; cases hzn'
      rcases hc with hc | hc
      · rw [hw] at hc; cases hc
      · exact hc
    · intro z2 hz2
      have := hst2 z2 hz2
      omega
  · next hc =>
    simp only [not_or] at hc
    split at h
    · next hgt =>
      simp only [Option.some.injEq, Act.accept.injEq] at h
      obtain ⟨rfl, rfl, rfl, rfl⟩ := h
      have hm1 : Nat.min len (zn.start - (zb.start + zn.start - off)) ≤ len := Nat.min_le_left _ _
      have hm2 : Nat.min len (zn.start - (zb.start + zn.start - off)) ≤
          zn.start - (zb.start + zn.start - off) := Nat.min_le_right _ _
      have hm3 : c.minBs ≤ zn.start - (zb.start + zn.start - off) →
          c.minBs ≤ Nat.min len (zn.start - (zb.start + zn.start - off)) :=
        fun h => Nat.le_min.mpr ⟨hlen, h⟩
      generalize Nat.min len (zn.start - (zb.start + zn.start - off)) = m at *
      have hd := Nat.div_mul_le_self m c.minBs
      refine ⟨rfl, rfl, by omega, by omega, by omega, ?_, ?_, ?_⟩
      · intro zn' hzn' _
        rw [hzn] at hzn'; cases hzn'
        omega
      · intro z2 hz2
        have := hst2 z2 hz2
        omega
      · intro h2b
        exact (rounded_pos hb (hm3 (by omega))).1
    · next hgt =>
      simp only [Option.some.injEq, Act.accept.injEq] at h
      obtain ⟨rfl, rfl, rfl, rfl⟩ := h
      have hd := Nat.div_mul_le_self (zn.start - off) c.minBs
      refine ⟨rfl, rfl, by omega, by omega, by omega, ?_, ?_, ?_⟩
      · intro zn' hzn' _
        rw [hzn] at hzn'; cases hzn'
        omega
      · intro z2 hz2
        have := hst2 z2 hz2
        omega
      · intro _
        exact (rounded_pos hb (show c.minBs ≤ zn.start - off by omega)).1

/-! ### Concrete cases -/

/-- A conventional zone, two sequential zones and the sentinel; zones of 1 MiB, the sequential ones
with 768 KiB capacity; the first sequential zone has 128 KiB of data. -/
def exDev2 : Dev :=
  { max := 0, num := 0, arr := [], vdb := 0,
    zones := [⟨0, 1048576, 1048576, false, false, false⟩, ⟨1048576, 1179648, 786432, true, false, false⟩,
      ⟨2097152, 2097152, 786432, true, false, false⟩, ⟨3145728, 0, 0, false, false, false⟩] }

/-- The first sequential zone with another write pointer. -/
def exZone (wp : Nat) : Zone := ⟨1048576, wp, 786432, true, false, false⟩

def exCfg : Cfg :=
  { zoneSize := 1048576, log2 := 20, nrZones := 3, fileOff := 0, ioSize := 3145728, minZone := 0,
    maxZone := 3, random := true, minBs := 65536, readBeyondWp := false, verifying := false }

def exJob2 : Job := { num := 0, jobMax := 0, verify := false, wzr := false, minBs := 65536, acct := false }

def exEnv : WEnv := { conv := [some 1], resetZone := false, gotVerify := false, resetOk := true }

theorem exGeo : Geo exCfg exDev2 where
  size := by decide
  log2 := by decide
  len := by decide
  nr := by decide
  start := by
    intro i z h
    have hi : i < 4 := by
      rw [List.getElem?_eq_some_iff] at h; exact h.1
    have : ∀ i < 4, ∀ z, exDev2.zones[i]? = some z → z.start = i * exCfg.zoneSize := by
      intro i hi
      have : i = 0 ∨ i = 1 ∨ i = 2 ∨ i = 3 := by omega
      rcases this with rfl | rfl | rfl | rfl <;> (intro z hz; cases hz; decide)
    exact this i hi z h
  wp := by
    intro i z h hi
    have : i = 0 ∨ i = 1 ∨ i = 2 := by simp only [exCfg] at hi; omega
    rcases this with rfl | rfl | rfl <;> (cases h; decide)
  fileEnd := by decide
  maxZone := by decide
  maxNr := by decide
  minZone := by decide

theorem exGoodConv : GoodConv exCfg exDev2 exEnv.conv := by
  intro zi h
  simp only [exEnv, List.mem_singleton, Option.some.injEq] at h
  subst h
  exact ⟨by decide, by decide, _, rfl, rfl, rfl⟩

/-- The hypotheses of `C36_write` are met: a write aimed at the second sequential zone goes to the
write pointer of the first, shortened to the space that is left. -/
example : adjust exCfg exJob2 exDev2 exEnv .write 2097152 700000 =
    some (.accept 1179648 655360 (some 1) exDev2) := by decide +kernel

/-- A full zone is reset first. -/
example : (adjust exCfg exJob2 { exDev2 with zones := exDev2.zones.set 1 (exZone 1835008) } exEnv .write 2097152 131072) =
    some (.accept 1048576 131072 (some 1) { exDev2 with zones := exDev2.zones.set 1 (exZone 1048576) }) := by decide +kernel

/-- The hypotheses of `C36_read` are met: a read aimed at the empty zone goes to the nearest zone
with data below it. -/
example : adjust exCfg exJob2 exDev2 exEnv .read 2162688 65536 =
    some (.accept 1048576 65536 (some 1) exDev2) := by decide +kernel

/-- The hypotheses of `C36_conv` are met: a write that would cross into a sequential zone is
shortened. -/
example : adjust exCfg exJob2 exDev2 exEnv .write 917504 262144 =
    some (.accept 917504 131072 none exDev2) := by decide +kernel

/-- **C36** fails for random trims: if the nearest zone with data is a conventional one, the search
returns it and the assertion `zb->has_wp` fails (zbd.c:2336-2346 and 2363).  Here the device has a
conventional zone and two empty sequential ones. -/
theorem C36_trim_counterexample : ∃ (c : Cfg) (j : Job) (d : Dev) (e : WEnv) (off len : Nat),
    Geo c d ∧ 0 < c.minBs ∧ c.minBs ≤ len ∧ c.fileOff ≤ off ∧ off + len ≤ c.fileOff + c.ioSize ∧
    adjust c j d e .trim off len = none := by
  refine ⟨exCfg, exJob2, { exDev2 with zones := exDev2.zones.set 1 (exZone 1048576) },
    exEnv, 1048576, 1048576, ?_, by decide, by decide, by decide, by decide, ?_⟩
  · exact exGeo.set (i := 1) rfl rfl rfl rfl (by decide)
  · decide +kernel

/-- **C36** fails for conventional zones when two blocks do not fit in a zone: a write at an offset
that is not a multiple of the block size (blockalign) is accepted with length 0. -/
theorem C36_conv_counterexample : ∃ (c : Cfg) (j : Job) (d d' : Dev) (e : WEnv) (off len off' : Nat),
    Geo c d ∧ 0 < c.minBs ∧ c.minBs ≤ len ∧ len ≤ c.zoneSize ∧ c.fileOff ≤ off ∧
    off + len ≤ c.fileOff + c.ioSize ∧
    adjust c j d e .write off len = some (.accept off' 0 none d') := by
  refine ⟨{ exCfg with minBs := 1048576 }, exJob2, exDev2, exDev2, exEnv, 524288, 1048576, 524288,
    { exGeo with }, by decide, by decide, by decide, by decide, by decide, ?_⟩
  decide +kernel

end Fio.Zbd
