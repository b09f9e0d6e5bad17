import Verif.ZDist.Lemmas
/-
C54: zoned random distributions: each zone gets its share of the accesses, and the accesses of a zone
stay in it.
-/
namespace Fio.ZDist

/-- The fill of missing access percentages changes nothing that is read elsewhere. -/
private theorem split_shape {absolute : Bool} {l : List (Int × Option Int)} {zs : List Zone}
    (h : zoneSplit absolute l = some zs) (hl : l ≠ []) :
    let z0 := (splitParse absolute 256 l).map (mkZone absolute)
    (tally Zone.acc z0).1 = 100 ∧ (absolute = false → (tally Zone.szp z0).1 ≤ 100) ∧
    ∃ q, (q * (tally Zone.szp z0).2 ≤ 100 - (tally Zone.szp z0).1) ∧ q < 256 ∧
      ((tally Zone.szp z0).2 ≠ 0 → ¬((tally Zone.szp z0).2 = 1 ∧ z0.length = 1) →
        q = (100 - (tally Zone.szp z0).1) / (tally Zone.szp z0).2) ∧
      ((tally Zone.szp z0).2 = 1 ∧ z0.length = 1 → q = 0) ∧
      zs = z0.map fun z =>
        { acc := if z.acc = 255 then 0 else z.acc,
          szp := if absolute then z.szp else if z.szp = 255 then q else z.szp,
          size := z.size } := by
  intro z0
  have hs : splitParse absolute 256 l ≠ [] := by
    cases l with
    | nil => exact absurd rfl hl
    | cons a b => simp [splitParse]
  have hz : z0 = (splitParse absolute 256 l).map (mkZone absolute) := rfl
  unfold zoneSplit at h
  simp only [hs, if_false, ← hz] at h
  clear_value z0
  cases hta : tally Zone.acc z0 with
  | mk pa ma =>
  cases hts : tally Zone.szp z0 with
  | mk ps ms =>
  have ha0 : ma = 0 → ∀ z ∈ z0, z.acc ≠ 255 := by
    intro hm z hzm hc
    have := (tally_spec Zone.acc z0).2
    rw [hta] at this
    simp only at this
    rw [hm] at this
    have := List.length_eq_zero_iff.1 this.symm
    have hmem : z ∈ z0.filter fun z => decide (z.acc = 255) := List.mem_filter.2 ⟨hzm, by simpa using hc⟩
    rw [this] at hmem
    simp at hmem
  have hs0 : ms = 0 → ∀ z ∈ z0, z.szp ≠ 255 := by
    intro hm z hzm hc
    have := (tally_spec Zone.szp z0).2
    rw [hts] at this
    simp only at this
    rw [hm] at this
    have := List.length_eq_zero_iff.1 this.symm
    have hmem : z ∈ z0.filter fun z => decide (z.szp = 255) := List.mem_filter.2 ⟨hzm, by simpa using hc⟩
    rw [this] at hmem
    simp at hmem
  rw [hta] at h
  simp only at h
  -- the sums are right
  have hp : pa = 100 := by
    cases absolute <;> simp only [hts, if_true, if_false, Bool.false_eq_true] at h <;>
      (split at h; · cases h) <;> (split at h; · cases h) <;> omega
  have hsp : absolute = false → ps ≤ 100 := by
    intro ab
    subst ab
    simp only [hts, Bool.false_eq_true, if_false] at h
    split at h
    · cases h
    · omega
  subst hp
  refine ⟨rfl, by simpa [hts] using hsp, ?_⟩
  simp only
  -- the first fill
  have e1 : (if ma ≠ 0 then z0.map fun z => if z.acc = 255 then
        { z with acc := (100 - (if ma = 1 ∧ z0.length = 1 then 100 else 100)) / ma % 256 } else z else z0)
      = z0.map fun z => { z with acc := if z.acc = 255 then 0 else z.acc } := by
    by_cases hm : ma = 0
    · rw [if_neg (by simpa using hm)]
      conv_lhs => rw [← List.map_id z0]
      apply List.map_congr_left
      intro z hzm
      simp [ha0 hm z hzm]
    · rw [if_pos hm]
      apply List.map_congr_left
      intro z _
      split
      · simp
      · rfl
  rw [e1] at h
  cases absolute with
  | true =>
    simp only [if_true] at h
    split at h
    · cases h
    split at h
    · cases h
    have hall : ∀ z ∈ z0, z.szp = 0 := by
      intro z hm
      rw [hz] at hm
      obtain ⟨e, _, he⟩ := List.mem_map.1 hm
      rw [← he]; simp [mkZone]
    have hms : ms = 0 := by
      have := (tally_spec Zone.szp z0).2
      rw [hts] at this
      simp only at this
      rw [this, List.length_eq_zero_iff, List.filter_eq_nil_iff]
      intro z hm; simp [hall z hm]
    refine ⟨0, by omega, by omega, by omega, by omega, ?_⟩
    simp at h
    rw [← h]
    simp
  | false =>
    simp only [hts, Bool.false_eq_true, if_false, List.length_map] at h
    split at h
    · cases h
    split at h
    · cases h
    have hps := hsp rfl
    by_cases hm : ms = 0
    · refine ⟨0, by omega, by omega, by omega, by omega, ?_⟩
      rw [if_neg (by simpa using hm)] at h
      rw [← Option.some.inj h]
      apply List.map_congr_left
      intro z hzm
      simp [hs0 hm z hzm]
    · rw [if_pos hm, List.map_map] at h
      have hzs := (Option.some.inj h).symm
      generalize hq : (100 - if ms = 1 ∧ z0.length = 1 then 100 else ps) / ms % 256 = q at hzs
      have hq' : (¬(ms = 1 ∧ z0.length = 1) → q = (100 - ps) / ms) ∧
          ((ms = 1 ∧ z0.length = 1) → q = 0) := by
        have hb : (100 - ps) / ms ≤ 100 := le_trans (Nat.div_le_self _ _) (by omega)
        constructor
        · intro hc
          rw [if_neg hc, Nat.mod_eq_of_lt (by omega)] at hq
          exact hq.symm
        · intro hc
          rw [if_pos hc] at hq
          simpa using hq.symm
      refine ⟨q, ?_, ?_, fun _ => hq'.1, hq'.2, ?_⟩
      · by_cases hc : ms = 1 ∧ z0.length = 1
        · rw [hq'.2 hc]; omega
        · rw [hq'.1 hc]; exact Nat.div_mul_le_self _ _
      · rw [← hq]; exact Nat.mod_lt _ (by omega)
      · rw [hzs]
        apply List.map_congr_left
        intro z _
        simp only [Function.comp]
        split <;> simp_all

/-- C54: a distribution that is accepted gives away all of the accesses, and not more than the whole
file. -/
theorem split_sums {absolute : Bool} {l : List (Int × Option Int)} {zs : List Zone}
    (h : zoneSplit absolute l = some zs) (hl : l ≠ []) :
    all Zone.acc zs = 100 ∧ all Zone.szp zs ≤ 100 ∧ zs.length = min 256 l.length := by
  obtain ⟨h1, h2, q, h3, _, _, _, h6⟩ := split_shape h hl
  subst h6
  have hacc := fill_sum Zone.acc 0 (fun z => (
        { acc := if z.acc = 255 then 0 else z.acc,
          szp := if absolute then z.szp else if z.szp = 255 then q else z.szp,
          size := z.size } : Zone)) (fun z => rfl) ((splitParse absolute 256 l).map (mkZone absolute))
  refine ⟨by rw [hacc, h1]; omega, ?_, by simp [splitParse]⟩
  cases absolute with
  | false =>
    have hs := fill_sum Zone.szp q (fun z => (
        { acc := if z.acc = 255 then 0 else z.acc,
          szp := if z.szp = 255 then q else z.szp,
          size := z.size } : Zone)) (fun z => rfl) ((splitParse false 256 l).map (mkZone false))
    simp only [Bool.false_eq_true, if_false]
    rw [hs]
    have := h2 rfl
    omega
  | true =>
    have : all Zone.szp (((splitParse true 256 l).map (mkZone true)).map fun z =>
        ({ acc := if z.acc = 255 then 0 else z.acc, szp := if true = true then z.szp else
          if z.szp = 255 then q else z.szp, size := z.size } : Zone)) = 0 := by
      unfold all
      rw [List.sum_eq_zero_iff_forall_eq_nat]
      intro x hx
      simp only [List.map_map, List.mem_map, Function.comp, mkZone, if_true] at hx
      obtain ⟨_, _, hx⟩ := hx
      exact hx.symm
    omega

/-- C54: the zones are what the option says: numbers up to 100 are taken as they are. -/
theorem split_given {l : List (Int × Option Int)} {zs : List Zone} {i a s : Nat}
    (h : zoneSplit false l = some zs) (hi : l[i]? = some ((a : Int), some (s : Int))) (h256 : i < 256)
    (ha : a ≤ 100) (hs : 0 < s) (hs' : s ≤ 100) : zs[i]? = some ⟨a, s, 0⟩ := by
  have hl : l ≠ [] := by rintro rfl; simp at hi
  obtain ⟨_, _, q, _, _, _, _, h6⟩ := split_shape h hl
  subst h6
  simp only [splitParse, List.getElem?_map, List.getElem?_take, h256, if_true, hi, Option.map_some]
  have e1 : ((a : Int) % 2 ^ 64).toNat = a := by omega
  have e2 : ((s : Int) % 2 ^ 64).toNat = s := by omega
  have e3 : a % 256 = a := by omega
  have e4 : s % 256 = s := by omega
  simp only [splitPerc, mkZone, e1, e2, Bool.false_eq_true, if_false]
  rw [if_neg (show ¬ s > 100 by omega), if_neg (show s ≠ 0 by omega), e3, e4,
    if_neg (show a ≠ 255 by omega), if_neg (show s ≠ 255 by omega)]

/-- The same for absolute sizes. -/
theorem split_given_abs {l : List (Int × Option Int)} {zs : List Zone} {i a s : Nat}
    (h : zoneSplit true l = some zs) (hi : l[i]? = some ((a : Int), some (s : Int))) (h256 : i < 256)
    (ha : a ≤ 100) (hs' : s < 2 ^ 64) : zs[i]? = some ⟨a, 0, s⟩ := by
  have hl : l ≠ [] := by rintro rfl; simp at hi
  obtain ⟨_, _, q, _, _, _, _, h6⟩ := split_shape h hl
  subst h6
  simp only [splitParse, List.getElem?_map, List.getElem?_take, h256, if_true, hi, Option.map_some]
  have e1 : ((a : Int) % 2 ^ 64).toNat = a := by omega
  have e2 : ((s : Int) % 2 ^ 64).toNat = s := by omega
  have e3 : a % 256 = a := by omega
  simp only [splitPerc, mkZone, e1, e2, if_true]
  rw [e3, if_neg (show a ≠ 255 by omega)]

/-- Correct input is accepted: access percentages that sum to 100, sizes to at most 100. -/
theorem split_accepts {l : List (Nat × Nat)} (hl : l.length ≤ 256)
    (h1 : (l.map Prod.fst).sum = 100) (h2 : (l.map Prod.snd).sum ≤ 100) (hp : ∀ e ∈ l, 0 < e.2) :
    zoneSplit false (l.map fun e => ((e.1 : Int), some (e.2 : Int)))
      = some (l.map fun e => ⟨e.1, e.2, 0⟩) := by
  have hle : ∀ (l : List Nat) (x : Nat), x ∈ l → x ≤ l.sum := by
    intro l x hx
    induction l with
    | nil => simp at hx
    | cons y l ih =>
      rw [List.sum_cons]
      rcases List.mem_cons.1 hx with rfl | h
      · omega
      · have := ih h; omega
  have ha : ∀ e ∈ l, e.1 ≤ 100 := fun e he => by
    have := hle _ _ (List.mem_map_of_mem (f := Prod.fst) he); omega
  have hb : ∀ e ∈ l, e.2 ≤ 100 := fun e he => by
    have := hle _ _ (List.mem_map_of_mem (f := Prod.snd) he); omega
  have hz : (splitParse false 256 (l.map fun e => ((e.1 : Int), some (e.2 : Int)))).map (mkZone false)
      = l.map fun e => (⟨e.1, e.2, 0⟩ : Zone) := by
    unfold splitParse
    rw [List.take_of_length_le (by simpa using hl), List.map_map, List.map_map]
    apply List.map_congr_left
    intro e he
    have := ha e he
    have := hb e he
    have := hp e he
    have e1 : ((e.1 : Int) % 2 ^ 64).toNat = e.1 := by omega
    have e2 : ((e.2 : Int) % 2 ^ 64).toNat = e.2 := by omega
    have e3 : e.1 % 256 = e.1 := by omega
    have e4 : e.2 % 256 = e.2 := by omega
    simp only [Function.comp, splitPerc, mkZone, Bool.false_eq_true, if_false, e1, e2]
    rw [if_neg (by omega), if_neg (by omega), e3, e4]
  have hne : splitParse false 256 (l.map fun e => ((e.1 : Int), some (e.2 : Int))) ≠ [] := by
    cases l with
    | nil => simp at h1
    | cons x y => simp [splitParse]
  have hga : ∀ m : List (Nat × Nat), (∀ e ∈ m, e.1 ≤ 100) →
      tally Zone.acc (m.map fun e => (⟨e.1, e.2, 0⟩ : Zone)) = ((m.map Prod.fst).sum, 0) := by
    intro m
    induction m with
    | nil => intro _; rfl
    | cons e m ih =>
      intro hm
      have := hm e (by simp)
      simp only [List.map_cons, tally, ih (fun x hx => hm x (by simp [hx]))]
      rw [if_neg (by omega)]
      simp; omega
  have hgs : ∀ m : List (Nat × Nat), (∀ e ∈ m, e.2 ≤ 100) →
      tally Zone.szp (m.map fun e => (⟨e.1, e.2, 0⟩ : Zone)) = ((m.map Prod.snd).sum, 0) := by
    intro m
    induction m with
    | nil => intro _; rfl
    | cons e m ih =>
      intro hm
      have := hm e (by simp)
      simp only [List.map_cons, tally, ih (fun x hx => hm x (by simp [hx]))]
      rw [if_neg (by omega)]
      simp; omega
  unfold zoneSplit
  simp only [hne, if_false, hz, hga l ha, hgs l hb, h1, Bool.false_eq_true]
  rw [if_neg (by omega), if_neg (by omega)]
  simp

example : zoneSplit false [(60, some 10), (30, some 20), (8, some 30), (2, some 40)]
    = some [⟨60, 10, 0⟩, ⟨30, 20, 0⟩, ⟨8, 30, 0⟩, ⟨2, 40, 0⟩] := by decide +kernel

/-- C54: the sizes that are not given share the rest of the file equally, if there is more than one
zone. -/
theorem split_missing {l : List (Int × Option Int)} {zs : List Zone} {i : Nat} {a : Int}
    (h : zoneSplit false l = some zs) (h2 : 2 ≤ l.length) (h256 : l.length ≤ 256)
    (hr : ∀ e ∈ l, ∀ s, e.2 = some s → 0 < s ∧ s ≤ 100) (hi : l[i]? = some (a, none)) :
    ∃ z, zs[i]? = some z ∧
      z.szp = (100 - ((l.filterMap Prod.snd).map Int.toNat).sum) / (l.filter fun e => e.2 = none).length := by
  have hl : l ≠ [] := by rintro rfl; simp at hi
  obtain ⟨_, _, q, _, _, hq, _, h6⟩ := split_shape h hl
  have hgen : ∀ m : List (Int × Option Int), (∀ e ∈ m, ∀ s, e.2 = some s → 0 < s ∧ s ≤ 100) →
      tally Zone.szp (m.map fun e => mkZone false ((e.1 % 2 ^ 64).toNat, splitPerc false e.2)) =
        (((m.filterMap Prod.snd).map Int.toNat).sum, (m.filter fun e => e.2 = none).length) := by
    intro m
    induction m with
    | nil => intro _; rfl
    | cons e m ih =>
      intro hm
      have ihm := ih (fun x hx => hm x (by simp [hx]))
      obtain ⟨a, s⟩ := e
      simp only [List.map_cons, tally, ihm]
      cases s with
      | none => simp [mkZone, splitPerc]
      | some s =>
        obtain ⟨hs1, hs2⟩ := hm (a, some s) (by simp) s rfl
        have e1 : (s % 2 ^ 64).toNat = s.toNat := by omega
        have e2 : s.toNat % 256 = s.toNat := by omega
        simp only [mkZone, splitPerc, Bool.false_eq_true, if_false, e1]
        rw [if_neg (show ¬ s.toNat > 100 by omega), if_neg (show ¬ s.toNat = 0 by omega), e2,
          if_neg (by omega)]
        simp; omega
  have hz0 : (splitParse false 256 l).map (mkZone false) =
      l.map fun e => mkZone false ((e.1 % 2 ^ 64).toNat, splitPerc false e.2) := by
    unfold splitParse
    rw [List.take_of_length_le h256, List.map_map]; rfl
  rw [hz0] at h6 hq
  rw [hgen l hr] at hq
  simp only [List.length_map] at hq
  have hpos : (l.filter fun e => e.2 = none).length ≠ 0 := by
    have : (a, none) ∈ l.filter fun e => e.2 = none :=
      List.mem_filter.2 ⟨List.mem_of_getElem? hi, by simp⟩
    intro hc
    rw [List.length_eq_zero_iff.1 hc] at this
    simp at this
  have hqv := hq hpos (by omega)
  subst h6
  rw [List.getElem?_map, List.getElem?_map, hi]
  refine ⟨_, rfl, ?_⟩
  simp only [mkZone, splitPerc, Bool.false_eq_true, if_false]
  rw [if_pos (by norm_num)]
  exact hqv

/-- C54: the table: each of the numbers 1 to 100 selects exactly one zone, zone `i` is selected by
`acc` of them, and the entry read for a number is the zone it selects. -/
theorem table_ok {zs : List Zone} (ha : all Zone.acc zs = 100) (hs : all Zone.szp zs ≤ 100)
    (hz : all Zone.size zs < 2 ^ 64) :
    ∃ t, genIndex zs = some t ∧
      (∀ v, 1 ≤ v → v ≤ 100 → ∃ i, Selects zs v i) ∧
      (∀ v i j, Selects zs v i → Selects zs v j → i = j) ∧
      (∀ v i z, Selects zs v i → zs[i]? = some z →
        lookup t v = some ⟨before Zone.szp zs i + z.szp, before Zone.szp zs i,
          before Zone.size zs i + z.size, before Zone.size zs i⟩) := by
  obtain ⟨t, h1, h2, _, h4⟩ := genLoop_ok zs 0 0 0 (List.replicate 100 none) (by simp; omega)
    (by omega) (by omega)
  refine ⟨t, h1, fun v hv hv' => selects_exists zs v (by omega) (by omega), ?_, ?_⟩
  · rintro v i j ⟨y, hi, hi1, hi2⟩ ⟨w, hj, hj1, hj2⟩
    rcases Nat.lt_trichotomy i j with h | h | h
    · have := before_mono Zone.acc zs i j y h hi
      omega
    · exact h
    · have := before_mono Zone.acc zs j i w h hj
      omega
  · rintro v i z ⟨y, hi, hi1, hi2⟩ hz
    obtain rfl : y = z := by rw [hi] at hz; exact Option.some.inj hz
    have := h4 i y (v - 1) hi (by omega) (by omega)
    unfold lookup
    rw [this]
    simp

/-- The generator gives a block below its bound. -/
theorem nextRand_lt {n r bits : Nat} (hn : 0 < n) (hd : GoodDraw r bits) :
    ∃ b, nextRand n (.taus r bits) = some b ∧ b < n := by
  refine ⟨_, rfl, ?_⟩
  rcases hd with ⟨rfl, h⟩ | ⟨rfl, h⟩
  · exact (IoGen.C25_uniform hn).1 h
  · exact (IoGen.C25_uniform hn).2 h

/-- C54: a relative zone: the block is one of the zone that the number selects, and so one of the
file. -/
theorem zoned_in {zs : List Zone} {t : List (Option Idx)} {lastb v i r bits : Nat} {z : Zone}
    (ha : all Zone.acc zs = 100) (hs : all Zone.szp zs ≤ 100) (hsz : all Zone.size zs < 2 ^ 64)
    (ht : genIndex zs = some t) (hb : 100 * lastb < 2 ^ 64) (hsel : Selects zs v i)
    (hz : zs[i]? = some z) (hlen : 0 < len lastb z) (hd : GoodDraw r bits) :
    ∃ b, zoned lastb zs t v (.taus r bits) = .block b ∧ lo lastb zs i ≤ b ∧
      b < lo lastb zs i + len lastb z ∧ b < lastb := by
  obtain ⟨t', h1, _, _, h4⟩ := table_ok ha hs hsz
  rw [ht] at h1
  obtain rfl := Option.some.inj h1
  have hlk := h4 v i z hsel hz
  have hle := before_le_all Zone.szp zs i z hz
  have hl0 : lastb ≠ 0 := by
    rintro rfl
    simp [len] at hlen
  have hne : zs ≠ [] := by rintro rfl; simp at hz
  have hmul1 : before Zone.szp zs i * lastb ≤ 100 * lastb := Nat.mul_le_mul_right _ (by omega)
  have hmul2 : z.szp * lastb ≤ 100 * lastb := Nat.mul_le_mul_right _ (by omega)
  have hmul3 : (before Zone.szp zs i + z.szp) * lastb ≤ 100 * lastb := Nat.mul_le_mul_right _ (by omega)
  rw [Nat.add_mul] at hmul3
  obtain ⟨b, hb1, hb2⟩ := nextRand_lt hlen hd
  have hbound : lo lastb zs i + len lastb z ≤ lastb := by
    unfold lo len
    omega
  refine ⟨b + lo lastb zs i, ?_, by omega, by omega, by omega⟩
  unfold zoned
  rw [if_neg hl0, if_neg hne, hlk]
  simp only
  have eo : (if before Zone.szp zs i ≠ 0 then before Zone.szp zs i * lastb % 2 ^ 64 / 100 else 0)
      = lo lastb zs i := by
    unfold lo
    split
    · rw [Nat.mod_eq_of_lt (by omega)]
    · rename_i h0
      have : before Zone.szp zs i = 0 := by omega
      simp [this]
  have el : lastb * ((before Zone.szp zs i + z.szp + 2 ^ 32 - before Zone.szp zs i) % 2 ^ 32) % 2 ^ 64
      / 100 = len lastb z := by
    have : (before Zone.szp zs i + z.szp + 2 ^ 32 - before Zone.szp zs i) % 2 ^ 32 = z.szp := by omega
    rw [this, Nat.mul_comm, Nat.mod_eq_of_lt (by omega)]
    rfl
  rw [eo, el, hb1]
  simp only [place]
  rw [Nat.mod_eq_of_lt (by omega)]

/-- C54: different zones share no block. -/
theorem zones_disjoint {zs : List Zone} {lastb i j : Nat} {z : Zone} (hij : i < j)
    (hz : zs[i]? = some z) : lo lastb zs i + len lastb z ≤ lo lastb zs j := by
  have := before_mono Zone.szp zs i j z hij hz
  have h2 : (before Zone.szp zs i + z.szp) * lastb ≤ before Zone.szp zs j * lastb :=
    Nat.mul_le_mul_right _ this
  rw [Nat.add_mul] at h2
  unfold lo len
  omega

/-- C54: an absolute zone (the special value 2^32-1 of its end left out): the block is in the zone,
or the I/O fails because the zone reaches behind the file. -/
theorem zoned_abs_in {zs : List Zone} {t : List (Option Idx)} {lastb ba v i r bits : Nat} {z : Zone}
    (ha : all Zone.acc zs = 100) (hs : all Zone.szp zs ≤ 100) (hsz : all Zone.size zs < 2 ^ 64)
    (ht : genIndex zs = some t) (hl0 : 0 < lastb) (hsel : Selects zs v i)
    (hz : zs[i]? = some z) (hd : GoodDraw r bits)
    (hlen : before Zone.size zs i / ba < (before Zone.size zs i + z.size) / ba)
    (hm : (before Zone.size zs i + z.size) / ba ≠ 2 ^ 32 - 1) :
    if (before Zone.size zs i + z.size) / ba ≤ lastb then
      ∃ b, zonedAbs lastb ba zs t v (.taus r bits) = .block b ∧ before Zone.size zs i / ba ≤ b ∧
        b < (before Zone.size zs i + z.size) / ba ∧ b < lastb
    else zonedAbs lastb ba zs t v (.taus r bits) = .fail := by
  obtain ⟨t', h1, _, _, h4⟩ := table_ok ha hs hsz
  rw [ht] at h1
  obtain rfl := Option.some.inj h1
  have hlk := h4 v i z hsel hz
  have hle := before_le_all Zone.size zs i z hz
  have hne : zs ≠ [] := by rintro rfl; simp at hz
  have hval : zonedAbs lastb ba zs t v (.taus r bits) =
      if (before Zone.size zs i + z.size) / ba > lastb then .fail else
        place (nextRand (((before Zone.size zs i + z.size) / ba + 2 ^ 64 - before Zone.size zs i / ba)
          % 2 ^ 64) (.taus r bits)) (before Zone.size zs i / ba) := by
    unfold zonedAbs
    rw [if_neg (by omega), if_neg hne, hlk]
    simp only [hm, if_false]
  rw [hval]
  generalize hS : before Zone.size zs i / ba = S at *
  have hE : (before Zone.size zs i + z.size) / ba ≤ before Zone.size zs i + z.size := Nat.div_le_self _ _
  generalize (before Zone.size zs i + z.size) / ba = E at *
  by_cases hc : E ≤ lastb
  · rw [if_pos hc, if_neg (show ¬ E > lastb by omega)]
    have e : (E + 2 ^ 64 - S) % 2 ^ 64 = E - S := by omega
    obtain ⟨b, hb1, hb2⟩ := nextRand_lt (n := E - S) (by omega) hd
    refine ⟨b + S, ?_, by omega, by omega, by omega⟩
    rw [e, hb1]
    simp only [place]
    rw [Nat.mod_eq_of_lt (by omega)]
  · rw [if_neg hc, if_pos (show E > lastb by omega)]

/-- C54: a sequence: the `n`-th I/O goes to the listed block (with a stride: moved by the length of
the list each time round), if that is below the limit, else it fails. -/
theorem sequence_ok {seq : List Nat} {stride : Bool} {ioSize minBs n s : Nat}
    (hs : seq[n % seq.length]? = some s) (hn : n + s < 2 ^ 64) :
    let b := if stride then n - n % seq.length + s else s
    (sequence seq stride ioSize minBs n = .block b ∧ (ioSize ≠ 0 → b < ioSize / minBs)) ∨
    (sequence seq stride ioSize minBs n = .fail ∧ ioSize ≠ 0 ∧ ioSize / minBs ≤ b) := by
  have hl : seq.length ≠ 0 := by
    intro hc
    rw [List.length_eq_zero_iff.1 hc] at hs
    simp at hs
  intro b
  have hb : (if stride then (n / seq.length * seq.length + s) % 2 ^ 64 else s) = b := by
    have hdm := Nat.div_add_mod n seq.length
    rw [Nat.mul_comm] at hdm
    simp only [b]
    split
    · have : n / seq.length * seq.length = n - n % seq.length := by omega
      rw [this, Nat.mod_eq_of_lt (by omega)]
    · rfl
  clear_value b
  unfold sequence
  rw [if_neg hl, hs]
  simp only [hb]
  split
  · right; exact ⟨rfl, by omega, by omega⟩
  · left; exact ⟨rfl, by omega⟩

/-! A case: 60% of the I/Os to the first tenth, 30% to the next fifth, 8% to the next 30%, 2% to the
rest. -/

private def ex : List Zone := [⟨60, 10, 0⟩, ⟨30, 20, 0⟩, ⟨8, 30, 0⟩, ⟨2, 40, 0⟩]

example : all Zone.acc ex = 100 ∧ all Zone.szp ex ≤ 100 ∧ all Zone.size ex < 2 ^ 64 ∧
    (genIndex ex).isSome ∧ len 1000 ⟨30, 20, 0⟩ = 200 ∧ lo 1000 ex 1 = 100 := by decide +kernel
example : Selects ex 61 1 := ⟨⟨30, 20, 0⟩, rfl, by decide, by decide⟩
example : (genIndex ex).map (fun t => zoned 1000 ex t 61 (.taus (2 ^ 31) 32)) = some (.block 200) := by
  decide +kernel

private def exAbs : List Zone := [⟨60, 0, 20480⟩, ⟨40, 0, 40960⟩]

example : (genIndex exAbs).map (fun t => (zonedAbs 100 4096 exAbs t 60 (.taus (2 ^ 31) 32),
    zonedAbs 100 4096 exAbs t 61 (.taus (2 ^ 31) 32), zonedAbs 14 4096 exAbs t 61 (.taus 0 32)))
    = some (.block 2, .block 10, .fail) := by decide +kernel

example : (List.range 6).map (sequence [7, 3, 5] true 1048576 4096) =
    [.block 7, .block 3, .block 5, .block 10, .block 6, .block 8] := by decide +kernel

/-! What is not so. -/

/-- A single zone without size is given no block at all: all I/O goes to block 0. -/
theorem single_zone_counterexample : zoneSplit false [(100, none)] = some [⟨100, 0, 0⟩] ∧
    ∀ r, r < 2 ^ 32 → ∀ t, genIndex [⟨100, 0, 0⟩] = some t →
      zoned 1000 [⟨100, 0, 0⟩] t 1 (.taus r 32) = .block 0 := by
  refine ⟨by decide +kernel, ?_⟩
  intro r hr t ht
  have : t = List.replicate 100 (some ⟨0, 0, 0, 0⟩) := by
    have h : genIndex [⟨100, 0, 0⟩] = some (List.replicate 100 (some ⟨0, 0, 0, 0⟩)) := by decide +kernel
    rw [h] at ht; exact (Option.some.inj ht).symm
  subst this
  have e0 : Fio.round53 0 = 0 := by decide +kernel
  simp [zoned, lookup, nextRand, IoGen.scaled, place, e0]

/-- A zone that gets nothing, because the others have it all: its I/Os go to the block behind the
file. -/
theorem rest_empty_counterexample :
    zoneSplit false [(50, some 100), (50, none)] = some [⟨50, 100, 0⟩, ⟨50, 0, 0⟩] ∧
    (genIndex [⟨50, 100, 0⟩, ⟨50, 0, 0⟩]).map
      (fun t => zoned 1000 [⟨50, 100, 0⟩, ⟨50, 0, 0⟩] t 51 (.taus 5 32)) = some (.block 1000) := by
  decide +kernel

/-- The access percentage is kept in eight bits: 300 is taken as 44, and 356 as all of it. -/
theorem percent_wraps_counterexample :
    zoneSplit false [(356, some 10)] = some [⟨100, 10, 0⟩] ∧
    zoneSplit false [(300, some 10), (56, some 20)] = some [⟨44, 10, 0⟩, ⟨56, 20, 0⟩] := by decide +kernel

/-- The LFSR gives a block of the file, not of the zone. -/
theorem lfsr_counterexample :
    (genIndex ex).map (fun t => zoned 1000 ex t 1 (.lfsr (some 999))) = some (.block 999) ∧
    (genIndex ex).map (fun t => zoned 1000 ex t 100 (.lfsr (some 999))) = some (.block 1599) := by
  decide +kernel

/-- A zone that ends at block 2^32-1 is not taken as a zone: its blocks are anywhere. -/
theorem special_end_counterexample :
    (genIndex [⟨50, 0, 4096 * (2 ^ 32 - 2)⟩, ⟨50, 0, 4096⟩]).map
      (fun t => zonedAbs (2 ^ 33) 4096 [⟨50, 0, 4096 * (2 ^ 32 - 2)⟩, ⟨50, 0, 4096⟩] t 51 (.taus 0 32))
    = some (.block 0) := by decide +kernel

end Fio.ZDist
