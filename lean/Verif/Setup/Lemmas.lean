import Verif.Setup.Spec

namespace Fio.Setup

theorem w_small {x : Nat} (h : x < 18446744073709551616) : w x = x := Nat.mod_eq_of_lt h

theorem sub_small {a b : Nat} (h : b ≤ a) (ha : a < 18446744073709551616) : sub a b = a - b := by
  unfold sub; omega

theorem RoundUp.unique {a x y z : Nat} (hy : RoundUp a x y) (hz : RoundUp a x z) : y = z := by
  obtain ⟨⟨p, rfl⟩, h1, h2⟩ := hy
  obtain ⟨⟨q, rfl⟩, h3, h4⟩ := hz
  rcases Nat.lt_trichotomy p q with h | h | h
  · have := Nat.mul_le_mul_left a (Nat.succ_le_of_lt h)
    rw [Nat.mul_succ] at this; omega
  · rw [h]
  · have := Nat.mul_le_mul_left a (Nat.succ_le_of_lt h)
    rw [Nat.mul_succ] at this; omega

theorem roundUp (a x : Nat) (ha : 0 < a) : RoundUp a x ((x / a + (if x % a ≠ 0 then 1 else 0)) * a) := by
  have h := Nat.div_add_mod x a
  have h2 := Nat.mod_lt x ha
  refine ⟨Nat.dvd_mul_left _ _, ?_⟩
  rw [Nat.add_mul, Nat.mul_comm (x / a)]
  generalize a * (x / a) = q at *
  split <;> omega

theorem roundDown (a x : Nat) (ha : 0 < a) : RoundDown a x (x - x % a) := by
  have h := Nat.div_add_mod x a
  have h2 := Nat.mod_lt x ha
  refine ⟨⟨x / a, by omega⟩, by omega, by omega⟩

/-- The offset. -/
theorem startOffset_eq {o : Opts} {f : File} (ht : Tame o f) :
    ∃ y, startOffset o f = .ok y ∧ WantOffset o f y ∧ y < 2 ^ 55 := by
  have hr := ht.real
  have hp := ht.pct
  have ho := ht.off
  have ha := ht.align
  unfold startOffset WantOffset
  by_cases happ : o.append = true ∧ f.regular = true
  · rw [if_pos (by simp [happ])]
    exact ⟨_, rfl, ⟨fun _ => rfl, fun h => absurd happ h, fun h => absurd happ h⟩, hr⟩
  · rw [if_neg (by simpa using happ), if_neg (by rintro ⟨h1, h2⟩; rcases ht.inc with h | h <;> contradiction)]
    have hinc : (if o.incPct ≠ 0 then w (o.incPct * f.real) / 100 else o.inc) = wantInc o f.real := by
      unfold wantInc
      split
      · rw [w_small]
        calc o.incPct * f.real ≤ 100 * f.real := Nat.mul_le_mul_right _ hp.2.2
          _ < _ := by omega
      · rfl
    have hs : w (f.real * o.startPct) = o.startPct * f.real := by
      rw [w_small, Nat.mul_comm]
      calc f.real * o.startPct ≤ f.real * 100 := Nat.mul_le_mul_left _ hp.2.1
          _ < _ := by omega
    have hraw : (if o.startPct > 0 then w (w (f.real * o.startPct) / 100 + w (o.subjob * wantInc o f.real))
        else w (o.startOffset + w (o.subjob * wantInc o f.real))) = wantOffset o f.real := by
      rw [hs]
      unfold wantOffset at *
      generalize o.subjob * wantInc o f.real = m at *
      generalize o.startPct * f.real = q at *
      unfold w
      by_cases h : o.startPct = 0
      · rw [if_neg (by omega)] at ho
        rw [if_neg (by omega), if_neg (by omega)]
        omega
      · rw [if_pos h] at ho
        rw [if_pos (by omega), if_pos h]
        omega
    dsimp only
    rw [hinc, hraw]
    by_cases hb : ByPercent o
    · rw [if_pos (by unfold ByPercent at hb; omega)]
      change ∃ y, (if wantAlign o = 0 then Res.crash else Res.ok (w ((wantOffset o f.real / wantAlign o + (if wantOffset o f.real % wantAlign o ≠ 0 then 1 else 0)) * wantAlign o))) = _ ∧ _
      rw [if_neg (by omega)]
      have hu := roundUp (wantAlign o) (wantOffset o f.real) ha.1
      have hlt : (wantOffset o f.real / wantAlign o + (if wantOffset o f.real % wantAlign o ≠ 0 then 1 else 0)) * wantAlign o < 2 ^ 55 := by
        have := hu.2.2; omega
      rw [w_small (by omega)]
      exact ⟨_, rfl, ⟨fun h => absurd h happ, fun _ _ => hu, fun _ h => absurd hb h⟩, hlt⟩
    · rw [if_neg (by unfold ByPercent at hb; omega)]
      exact ⟨_, rfl, ⟨fun h => absurd h happ, fun _ h => absurd h hb, fun _ _ => rfl⟩, by omega⟩

/-- The random size, before rounding, is in the range. -/
theorem scaled_le {sized r k : Nat} (hs : sized < 2 ^ 53) (hr : r < 2 ^ k) :
    round53 (round53 sized * round53 r) / 2 ^ k ≤ sized := by
  rw [round53_small hs]
  have h1 : round53 r ≤ 2 ^ k := by
    apply round53_le (e := k) (Nat.dvd_refl _) _ (Nat.le_of_lt hr)
    exact Nat.pow_le_pow_right (by omega) (by omega)
  have h2 : round53 (sized * round53 r) ≤ sized * 2 ^ k := by
    apply round53_le (e := k) (Nat.dvd_mul_left _ _)
    · rw [Nat.pow_add, Nat.mul_comm]
      exact Nat.mul_le_mul_left _ (Nat.le_of_lt hs)
    · exact Nat.mul_le_mul_left _ h1
  calc _ ≤ sized * 2 ^ k / 2 ^ k := Nat.div_le_div_right h2
    _ = sized := Nat.mul_div_cancel _ (Nat.pow_pos (by omega))

theorem randSize_range {o : Opts} {f : File} (ht : Tame o f) :
    o.fileLow < randSize o f + o.rwMinBs ∧ randSize o f ≤ o.fileHigh := by
  have hh := ht.high
  have hl := ht.low
  unfold randSize
  rw [sub_small hl (by omega)]
  have h := scaled_le (sized := o.fileHigh - o.fileLow) (r := f.rnd) (k := randBits o) (by omega) ht.rnd
  dsimp only
  generalize round53 (round53 (o.fileHigh - o.fileLow) * round53 f.rnd) / 2 ^ randBits o = x at *
  rw [w_small (by omega)]
  have h2 := Nat.mod_lt (x + o.fileLow) ht.rwbs
  omega

/-- The size of a file, before percentages. -/
theorem baseSize_ok {o : Opts} {f : File} {n i off b : Nat} (ht : Tame o f) (hoff : WantOffset o f off)
    (hlt : off < 2 ^ 55)
    (h : baseSize o (if o.fileLow = 0 then o.size / n else 0) (decide (o.fileLow = 0 ∧ i < o.size % n / o.minBs)) f off
      = .ok b) : WantBase o n i f off b ∧ off + b < 2 ^ 57 := by
  have hs := ht.size
  have hb := ht.bs
  have hr := ht.real
  have hin := ht.inside off hoff
  have hh := ht.high
  have hl := ht.low
  have hd := Nat.div_le_self o.size n
  unfold baseSize at h
  unfold WantBase share
  by_cases h0 : o.fileLow = 0
  · rw [if_pos h0] at h ⊢
    rw [if_pos h0] at h
    dsimp only at h
    have he : (if decide (o.fileLow = 0 ∧ i < o.size % n / o.minBs) = true then w (o.size / n + o.minBs) else o.size / n)
        = o.size / n + if i < o.size % n / o.minBs then o.minBs else 0 := by
      by_cases hi : i < o.size % n / o.minBs
      · rw [if_pos (by simp [h0, hi]), if_pos hi, w_small (by omega)]
      · rw [if_neg (by simp [h0]; omega), if_neg hi]; omega
    rw [he] at h
    have hx : (if i < o.size % n / o.minBs then o.minBs else 0) ≤ o.minBs := by split <;> omega
    generalize (if i < o.size % n / o.minBs then o.minBs else 0) = x at *
    generalize o.size / n = q at *
    split at h
    · rename_i hz
      rw [if_pos hz]
      split at h
      · cases h
      · injection h with h; omega
    · rename_i hz
      rw [if_neg hz]
      injection h with h; omega
  · have hin := hin h0
    rw [if_neg h0] at h ⊢
    by_cases hr2 : o.fileLow ≤ f.real ∧ f.real ≤ o.fileHigh
    · rw [if_neg (by omega)] at h
      rw [if_pos hr2] at hin ⊢
      injection h with h
      rw [sub_small hin (by omega)] at h
      omega
    · rw [if_pos (by omega)] at h
      rw [if_neg hr2] at hin ⊢
      split at h
      · cases h
      · rename_i hof
        split at h
        · rename_i heq
          rw [if_pos heq]
          injection h with h; omega
        · rename_i heq
          rw [if_neg heq] at hin ⊢
          injection h with h
          have := randSize_range ht
          rw [sub_small (by omega) (by omega)] at h
          omega

/-- The size after percentages. -/
theorem pctSize_ok {o : Opts} {off b : Nat} (hbs : 0 < o.minBs) (hp : o.sizePct ≤ 100) (h : off + b < 2 ^ 57) :
    WantSize o off b (pctSize o b off) ∧ pctSize o b off ≤ b := by
  unfold WantSize pctSize
  split
  · dsimp only
    rw [w_small (x := b + off) (by omega), sub_small (by omega) (by omega), Nat.add_sub_cancel]
    have h1 : (b + off) * o.sizePct ≤ (b + off) * 100 := Nat.mul_le_mul_left _ hp
    rw [w_small (by omega), Nat.mul_comm (b + off), Nat.add_comm b off]
    have he : (if o.sizePct * (off + b) / 100 > b then b else o.sizePct * (off + b) / 100)
        = min (o.sizePct * (off + b) / 100) b := by split <;> omega
    rw [he]
    have := roundDown o.minBs (min (o.sizePct * (off + b) / 100) b) hbs
    refine ⟨this, ?_⟩
    have := this.2.1
    omega
  · exact ⟨rfl, Nat.le_refl _⟩

/-- What the loop does to file `i`. -/
theorem loop_get {o : Opts} {sz : Nat} : ∀ {fs : List File} {e t : Nat} {gs : List Out} {t' : Nat},
    loop o sz e t fs = .ok (gs, t') → gs.length = fs.length ∧ ∀ i f g, fs[i]? = some f → gs[i]? = some g →
      fileSetup o sz (decide (if o.fileLow = 0 then i < e else e ≠ 0)) f = .ok g
  | [], e, t, gs, t', h => by
    simp only [loop, Res.ok.injEq, Prod.mk.injEq] at h
    obtain ⟨rfl, _⟩ := h
    exact ⟨rfl, fun i f g h => by simp at h⟩
  | f :: r, e, t, gs, t', h => by
    unfold loop at h
    split at h
    · cases h
    · cases h
    · rename_i g hg
      dsimp only at h
      split at h
      · cases h
      · cases h
      · rename_i gs' t2 hrec
        injection h with h
        obtain ⟨rfl, _⟩ := Prod.mk.inj h
        obtain ⟨hlen, ih⟩ := loop_get hrec
        refine ⟨by simp [hlen], ?_⟩
        intro i f' g' hf hg'
        cases i with
        | zero =>
          simp only [List.getElem?_cons_zero, Option.some.injEq] at hf hg'
          subst hf; subst hg'
          rw [← hg]; congr 1
          apply decide_eq_decide.2
          split <;> omega
        | succ i =>
          simp only [List.getElem?_cons_succ] at hf hg'
          rw [← ih i f' g' hf hg']; congr 1
          apply decide_eq_decide.2
          by_cases h0 : o.fileLow = 0
          · simp only [h0, if_true]; omega
          · simp only [h0, if_false]

theorem perFile_eq {o : Opts} {n : Nat} (hn : n ≠ 0) : perFile o n =
    (if o.fileLow = 0 then o.size / n else 0, if o.fileLow = 0 then o.size % n / o.minBs else 0) := by
  unfold perFile
  by_cases h0 : o.fileLow = 0
  · rw [if_pos ⟨h0, hn⟩, if_pos h0, if_pos h0]
    dsimp only
    have := Nat.div_add_mod o.size n
    rw [Nat.mul_comm (o.size / n) n]
    generalize n * (o.size / n) = q at *
    congr 1
    split
    · congr 1; omega
    · have : o.size % n = 0 := by omega
      rw [this, Nat.zero_div]
  · rw [if_neg (by omega), if_neg h0, if_neg h0]

/-- One file: what it gets is what the options ask for. -/
theorem fileSetup_ok {o : Opts} {f : File} {n i : Nat} {g : Out} (ht : Tame o f)
    (h : fileSetup o (if o.fileLow = 0 then o.size / n else 0) (decide (o.fileLow = 0 ∧ i < o.size % n / o.minBs)) f
      = .ok g) :
    ∃ b, WantOffset o f g.off ∧ WantBase o n i f g.off b ∧ WantSize o g.off b g.io ∧ g.io ≤ b ∧ g.off + b < 2 ^ 57 ∧
      g.part = some (totalPart o g.io) ∧
      (extended g).off = g.off ∧ (extended g).io = g.io ∧
      (f.regular = true → o.diskless = false → (extended g).real = max f.real (g.off + g.io)) ∧
      (f.regular = false → (extended g).real = f.real) := by
  obtain ⟨off, ho, hw, hlt⟩ := startOffset_eq ht
  unfold fileSetup at h
  rw [ho] at h
  dsimp only at h
  split at h
  · cases h
  · cases h
  · rename_i b hb
    obtain ⟨hbase, hsum⟩ := baseSize_ok ht hw hlt hb
    obtain ⟨hsz, hle⟩ := pctSize_ok ht.bs.1 ht.pct.1 hsum
    have hu : b ≠ unknown := by unfold unknown; omega
    rw [if_neg hu, if_neg hu, w_small (by omega)] at h
    have key : ∀ (r : Nat) (e : Bool), g = ⟨off, pctSize o b off, r, e, some (totalPart o (pctSize o b off))⟩ →
        (f.regular = true → o.diskless = false → (extended g).real = max f.real (g.off + g.io)) →
        (f.regular = false → (extended g).real = f.real) →
        ∃ b, WantOffset o f g.off ∧ WantBase o n i f g.off b ∧ WantSize o g.off b g.io ∧ g.io ≤ b ∧
          g.off + b < 2 ^ 57 ∧
          g.part = some (totalPart o g.io) ∧ (extended g).off = g.off ∧ (extended g).io = g.io ∧
          (f.regular = true → o.diskless = false → (extended g).real = max f.real (g.off + g.io)) ∧
          (f.regular = false → (extended g).real = f.real) := by
      rintro r e rfl h1 h2
      refine ⟨b, hw, hbase, hsz, hle, hsum, rfl, ?_, ?_, h1, h2⟩ <;> unfold extended <;> split <;> rfl
    split at h
    · rename_i hreg
      split at h
      · injection h with h
        refine key _ _ h.symm ?_ (fun h => by simp [hreg.1] at h)
        intro _ _; subst h
        unfold extended
        rw [if_pos rfl]
        dsimp only
        rw [w_small (by omega)]; omega
      · split at h
        · injection h with h
          refine key _ _ h.symm ?_ (fun h => by simp [hreg.1] at h)
          intro _ _; subst h
          unfold extended
          rw [if_neg (by simp)]
          dsimp only
          omega
        · injection h with h
          refine key _ _ h.symm ?_ (fun h => by simp [hreg.1] at h)
          rename_i hd
          intro _ hdd; exact absurd (Or.inl hdd) hd
    · rename_i hreg
      injection h with h
      refine key _ _ h.symm ?_ ?_
      · intro hr _; subst h
        unfold extended
        rw [if_neg (by simp)]
        have : ¬ (pctSize o b off + off > f.real) := fun h => hreg ⟨hr, h⟩
        dsimp only
        omega
      · intro _; subst h
        unfold extended
        rw [if_neg (by simp)]

end Fio.Setup
