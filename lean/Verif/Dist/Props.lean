import Verif.Dist.Model
/-
C10: skewed distributions stay inside the block range; when gauss_next terminates.
-/
namespace Fio.Dist
open Fio.Rand

/-- **C10, zipf and pareto:** the block is below nranges whatever the floating point code computed. -/
theorem C10_zipf_pareto (nranges randOff : Nat) (disableHash : Bool) (val : Nat) (hn : 1 ≤ nranges) :
    zipfFinish nranges randOff disableHash val < nranges ∧
    paretoFinish nranges randOff disableHash val < nranges :=
  ⟨Nat.mod_lt _ hn, Nat.mod_lt _ hn⟩

/-- Without hashing and offset the block is the rank the floating point code chose: rank `v` (from 1)
becomes block `v - 1`; the offset rotates the block range. -/
theorem C10_zipf_rank (nranges randOff v : Nat) (hv : 1 ≤ v) (hvn : v ≤ nranges)
    (h64 : v - 1 + randOff < 2 ^ 64) :
    zipfFinish nranges 0 true v = v - 1 ∧
    zipfFinish nranges randOff true v = (v - 1 + randOff) % nranges := by
  have h1 : (v + (2 ^ 64 - 1)) % 2 ^ 64 = v - 1 := by omega
  unfold zipfFinish
  simp only [if_true, h1]
  rw [Nat.mod_eq_of_lt h64, Nat.add_zero, Nat.mod_eq_of_lt (a := v - 1) (b := 2 ^ 64) (by omega),
    Nat.mod_eq_of_lt (by omega)]
  exact ⟨rfl, rfl⟩

/-- The hash is a bijection of the 64-bit numbers: hashing only permutes the ranks. -/
theorem hashU64_injective {a b : Nat} (ha : a < 2 ^ 64) (hb : b < 2 ^ 64) (h : hashU64 a = hashU64 b) :
    a = b := by
  have inv : ∀ x, x < 2 ^ 64 → hashU64 x * 0xe217c1e66c88cc3 % 2 ^ 64 = x := by
    intro x hx
    unfold hashU64
    omega
  rw [← inv a ha, ← inv b hb, h]

theorem gaussSum_le (n : Nat) (hn : n + 1 < 2 ^ 64) : ∀ (k sum : Nat) (t : Taus88),
    sum + k * n < 2 ^ 64 → (gaussSum n k sum t).1 ≤ sum + k * n
  | 0, sum, t, _ => by simp [gaussSum]
  | k + 1, sum, t, h => by
    rw [Nat.add_mul] at h
    have hv : (rand32 t).1.toNat % (n + 1) ≤ n := by
      have := Nat.mod_lt (rand32 t).1.toNat (show 0 < n + 1 by omega)
      omega
    unfold gaussSum
    simp only [Nat.mod_eq_of_lt hn]
    generalize (rand32 t).1.toNat % (n + 1) = v at hv
    rw [Nat.mod_eq_of_lt (by omega)]
    have := gaussSum_le n hn k (sum + v) (rand32 t).2 (by omega)
    rw [Nat.add_mul]; omega

/-- The draws are 32-bit, so the sum of twelve never wraps. -/
theorem gaussSum_lt : ∀ (k n sum : Nat) (t : Taus88), n + 1 < 2 ^ 64 →
    sum + k * 2 ^ 32 < 2 ^ 64 → (gaussSum n k sum t).1 ≤ sum + k * min n (2 ^ 32)
  | 0, n, sum, t, _, _ => by simp [gaussSum]
  | k + 1, n, sum, t, hn, h => by
    rw [Nat.add_mul] at h
    have hv1 := (rand32 t).1.isLt
    have hv : (rand32 t).1.toNat % (n + 1) ≤ n := by
      have := Nat.mod_lt (rand32 t).1.toNat (show 0 < n + 1 by omega)
      omega
    have hv2 : (rand32 t).1.toNat % (n + 1) ≤ (rand32 t).1.toNat := Nat.mod_le _ _
    unfold gaussSum
    simp only [Nat.mod_eq_of_lt hn]
    generalize (rand32 t).1.toNat % (n + 1) = v at hv hv2
    rw [Nat.mod_eq_of_lt (by omega)]
    have := gaussSum_lt k n (sum + v) (rand32 t).2 hn (by omega)
    rw [Nat.add_mul]; omega

/-- The average of the draws used as the centre: rounded up. -/
def centre (g : Gauss) : Nat := ((gaussSum g.nranges 12 0 g.r).1 + 12 - 1) / 12

theorem centre_le (g : Gauss) (hn : g.nranges + 1 < 2 ^ 64) : centre g ≤ g.nranges := by
  have h := gaussSum_lt 12 g.nranges 0 g.r hn (by omega)
  unfold centre
  omega

/-- The deviation drawn. -/
def deviation (g : Gauss) : Option Int := (gaussDev g.stddev (gaussSum g.nranges 12 0 g.r).2).1

theorem deviation_spec (g : Gauss) (hs : g.stddev ≤ 2 ^ 31) :
    ∃ d : Int, deviation g = some d ∧ -(g.stddev / 2 : Nat) ≤ d ∧ d ≤ g.stddev := by
  unfold deviation gaussDev
  split
  · exact ⟨0, rfl, by omega, by omega⟩
  · rename_i h0
    generalize (gaussSum g.nranges 12 0 g.r).2 = t
    have hlt := scale32_lt (n := g.stddev) (r := (rand32 t).1.toNat) (by omega) (by omega) (rand32 t).1.isLt
    simp only [scaleInt32]
    generalize round53 (g.stddev * (rand32 t).1.toNat) / 2 ^ 32 = v at hlt
    rw [if_pos (by omega)]
    refine ⟨_, rfl, ?_, ?_⟩ <;> · simp only [toInt32]; split <;> omega

theorem toU64_of_nonneg {i : Int} (h0 : 0 ≤ i) (h : i < 2 ^ 64) : (toU64 i : Int) = i := by
  unfold toU64; omega

theorem toU64_of_neg {i : Int} (h0 : i < 0) (h : -2 ^ 63 ≤ i) : (2 ^ 63 : Nat) ≤ toU64 i := by
  unfold toU64; omega

/-- The loop ends with a deviation that keeps the sum inside. -/
theorem loop_some (n sum : Nat) : ∀ (fuel : Nat) (dev dev' : Int),
    gaussLoop n sum fuel dev = some dev' → toU64 (dev' + sum) < n
  | 0, _, _, h => by simp [gaussLoop] at h
  | fuel + 1, dev, dev', h => by
    unfold gaussLoop at h
    split at h
    · exact loop_some n sum fuel _ _ h
    · simp only [Option.some.injEq] at h
      subst h; omega

/-- More fuel does not change a result. -/
theorem loop_mono (n sum : Nat) : ∀ (fuel : Nat) (dev dev' : Int),
    gaussLoop n sum fuel dev = some dev' → ∀ k, gaussLoop n sum (fuel + k) dev = some dev'
  | 0, _, _, h => by simp [gaussLoop] at h
  | fuel + 1, dev, dev', h => by
    intro k
    rw [show fuel + 1 + k = (fuel + k) + 1 by omega]
    unfold gaussLoop at h ⊢
    split at h
    · rename_i hc; rw [if_pos hc]; exact loop_mono n sum fuel _ _ h k
    · rename_i hc; rw [if_neg hc]; exact h

/-- If the centre is below nranges the loop ends, after at most one test per bit of the deviation. -/
theorem loop_terminates (n sum : Nat) (hn : n < 2 ^ 63) (hs : sum < n) : ∀ (k : Nat) (dev : Int),
    dev.natAbs < 2 ^ k → k ≤ 31 → ∃ dev', gaussLoop n sum (k + 1) dev = some dev'
  | 0, dev, h, _ => by
    have : dev = 0 := by omega
    subst this
    unfold gaussLoop
    rw [if_neg]
    · exact ⟨_, rfl⟩
    · have := toU64_of_nonneg (i := 0 + (sum : Int)) (by omega) (by omega)
      omega
  | k + 1, dev, h, hk => by
    unfold gaussLoop
    split
    · apply loop_terminates n sum hn hs k (dev.tdiv 2) _ (by omega)
      rw [Nat.pow_succ] at h
      rw [Int.natAbs_tdiv]
      show dev.natAbs / 2 < 2 ^ k
      omega
    · exact ⟨_, rfl⟩

/-- If the centre is nranges and the deviation is not negative the loop never ends. -/
theorem loop_forever (n : Nat) (hn : n < 2 ^ 63) : ∀ (fuel : Nat) (dev : Int), 0 ≤ dev → dev < 2 ^ 32 →
    gaussLoop n n fuel dev = none
  | 0, _, _, _ => rfl
  | fuel + 1, dev, h, h' => by
    unfold gaussLoop
    have := toU64_of_nonneg (i := dev + (n : Int)) (by omega) (by omega)
    rw [if_pos (by omega)]
    apply loop_forever n hn fuel
    · exact Int.tdiv_nonneg h (by omega)
    · have : dev.tdiv 2 ≤ dev := Int.tdiv_le_self 2 h
      omega

/-- **C10, gauss_next.**  Any block delivered is below nranges; and a block is delivered unless the
deviation is in use, the centre is nranges itself and the deviation drawn is not negative, in which
case the code loops forever.  (`nranges` below 2^63, `stddev` at most 2^31 and half of nranges as
gauss_init arranges.) -/
theorem C10_gauss_partial (g : Gauss) (hn1 : 1 ≤ g.nranges) (hn : g.nranges < 2 ^ 63)
    (hs : g.stddev ≤ 2 ^ 31) (hs2 : g.stddev ≤ g.nranges / 2) :
    (∀ fuel v g', gaussNext fuel g = some (v, g') → v < g.nranges) ∧
    ((∃ fuel v g', gaussNext fuel g = some (v, g')) ↔
      ¬ (g.stddev ≠ 0 ∧ centre g = g.nranges ∧ ∃ d : Int, deviation g = some d ∧ 0 ≤ d)) := by
  have hc := centre_le g (by omega)
  obtain ⟨d, hd, hd1, hd2⟩ := deviation_spec g hs
  have hunf : ∀ fuel, gaussNext fuel g =
      if g.stddev ≠ 0 then
        match gaussLoop g.nranges (centre g) fuel d with
        | none => none
        | some dev => some ((((if g.disableHash then toU64 (dev + centre g) else hashU64 (toU64 (dev + centre g)))
            + g.randOff) % 2 ^ 64) % g.nranges, { g with r := (gaussDev g.stddev (gaussSum g.nranges 12 0 g.r).2).2 })
      else some ((((if g.disableHash then centre g else hashU64 (centre g)) + g.randOff) % 2 ^ 64) % g.nranges,
        { g with r := (gaussSum g.nranges 12 0 g.r).2 }) := by
    intro fuel
    unfold gaussNext
    unfold deviation at hd
    unfold centre
    simp only
    split
    · generalize gaussDev g.stddev (gaussSum g.nranges 12 0 g.r).2 = x at hd
      obtain ⟨x1, x2⟩ := x
      simp only at hd
      subst hd
      rfl
    · rfl
  refine ⟨?_, ?_, ?_⟩
  · intro fuel v g' h
    rw [hunf] at h
    split at h
    · split at h
      · cases h
      · simp only [Option.some.injEq, Prod.mk.injEq] at h
        rw [← h.1]; exact Nat.mod_lt _ hn1
    · simp only [Option.some.injEq, Prod.mk.injEq] at h
      rw [← h.1]; exact Nat.mod_lt _ hn1
  · rintro ⟨fuel, v, g', h⟩ ⟨h0, hcn, d', hd', hpos⟩
    rw [hd] at hd'
    simp only [Option.some.injEq] at hd'
    subst hd'
    rw [hunf, if_pos h0, hcn, loop_forever g.nranges hn fuel d hpos (by omega)] at h
    cases h
  · intro hno
    by_cases h0 : g.stddev ≠ 0
    · have hterm : ∃ fuel dev', gaussLoop g.nranges (centre g) fuel d = some dev' := by
        by_cases hcn : centre g = g.nranges
        · have hneg : d < 0 := by
            apply Classical.byContradiction
            intro hge
            exact hno ⟨h0, hcn, d, hd, by omega⟩
          refine ⟨1, d, ?_⟩
          unfold gaussLoop
          rw [if_neg]
          have := toU64_of_nonneg (i := d + (centre g : Int)) (by omega) (by omega)
          omega
        · by_cases h31 : d.natAbs < 2 ^ 31
          · obtain ⟨dev', h⟩ := loop_terminates g.nranges (centre g) hn (by omega) 31 d h31 (by omega)
            exact ⟨_, _, h⟩
          · -- d = 2^31 is impossible for an int, but one more halving settles it
            by_cases hcond : g.nranges ≤ toU64 (d + centre g)
            · obtain ⟨dev', h⟩ := loop_terminates g.nranges (centre g) hn (by omega) 31 (d.tdiv 2)
                (by rw [Int.natAbs_tdiv]; show d.natAbs / 2 < 2 ^ 31; omega) (by omega)
              refine ⟨33, dev', ?_⟩
              unfold gaussLoop
              rw [if_pos hcond]; exact h
            · exact ⟨1, d, by unfold gaussLoop; rw [if_neg hcond]⟩
      obtain ⟨fuel, dev', h⟩ := hterm
      have h' := hunf fuel
      rw [if_pos h0, h] at h'
      exact ⟨fuel, _, _, h'⟩
    · have h' := hunf 0
      rw [if_neg h0] at h'
      exact ⟨0, _, _, h'⟩

/-- Without hashing and offset the block delivered is the centre plus the halved deviation, itself
inside the range: no wrap-around and no reduction takes place. -/
theorem C10_gauss_value (g : Gauss) (hn1 : 1 ≤ g.nranges) (hn : g.nranges < 2 ^ 63)
    (hs : g.stddev ≤ 2 ^ 31) (hh : g.disableHash = true) (ho : g.randOff = 0) (h0 : g.stddev ≠ 0)
    (fuel v : Nat) (g' : Gauss) (h : gaussNext fuel g = some (v, g')) :
    ∃ dev : Int, (v : Int) = centre g + dev ∧ gaussLoop g.nranges (centre g) fuel
      ((deviation g).getD 0) = some dev := by
  have hc := centre_le g (by omega)
  obtain ⟨d, hd, hd1, hd2⟩ := deviation_spec g hs
  have hd0 := hd
  unfold gaussNext at h
  unfold deviation at hd
  simp only [if_pos h0] at h
  generalize gaussDev g.stddev (gaussSum g.nranges 12 0 g.r).2 = x at hd h
  obtain ⟨x1, x2⟩ := x
  simp only at hd
  subst hd
  simp only at h
  rw [hd0]
  have hce : ((gaussSum g.nranges 12 0 g.r).1 + 12 - 1) / 12 = centre g := rfl
  rw [hce] at h
  cases hl : gaussLoop g.nranges (centre g) fuel d with
  | none => rw [hl] at h; cases h
  | some dev =>
    rw [hl] at h
    simp only [hh, if_true, ho, Nat.add_zero, Option.some.injEq, Prod.mk.injEq] at h
    refine ⟨dev, ?_, hl⟩
    have hlt := loop_some _ _ _ _ _ hl
    rw [← h.1, Nat.mod_eq_of_lt (by omega : toU64 (dev + centre g) < 2 ^ 64), Nat.mod_eq_of_lt hlt]
    -- the halved deviation is no larger than the drawn one
    have hb : ∀ (fuel : Nat) (a b : Int), -2 ^ 32 ≤ a → a ≤ 2 ^ 32 →
        gaussLoop g.nranges (centre g) fuel a = some b → -2 ^ 32 ≤ b ∧ b ≤ 2 ^ 32 := by
      intro fuel
      induction fuel with
      | zero => intro a b _ _ h; simp [gaussLoop] at h
      | succ k ih =>
        intro a b h1 h2 h
        unfold gaussLoop at h
        split at h
        · have ht : (a.tdiv 2).natAbs ≤ a.natAbs := by
            rw [Int.natAbs_tdiv]; exact Nat.div_le_self _ _
          refine ih _ _ ?_ ?_ h <;> omega
        · simp only [Option.some.injEq] at h; subst h; exact ⟨h1, h2⟩
    obtain ⟨b1, b2⟩ := hb _ _ _ (by omega) (by omega) hl
    unfold toU64 at hlt ⊢
    omega

/-- **C10 fails for gauss_next:** on a file of two blocks with deviation 1, seeded as gauss_init does
with seed 2, the first call never returns. -/
theorem C10_gauss_hang (fuel : Nat) : gaussNext fuel (gaussInit 2 1 0 2#32) = none := by
  cases h : gaussNext fuel (gaussInit 2 1 0 2#32) with
  | none => rfl
  | some x =>
    exfalso
    have := (C10_gauss_partial (gaussInit 2 1 0 2#32) (by decide) (by decide) (by decide) (by decide)).2.1
      ⟨fuel, x.1, x.2, h⟩
    exact this ⟨by decide, by decide +kernel, 0, by decide +kernel, by decide⟩

/-- Ordinary parameters meet the hypotheses and deliver a block. -/
example : (gaussInit 1000 20 0 1#32).stddev = 20 ∧ (gaussInit 1000 20 0 1#32).stddev ≤ 1000 / 2 ∧
    (gaussNext 40 (gaussInit 1000 20 0 1#32)).map (·.1) = some 798 := by decide +kernel
example : zipfFinish 1000 17 false 5 = 925 ∧ zipfFinish 1000 17 true 5 = 21 := by decide +kernel

end Fio.Dist
