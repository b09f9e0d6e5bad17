import Verif.Clock.Lemmas
import Verif.Clock.Sleep
/-
C40: the CPU clock as a clock.
-/
namespace Fio.Clock

/-- **C40, calibration.**  For every clock rate up to 900 THz the calibration succeeds: no division
by zero, no shift out of range. -/
theorem C40_calibrates {c : Nat} (hc : 0 < c) (hc' : c ≤ 900000000000) (start : Nat) :
    ∃ cal, calibrate c start = some cal := by
  obtain ⟨cal, h, _⟩ := calibrate_good hc hc' start
  exact ⟨cal, h⟩

/-- **C40, durations.**  Whatever the counter was at the calibration, and however often it has
wrapped since, the nanoseconds between two readings taken `d` and `d + e` cycles after it are a fair
measure of `e` cycles.  In particular time never goes backwards and there is no jump when the
cycles pass a multiple of 2^max_cycles_shift. -/
theorem C40_duration {c start d e : Nat} {cal : Cal} (hcal : calibrate c start = some cal)
    (hc : 0 < c) (hc' : c ≤ 900000000000) (hs : start < 2 ^ 64) (hd : d + e < 2 ^ 64)
    (hns : (d + e) * 1000000 < 2 ^ 62 * c) :
    ∃ n, ntimeSince (cpuTime cal ((start + d) % 2 ^ 64)) (cpuTime cal ((start + (d + e)) % 2 ^ 64)) =
        some n ∧ Fair c e n ∧
      (cpuTime cal ((start + d) % 2 ^ 64)).ns + n = (cpuTime cal ((start + (d + e)) % 2 ^ 64)).ns := by
  obtain ⟨cal', h', g⟩ := calibrate_good hc hc' start
  rw [hcal] at h'
  cases h'
  have hns2 : (d + e) * 1000000 < 2 ^ 64 * c :=
    Nat.lt_of_lt_of_le hns (Nat.mul_le_mul_right c (by decide))
  have hns1 : d * 1000000 < 2 ^ 64 * c :=
    Nat.lt_of_le_of_lt (Nat.mul_le_mul_right _ (Nat.le_add_right d e)) hns2
  rw [cpuTime_eq g hs (by omega) hns1, cpuTime_eq g hs hd hns2]
  have hfair := fair_of_conv g.hmult1 g.hmult2 hc g.hp2 d e
  have hstep := (conv_step (m := cal.clockMult) (Nat.two_pow_pos cal.maxCyclesShift) d e).1
  have hub : conv (2 ^ cal.maxCyclesShift) cal.clockMult (d + e) < 2 ^ 62 := by
    have h1 := conv_le (2 ^ cal.maxCyclesShift) cal.clockMult (d + e)
    have h2 : conv (2 ^ cal.maxCyclesShift) cal.clockMult (d + e) * 4194304 * c ≤
        (d + e) * cal.clockMult * c := Nat.mul_le_mul_right _ h1
    have h3 : (d + e) * (cal.clockMult * c) ≤ (d + e) * (4194304 * 1000000) :=
      Nat.mul_le_mul_left _ g.hmult1
    by_contra hn
    have h4 : 2 ^ 62 * (4194304 * c) ≤
        conv (2 ^ cal.maxCyclesShift) cal.clockMult (d + e) * (4194304 * c) :=
      Nat.mul_le_mul_right _ (by omega)
    nlinarith
  generalize conv (2 ^ cal.maxCyclesShift) cal.clockMult (d + e) = y at *
  generalize conv (2 ^ cal.maxCyclesShift) cal.clockMult d = x at *
  refine ⟨y - x, ?_, hfair, ?_⟩
  · have hr := C41_ntime (s := { sec := (x / 1000000000 : Nat), nsec := (x % 1000000000 : Nat) })
      (e := { sec := (y / 1000000000 : Nat), nsec := (y % 1000000000 : Nat) })
      ⟨by simp only; omega, by simp only; omega⟩ ⟨by simp only; omega, by simp only; omega⟩
      ⟨by simp only; omega, by simp only; omega, by simp only; omega, by simp only; omega,
        by simp only; omega, by simp only; omega⟩
    rw [hr]
    simp only [TS.ns]
    congr 1
    omega
  · simp only [TS.ns]
    omega

/-- The hypotheses of `C40_duration` are met by a 3 GHz clock whose counter is about to wrap, and a
pair of readings an hour apart that starts 70 minutes later. -/
example : ∃ cal, calibrate 3000000 (2 ^ 64 - 5) = some cal ∧
    cal.clockShift = 22 ∧ cal.clockMult = 1398101 ∧
    (12600000000000 + 10800000000000) * 1000000 < 2 ^ 62 * 3000000 ∧
    ntimeSince (cpuTime cal ((2 ^ 64 - 5 + 12600000000000) % 2 ^ 64))
      (cpuTime cal ((2 ^ 64 - 5 + (12600000000000 + 10800000000000)) % 2 ^ 64)) =
      some 3599999141694 := by
  refine ⟨{ cyclesStart := 2 ^ 64 - 5, clockMult := 1398101, maxCyclesMask := 2 ^ 43 - 1,
            nsecsForMaxCycles := 2932030308352, clockShift := 22, maxCyclesShift := 43 }, ?_⟩
  decide +kernel

/-- **C40, monotone.**  A later reading never gives an earlier time. -/
theorem C40_monotone {c start d e : Nat} {cal : Cal} (hcal : calibrate c start = some cal)
    (hc : 0 < c) (hc' : c ≤ 900000000000) (hs : start < 2 ^ 64) (hd : d + e < 2 ^ 64)
    (hns : (d + e) * 1000000 < 2 ^ 62 * c) :
    (cpuTime cal ((start + d) % 2 ^ 64)).ns ≤ (cpuTime cal ((start + (d + e)) % 2 ^ 64)).ns := by
  obtain ⟨n, _, _, h⟩ := C40_duration hcal hc hc' hs hd hns
  omega

/-- **C40, starts at zero.**  Right after the calibration the clock reads 0. -/
theorem C40_zero {c start : Nat} {cal : Cal} (hcal : calibrate c start = some cal)
    (hs : start < 2 ^ 64) : cpuTime cal start = { sec := 0, nsec := 0 } := by
  have h1 : cal.cyclesStart = start := by
    unfold calibrate at hcal
    simp only at hcal
    split at hcal
    · cases hcal
    · split at hcal
      · cases hcal
      · split at hcal
        · cases hcal
        · split at hcal
          · cases hcal
          · cases hcal; rfl
  have h2 : u64 (start + (2 ^ 64 - cal.cyclesStart)) = 0 := by rw [h1]; unfold u64; omega
  unfold cpuTime
  simp only [h2]
  simp [u64]

/-- **C40, the rate.**  The rate of one round of the calibration is the cycles per millisecond,
rounded down, if the cycles counted between the two readings are fewer than 2^64 / 10^6. -/
theorem C40_rate {cs d elapsed : Nat} (hcs : cs < 2 ^ 64) (hd : d * 1000000 < 2 ^ 64)
    (he : 0 < elapsed) :
    cyclesPerMsec cs ((cs + d) % 2 ^ 64) elapsed = some (d * 1000000 / elapsed) := by
  unfold cyclesPerMsec
  rw [if_neg (by omega)]
  have h1 : u64 ((cs + d) % 2 ^ 64 + (2 ^ 64 - cs)) = d := by unfold u64; omega
  rw [h1]
  have h2 : u64 (d * 1000000) = d * 1000000 := Nat.mod_eq_of_lt hd
  rw [h2]

example : cyclesPerMsec (2 ^ 64 - 100) 3839900 1280000 = some 3000000 := by decide +kernel

/-- **C41, the part that fails.**  utime_since can report more time than has passed: 999999999 ns
give a full second, so a job can be told that its time is over (and a check in milliseconds that it
is not). -/
theorem C41_utime_counterexample :
    utimeSince ⟨0, 1⟩ ⟨1, 0⟩ = some 1000000 ∧ ntimeSince ⟨0, 1⟩ ⟨1, 0⟩ = some 999999999 ∧
    mtimeSince ⟨0, 1⟩ ⟨1, 0⟩ = some 999 := by decide +kernel

/-- **C41, utime_since never goes backwards** although it rounds both ways. -/
theorem C41_utime_mono {s e e' : TS} (hs : s.Norm) (he : e.Norm) (he' : e'.Norm) (hn : Near s e)
    (hn' : Near s e') (hle : e.ns ≤ e'.ns) {u u' : Nat} (hu : utimeSince s e = some u)
    (hu' : utimeSince s e' = some u') : u ≤ u' := by
  by_cases h : s.ns ≤ e.ns
  · obtain ⟨x, e1, a1, a2⟩ := C41_utime hs he hn h
    obtain ⟨x', e1', a1', a2'⟩ := C41_utime hs he' hn' (by omega)
    rw [hu] at e1; rw [hu'] at e1'
    cases e1; cases e1'
    obtain ⟨k1, k2⟩ := hs
    obtain ⟨k3, k4⟩ := he
    obtain ⟨k5, k6⟩ := he'
    simp only [TS.ns] at *
    omega
  · rw [C41_utime_back hs he hn (by omega)] at hu
    cases hu
    omega

example : Near ⟨5, 999999999⟩ ⟨7, 3⟩ ∧ (⟨5, 999999999⟩ : TS).Norm ∧ (⟨7, 3⟩ : TS).Norm ∧
    ntimeSince ⟨5, 999999999⟩ ⟨7, 3⟩ = some 1000000004 ∧
    utimeSince ⟨5, 999999999⟩ ⟨7, 3⟩ = some 1000001 ∧
    mtimeSince ⟨5, 999999999⟩ ⟨7, 3⟩ = some 1000 ∧
    relTimeSince ⟨7, 3⟩ ⟨5, 999999999⟩ = some (-1001) ∧
    addMsec ⟨5, 999999999⟩ 4321 = some ⟨10, 320999999⟩ := by
  refine ⟨?_, ?_, ?_, ?_⟩
  · simp only [Near]; omega
  · simp only [TS.Norm]; omega
  · simp only [TS.Norm]; omega
  · decide +kernel

end Fio.Clock
