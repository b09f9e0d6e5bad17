import Verif.Clock.Spec
/-
C41: elapsed times, sleeping and interval timers.
-/
namespace Fio.Clock

theorem chk_some {x : Int} (h1 : -2 ^ 63 ≤ x) (h2 : x < 2 ^ 63) : chk x = some x := by
  unfold chk; rw [if_pos ⟨h1, h2⟩]

theorem toU64_nonneg {x : Int} (h1 : 0 ≤ x) (h2 : x < 2 ^ 64) : toU64 x = x.toNat := by
  unfold toU64; rw [Int.emod_eq_of_lt h1 h2]

/-- **C41, nanoseconds.**  ntime_since gives exactly the nanoseconds from one instant to the other,
and 0 when the second is before the first. -/
theorem C41_ntime {s e : TS} (hs : s.Norm) (he : e.Norm) (hn : Near s e) :
    ntimeSince s e = some (e.ns - s.ns).toNat := by
  obtain ⟨s1, s2⟩ := hs
  obtain ⟨e1, e2⟩ := he
  obtain ⟨n1, n2, n3, n4, n5, n6⟩ := hn
  unfold ntimeSince
  rw [chk_some (x := e.sec - s.sec) (by omega) (by omega),
    chk_some (x := e.nsec - s.nsec) (by omega) (by omega)]
  simp only [Option.bind_eq_bind, Option.bind_some, TS.ns]
  generalize hd : e.sec - s.sec = d at *
  generalize hm : e.nsec - s.nsec = m at *
  have hx : e.sec * 1000000000 + e.nsec - (s.sec * 1000000000 + s.nsec) =
      d * 1000000000 + m := by omega
  rw [hx]
  by_cases h1 : 0 < d ∧ m < 0
  · rw [if_pos h1]
    simp only
    rw [if_neg (by omega), chk_some (by omega) (by omega)]
    simp only [Option.bind_some]
    rw [chk_some (by omega) (by omega)]
    simp only [Option.bind_some]
    rw [toU64_nonneg (by omega) (by omega)]
    congr 1
    omega
  · rw [if_neg h1]
    simp only
    by_cases h2 : d < 0 ∨ (d = 0 ∧ m < 0)
    · rw [if_pos h2]
      congr 1
      omega
    · rw [if_neg h2, chk_some (by omega) (by omega)]
      simp only [Option.bind_some]
      rw [chk_some (by omega) (by omega)]
      simp only [Option.bind_some]
      rw [toU64_nonneg (by omega) (by omega)]
      congr 1
      omega

/-- **C41, microseconds.**  utime_since is off by less than a microsecond: it is the elapsed time
rounded down when the nanoseconds of the second instant are no smaller than those of the first, and
rounded up when they are smaller. -/
theorem C41_utime {s e : TS} (hs : s.Norm) (he : e.Norm) (hn : Near s e) (hle : s.ns ≤ e.ns) :
    ∃ u : Nat, utimeSince s e = some u ∧
      (s.nsec ≤ e.nsec → (u : Int) = (e.ns - s.ns) / 1000) ∧
      (e.nsec < s.nsec → (u : Int) = (e.ns - s.ns + 999) / 1000) := by
  obtain ⟨s1, s2⟩ := hs
  obtain ⟨e1, e2⟩ := he
  obtain ⟨n1, n2, n3, n4, n5, n6⟩ := hn
  unfold utimeSince
  rw [chk_some (x := e.sec - s.sec) (by omega) (by omega),
    chk_some (x := e.nsec - s.nsec) (by omega) (by omega)]
  simp only [Option.bind_eq_bind, Option.bind_some, TS.ns] at hle ⊢
  have hx : e.sec * 1000000000 + e.nsec - (s.sec * 1000000000 + s.nsec) =
      (e.sec - s.sec) * 1000000000 + (e.nsec - s.nsec) := by omega
  rw [hx]
  have hm1 : s.nsec ≤ e.nsec ↔ 0 ≤ e.nsec - s.nsec := by omega
  have hm2 : e.nsec < s.nsec ↔ e.nsec - s.nsec < 0 := by omega
  rw [hm1, hm2]
  have hle' : 0 ≤ (e.sec - s.sec) * 1000000000 + (e.nsec - s.nsec) := by omega
  have hb1 : -1000000000 < e.nsec - s.nsec := by omega
  have hb2 : e.nsec - s.nsec < 1000000000 := by omega
  clear hx hle
  generalize e.sec - s.sec = d at *
  generalize e.nsec - s.nsec = m at *
  have ht : m.tdiv 1000 = if 0 ≤ m then m / 1000 else (m + 999) / 1000 := by
    split
    · rw [Int.tdiv_eq_ediv_of_nonneg (by omega)]
    · have : m.tdiv 1000 = -((-m).tdiv 1000) := by rw [Int.neg_tdiv, Int.neg_neg]
      rw [this, Int.tdiv_eq_ediv_of_nonneg (by omega)]
      omega
  have hu : 0 ≤ m → m.tdiv 1000 = m / 1000 := fun h => by rw [ht, if_pos h]
  have hu' : m < 0 → m.tdiv 1000 = (m + 999) / 1000 := fun h => by rw [ht, if_neg (by omega)]
  clear ht
  generalize m.tdiv 1000 = u at *
  have hd0 : 0 ≤ d := by omega
  have hub : -1000000 < u ∧ u < 1000000 := by omega
  have hd1 : d = 0 → 0 ≤ m := by omega
  by_cases h1 : 0 < d ∧ u < 0
  · rw [if_pos h1]
    simp only
    rw [if_neg (by omega), chk_some (by omega) (by omega)]
    simp only [Option.bind_some]
    rw [chk_some (by omega) (by omega)]
    simp only [Option.bind_some]
    rw [toU64_nonneg (by omega) (by omega)]
    refine ⟨_, rfl, fun _ => by omega, fun _ => by omega⟩
  · rw [if_neg h1]
    simp only
    rw [if_neg (by omega), chk_some (by omega) (by omega)]
    simp only [Option.bind_some]
    rw [chk_some (by omega) (by omega)]
    simp only [Option.bind_some]
    rw [toU64_nonneg (by omega) (by omega)]
    refine ⟨_, rfl, fun _ => by omega, fun _ => by omega⟩

/-- **C41, microseconds, time going backwards.**  When the second instant is before the first,
utime_since is 0. -/
theorem C41_utime_back {s e : TS} (hs : s.Norm) (he : e.Norm) (hn : Near s e) (hle : e.ns ≤ s.ns) :
    utimeSince s e = some 0 := by
  obtain ⟨s1, s2⟩ := hs
  obtain ⟨e1, e2⟩ := he
  obtain ⟨n1, n2, n3, n4, n5, n6⟩ := hn
  unfold utimeSince
  rw [chk_some (x := e.sec - s.sec) (by omega) (by omega),
    chk_some (x := e.nsec - s.nsec) (by omega) (by omega)]
  simp only [Option.bind_eq_bind, Option.bind_some, TS.ns] at hle ⊢
  have hle' : (e.sec - s.sec) * 1000000000 + (e.nsec - s.nsec) ≤ 0 := by omega
  have hb1 : -1000000000 < e.nsec - s.nsec := by omega
  have hb2 : e.nsec - s.nsec < 1000000000 := by omega
  clear hle
  generalize e.sec - s.sec = d at *
  generalize e.nsec - s.nsec = m at *
  have hu : m ≤ 0 → m.tdiv 1000 ≤ 0 ∧ (-1000 < m → m.tdiv 1000 = 0) := by
    intro h
    have : m.tdiv 1000 = -((-m).tdiv 1000) := by rw [Int.neg_tdiv, Int.neg_neg]
    rw [this, Int.tdiv_eq_ediv_of_nonneg (by omega)]
    omega
  generalize m.tdiv 1000 = u at *
  have hd0 : d ≤ 0 := by omega
  have h1 : ¬(0 < d ∧ u < 0) := by omega
  rw [if_neg h1]
  simp only
  by_cases h2 : d < 0 ∨ (d = 0 ∧ u < 0)
  · rw [if_pos h2]
  · rw [if_neg h2]
    have : d = 0 := by omega
    subst this
    have : u = 0 := by omega
    subst this
    rfl

theorem wrap_ns {m : Int} (h1 : -1000000000 < m) (h2 : m < 0) :
    toI64 (u64 (toU64 m + 1000000000)) = m + 1000000000 := by
  unfold toI64 u64 toU64
  split <;> omega

theorem rel_fin {d m x : Int} (h : x = d * 1000000000 + m) (h1 : 0 ≤ m) (h2 : m < 1000000000)
    (h3 : -2 ^ 34 ≤ d) (h4 : d ≤ 2 ^ 34) :
    chk (d * 1000 + m / 1000000) = some (x / 1000000) := by
  have : x / 1000000 = d * 1000 + m / 1000000 := by omega
  rw [this]
  exact chk_some (by omega) (by omega)

/-- **C41, milliseconds.**  rel_time_since gives the signed difference rounded towards minus
infinity. -/
theorem C41_reltime {s e : TS} (hs : s.Norm) (he : e.Norm) (hn : Near s e) :
    relTimeSince s e = some ((e.ns - s.ns) / 1000000) := by
  obtain ⟨s1, s2⟩ := hs
  obtain ⟨e1, e2⟩ := he
  obtain ⟨n1, n2, n3, n4, n5, n6⟩ := hn
  unfold relTimeSince
  rw [chk_some (x := e.sec - s.sec) (by omega) (by omega),
    chk_some (x := e.nsec - s.nsec) (by omega) (by omega)]
  simp only [Option.bind_eq_bind, Option.bind_some, TS.ns]
  have hx : e.sec * 1000000000 + e.nsec - (s.sec * 1000000000 + s.nsec) =
      (e.sec - s.sec) * 1000000000 + (e.nsec - s.nsec) := by omega
  rw [hx]
  have hb1 : -1000000000 < e.nsec - s.nsec := by omega
  have hb2 : e.nsec - s.nsec < 1000000000 := by omega
  clear hx
  generalize e.sec - s.sec = d at *
  generalize e.nsec - s.nsec = m at *
  by_cases h1 : m < 0
  · have a1 : chk (d - 1) = some (d - 1) := chk_some (by omega) (by omega)
    have a2 : chk ((d - 1) * 1000) = some ((d - 1) * 1000) := chk_some (by omega) (by omega)
    have a3 : 0 ≤ m + 1000000000 ∧ m + 1000000000 < 1000000000 := by omega
    simp only [if_pos h1, a1, Option.bind_some, wrap_ns hb1 h1, if_pos a3, a2]
    rw [Int.tdiv_eq_ediv_of_nonneg a3.1]
    exact rel_fin (x := d * 1000000000 + m) (by omega) (by omega) (by omega) (by omega) (by omega)
  · have a2 : chk (d * 1000) = some (d * 1000) := chk_some (by omega) (by omega)
    have a3 : 0 ≤ m ∧ m < 1000000000 := by omega
    simp only [if_neg h1, Option.bind_some, if_pos a3, a2]
    rw [Int.tdiv_eq_ediv_of_nonneg a3.1]
    exact rel_fin (x := d * 1000000000 + m) (by omega) (by omega) (by omega) (by omega) (by omega)

/-- **C41, milliseconds and seconds.**  mtime_since and time_since round down. -/
theorem C41_mtime {s e : TS} (hs : s.Norm) (he : e.Norm) (hn : Near s e) :
    mtimeSince s e = some ((e.ns - s.ns).toNat / 1000000) ∧
    timeSince s e = some ((e.ns - s.ns).toNat / 1000000000) := by
  have h := C41_reltime hs he hn
  have hb : e.ns - s.ns < 2 ^ 64 * 1000000 := by
    obtain ⟨s1, s2⟩ := hs
    obtain ⟨e1, e2⟩ := he
    obtain ⟨n1, n2, n3, n4, n5, n6⟩ := hn
    unfold TS.ns; omega
  have h1 : mtimeSince s e = some ((e.ns - s.ns).toNat / 1000000) := by
    unfold mtimeSince
    rw [h]
    simp only [Option.bind_eq_bind, Option.bind_some]
    generalize e.ns - s.ns = x at *
    rw [toU64_nonneg (by omega) (by omega)]
    congr 1
    omega
  refine ⟨h1, ?_⟩
  unfold timeSince
  rw [h1]
  simp only [Option.bind_eq_bind, Option.bind_some]
  rw [Nat.div_div_eq_div_mul]

/-- **C41, adding.**  timespec_add_msec moves an instant by exactly that many milliseconds and keeps
it normal. -/
theorem C41_add {ts : TS} {msec : Nat} (hs : ts.Norm) (hsec : -2 ^ 62 ≤ ts.sec ∧ ts.sec ≤ 2 ^ 62)
    (hm : msec < 2 ^ 32) :
    ∃ r, addMsec ts msec = some r ∧ r.Norm ∧ r.ns = ts.ns + msec * 1000000 := by
  obtain ⟨s1, s2⟩ := hs
  have ha : u64 (1000000 * msec) = 1000000 * msec := by unfold u64; omega
  have hn : toI64 (u64 (toU64 ts.nsec + 1000000 * msec)) = ts.nsec + 1000000 * msec := by
    unfold toI64 u64 toU64; split <;> omega
  unfold addMsec
  simp only [ha, hn, Option.bind_eq_bind]
  by_cases h1 : 1000000000 ≤ 1000000 * msec
  · rw [if_pos h1, if_pos h1]
    have hq : u64 (1000000 * msec / 1000000000 * 1000000000) =
        1000000 * msec / 1000000000 * 1000000000 := by unfold u64; omega
    have hn1 : toI64 (u64 (toU64 (ts.nsec + 1000000 * msec) +
        (2 ^ 64 - u64 (1000000 * msec / 1000000000 * 1000000000)))) =
        ts.nsec + ((1000000 * msec % 1000000000 : Nat) : Int) := by
      rw [hq]; unfold toI64 u64 toU64; split <;> omega
    have hs1 : toI64 (u64 (toU64 ts.sec + 1000000 * msec / 1000000000)) =
        ts.sec + ((1000000 * msec / 1000000000 : Nat) : Int) := by
      unfold toI64 u64 toU64; split <;> omega
    rw [hn1, hs1]
    by_cases h2 : 1000000000 ≤ ts.nsec + ((1000000 * msec % 1000000000 : Nat) : Int)
    · rw [if_pos h2, chk_some (by omega) (by omega)]
      simp only [Option.bind_some]
      refine ⟨_, rfl, ?_, ?_⟩
      · simp only [TS.Norm]; omega
      · simp only [TS.ns]; omega
    · rw [if_neg h2]
      refine ⟨_, rfl, ?_, ?_⟩
      · simp only [TS.Norm]; omega
      · simp only [TS.ns]; omega
  · rw [if_neg h1, if_neg h1]
    by_cases h2 : 1000000000 ≤ ts.nsec + 1000000 * (msec : Int)
    · rw [if_pos h2, chk_some (by omega) (by omega)]
      simp only [Option.bind_some]
      refine ⟨_, rfl, ?_, ?_⟩
      · simp only [TS.Norm]; omega
      · simp only [TS.ns]; omega
    · rw [if_neg h2]
      refine ⟨_, rfl, ?_, ?_⟩
      · simp only [TS.Norm]; omega
      · simp only [TS.ns]; omega

end Fio.Clock
