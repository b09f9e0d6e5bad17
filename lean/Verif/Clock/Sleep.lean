import Verif.Clock.Since
/-
C41, continued: usec_sleep and the interval timers of the helper thread.
-/
namespace Fio.Clock

/-- The microseconds measured over the rounds of usec_sleep. -/
def slept (naps : List Nap) : Nat := (naps.map (·.slept)).sum

theorem usecSpin_spec {usec : Nat} : ∀ {reads : List Nat} {r : Nat} {rest : List Nat},
    usecSpin usec reads = some (r, rest) → usec ≤ r ∧ r ∈ reads
  | [], _, _, h => by simp [usecSpin] at h
  | x :: xs, r, rest, h => by
    unfold usecSpin at h
    split at h
    · have := usecSpin_spec h
      exact ⟨this.1, List.mem_cons_of_mem _ this.2⟩
    · cases h
      exact ⟨by omega, List.mem_cons_self⟩

theorem usecSpin_total {usec : Nat} : ∀ {reads : List Nat}, (∃ r ∈ reads, usec ≤ r) →
    ∃ r rest, usecSpin usec reads = some (r, rest)
  | [], h => by simp at h
  | x :: xs, h => by
    unfold usecSpin
    split
    · apply usecSpin_total
      obtain ⟨r, hr, hu⟩ := h
      rcases List.mem_cons.mp hr with rfl | hr
      · omega
      · exact ⟨r, hr, hu⟩
    · exact ⟨_, _, rfl⟩

/-- A request usec_sleep may give to nanosleep with `usec` microseconds to go: valid, at most about
two seconds, and no longer than what is left. -/
def ReqOK (usec : Nat) (r : TS) : Prop :=
  r.Norm ∧ 0 ≤ r.sec ∧ r.sec ≤ 1 ∧ r.ns ≤ usec * 1000

theorem sleep_inv {gran : Nat} {reads : List Nat} (hg : gran ≤ 2 ^ 32) {usec0 : Nat} :
    ∀ {naps : List Nap} {usec t : Nat} {reqs : List TS} {r : Nat} {out : List TS} {fin : SleepEnd},
    usecSleep gran reads usec t reqs naps = some (r, out, fin) → usec ≤ usec0 →
    (∀ x ∈ reads, t + slept naps + x < 2 ^ 64) → t + slept naps < 2 ^ 64 →
    (∀ q ∈ reqs, ReqOK usec0 q) →
    (fin = .full → t + usec ≤ r) ∧ t ≤ r ∧ ∀ q ∈ out, ReqOK usec0 q := by
  intro naps
  induction naps with
  | nil =>
    intro usec t reqs r out fin h hu hx _ hq
    unfold usecSleep at h
    split at h
    · next hlt =>
      split at h
      · cases h
      · next x rest hsp =>
        obtain ⟨h1, h2⟩ := usecSpin_spec hsp
        rw [Nat.mod_eq_of_lt (by omega)] at h1
        have h3 := hx x h2
        cases h
        simp only [slept, List.map_nil, List.sum_nil] at h3
        have : u64 (t + x) = t + x := by unfold u64; omega
        rw [this]
        exact ⟨fun _ => by omega, by omega, hq⟩
    · cases h
  | cons n naps ih =>
    intro usec t reqs r out fin h hu hx hs hq
    have hsl : slept (n :: naps) = n.slept + slept naps := by simp [slept]
    rw [hsl] at hx hs
    unfold usecSleep at h
    split at h
    · next hlt =>
      split at h
      · cases h
      · next x rest hsp =>
        obtain ⟨h1, h2⟩ := usecSpin_spec hsp
        rw [Nat.mod_eq_of_lt (by omega)] at h1
        have h3 := hx x h2
        cases h
        have : u64 (t + x) = t + x := by unfold u64; omega
        rw [this]
        exact ⟨fun _ => by omega, by omega, hq⟩
    · next hge =>
      simp only at h
      have hadd : u64 (t + n.slept) = t + n.slept := by unfold u64; omega
      rw [hadd] at h
      have hreq : ReqOK usec0
          { sec := ((if 1000000 ≤ usec - gran then
              (if 1 < (if 1000000 ≤ usec - gran then (usec - gran) / 1000000 else 0) then 1
                else (if 1000000 ≤ usec - gran then (usec - gran) / 1000000 else 0)) else 0 : Nat) : Int),
            nsec := (u64 ((if 1000000 ≤ usec - gran then usec - gran -
              1000000 * (if 1000000 ≤ usec - gran then (usec - gran) / 1000000 else 0)
              else usec - gran) * 1000) : Nat) } := by
        generalize hts : usec - gran = ts
        by_cases hb : 1000000 ≤ ts
        · simp only [if_pos hb]
          have h1 : u64 ((ts - 1000000 * (ts / 1000000)) * 1000) = ts % 1000000 * 1000 := by
            unfold u64; omega
          rw [h1]
          have h2 : (if 1 < ts / 1000000 then 1 else ts / 1000000) = 1 := by
            split <;> omega
          rw [h2]
          simp only [ReqOK, TS.Norm, TS.ns]
          omega
        · simp only [if_neg hb]
          have h1 : u64 (ts * 1000) = ts * 1000 := by unfold u64; omega
          rw [h1]
          simp only [ReqOK, TS.Norm, TS.ns]
          omega
      have hq' := fun q (hmem : q ∈ reqs ++ [_]) => (List.mem_append.mp hmem).elim (hq q)
        (fun hm => (List.mem_singleton.mp hm) ▸ hreq)
      split at h
      · cases h
        exact ⟨nofun, by omega, hq'⟩
      · split at h
        · cases h
          exact ⟨fun _ => by omega, by omega, hq'⟩
        · split at h
          · cases h
            exact ⟨nofun, by omega, hq'⟩
          · have := ih h (by omega) (fun x hxr => by have := hx x hxr; omega) (by omega) hq'
            exact ⟨fun hf => by have := this.1 hf; omega, by omega, this.2.2⟩

/-- **C41, sleeping.**  When usec_sleep is neither interrupted nor told to stop, the time it reports
is at least the time asked for; and every request it gives to nanosleep is valid, shorter than two
seconds and no longer than the time asked for. -/
theorem C41_sleep {gran usec r : Nat} {reads : List Nat} {naps : List Nap} {out : List TS}
    {fin : SleepEnd} (h : usecSleep gran reads usec 0 [] naps = some (r, out, fin))
    (hg : gran ≤ 2 ^ 32) (hx : ∀ x ∈ reads, slept naps + x < 2 ^ 64) (hs : slept naps < 2 ^ 64) :
    (fin = .full → usec ≤ r) ∧ ∀ q ∈ out, ReqOK usec q := by
  have := sleep_inv hg h (Nat.le_refl _) (by simpa using hx) (by simpa using hs) (by simp)
  exact ⟨fun hf => by have := this.1 hf; omega, this.2.2⟩

theorem sleep_total {gran : Nat} {reads : List Nat} (hr : ∃ x ∈ reads, gran ≤ x) :
    ∀ {naps : List Nap} {usec t : Nat} {reqs : List TS}, (∀ n ∈ naps, n.ok = true) →
    (∀ n ∈ naps, n.terminate = false) → usec < gran ∨ (usec ≤ slept naps ∧ naps ≠ []) →
    ∃ r out, usecSleep gran reads usec t reqs naps = some (r, out, .full) := by
  have spin : ∀ usec, usec < gran → ∃ r rest, usecSpin (usec % 2 ^ 32) reads = some (r, rest) := by
    intro usec hlt
    apply usecSpin_total
    obtain ⟨x, hx, hgx⟩ := hr
    exact ⟨x, hx, by have := Nat.mod_le usec (2 ^ 32); omega⟩
  intro naps
  induction naps with
  | nil =>
    intro usec t reqs _ _ h
    unfold usecSleep
    have hlt : usec < gran := by
      rcases h with h | h
      · exact h
      · exact absurd rfl h.2
    obtain ⟨r, rest, e⟩ := spin usec hlt
    rw [if_pos hlt, e]
    exact ⟨_, _, rfl⟩
  | cons n naps ih =>
    intro usec t reqs hok hterm h
    unfold usecSleep
    by_cases hlt : usec < gran
    · obtain ⟨r, rest, e⟩ := spin usec hlt
      rw [if_pos hlt, e]
      exact ⟨_, _, rfl⟩
    · rw [if_neg hlt]
      have h1 := hok n List.mem_cons_self
      have h2 := hterm n List.mem_cons_self
      simp only [h1, h2, Bool.not_true, Bool.false_eq_true, if_false]
      split
      · exact ⟨_, _, rfl⟩
      · next hns =>
        apply ih (fun m hm => hok m (List.mem_cons_of_mem _ hm))
          (fun m hm => hterm m (List.mem_cons_of_mem _ hm))
        right
        have hsl : slept (n :: naps) = n.slept + slept naps := by simp [slept]
        rcases h with h | h
        · omega
        · rw [hsl] at h
          refine ⟨by omega, ?_⟩
          rintro rfl
          simp only [slept, List.map_nil, List.sum_nil] at h
          omega

/-- **C41, sleeping ends.**  When nanosleep always succeeds, nobody asks the job to stop, the clock
advances as far as was asked and the busy loop sees it advance too, usec_sleep returns. -/
theorem C41_sleep_ends {gran usec : Nat} {reads : List Nat} {naps : List Nap}
    (hr : ∃ x ∈ reads, gran ≤ x) (hok : ∀ n ∈ naps, n.ok = true)
    (hterm : ∀ n ∈ naps, n.terminate = false) (hs : usec ≤ slept naps) (hne : naps ≠ []) :
    ∃ r out, usecSleep gran reads usec 0 [] naps = some (r, out, .full) :=
  sleep_total hr hok hterm (.inr ⟨hs, hne⟩)

/-- Three rounds, the last of them spinning: 2.5 s asked for with a granularity of 60 us. -/
example : usecSleep 60 [10, 45, 70] 2500000 0 []
    [⟨true, 1500000, false⟩, ⟨true, 999950, false⟩] =
    some (2500020, [⟨1, 499940000⟩, ⟨0, 999940000⟩], .full) := by decide +kernel

/-- **C41, the part that fails.**  When nanosleep is interrupted by a signal, the time slept so far
in that round is not counted: usec_sleep reports 0 although it slept for most of a second. -/
theorem C41_sleep_interrupted_counterexample :
    usecSleep 60 [] 1000000 0 [] [⟨false, 999000, false⟩] =
      some (0, [⟨0, 999940000⟩], .interrupted) := by decide +kernel

/-! ### Timers -/

/-- **C41, timers.**  A timer fires when less than `acc + 1` milliseconds are left and then is set
to expire one interval later, give or take `acc` milliseconds; otherwise it is unchanged.  Either
way the helper thread wakes up no later than the timer expires. -/
theorem C41_timer {acc next : Nat} {it : Timer} {now : TS} (hnow : now.Norm) (hexp : it.expires.Norm)
    (hi : 0 < it.intervalMs) (hia : it.intervalMs + acc < 2 ^ 32)
    (ha : acc < 2 ^ 31)
    (h1 : -2 ^ 32 ≤ it.expires.sec - now.sec) (h2 : it.expires.sec - now.sec ≤ 4000000)
    (h3 : -2 ^ 61 ≤ now.sec) (h4 : now.sec ≤ 2 ^ 61) :
    ∃ it' next' fired, evalTimer acc it now next = some (it', next', fired) ∧
      it'.intervalMs = it.intervalMs ∧ it'.expires.Norm ∧
      (fired = true ↔ it.expires.ns - now.ns < (acc + 1) * 1000000) ∧
      (fired = false → it' = it) ∧
      (fired = true →
        now.ns + ((it.intervalMs : Int) - acc) * 1000000 ≤ it'.expires.ns ∧
        it'.expires.ns < now.ns + (it.intervalMs + acc + 1) * 1000000) ∧
      next' ≤ next ∧ next' * 1000000 ≤ it'.expires.ns - now.ns := by
  have hnear : Near now it.expires := ⟨by omega, by omega, by omega, by omega, by omega, by omega⟩
  have hrel := C41_reltime hnow hexp hnear
  obtain ⟨exp, hadd, hnorm, hns⟩ := C41_add (ts := it.expires) (msec := it.intervalMs) hexp
    ⟨by omega, by omega⟩ (by omega)
  have hnear2 : Near now exp := by
    have k1 := hexp.1; have k2 := hexp.2; have k3 := hnorm.1; have k4 := hnorm.2
    simp only [TS.ns] at hns
    refine ⟨by omega, by omega, by omega, by omega, by omega, by omega⟩
  have hrel2 := C41_reltime hnow hnorm hnear2
  obtain ⟨exp3, hadd3, hnorm3, hns3⟩ := C41_add (ts := now) (msec := it.intervalMs) hnow
    ⟨by omega, by omega⟩ (by omega)
  have hbound : it.expires.ns - now.ns < 4000001 * 1000000000 := by
    have k1 := hexp.1; have k2 := hexp.2; have k3 := hnow.1; have k4 := hnow.2
    simp only [TS.ns]
    omega
  unfold evalTimer
  rw [if_neg (by omega), hrel]
  simp only [Option.bind_eq_bind, Option.bind_some, hadd, hrel2, hadd3]
  by_cases hf : (it.expires.ns - now.ns) / 1000000 ≤ (acc : Int)
  · rw [if_pos hf]
    split
    · refine ⟨_, _, _, rfl, rfl, hnorm3, ?_, nofun, ?_, Nat.min_le_right _ _, ?_⟩
      · simp only [true_iff]; omega
      · intro _; simp only; omega
      · simp only
        have := Nat.min_le_left it.intervalMs next
        omega
    · next hc =>
      have hacc : acc % 2 ^ 32 = acc := Nat.mod_eq_of_lt (by omega)
      have hsum : (it.intervalMs + acc) % 2 ^ 32 = it.intervalMs + acc :=
        Nat.mod_eq_of_lt hia
      rw [hacc, hsum] at hc
      have hge : acc ≤ it.intervalMs := by omega
      have hsub : (it.intervalMs + (2 ^ 32 - acc)) % 2 ^ 32 = it.intervalMs - acc := by omega
      rw [hsub] at hc
      refine ⟨_, _, _, rfl, rfl, hnorm, ?_, nofun, ?_, Nat.min_le_right _ _, ?_⟩
      · simp only [true_iff]; omega
      · intro _; simp only; omega
      · simp only
        have hm := Nat.min_le_left (toU64 ((exp.ns - now.ns) / 1000000) % 2 ^ 32) next
        have hu : toU64 ((exp.ns - now.ns) / 1000000) % 2 ^ 32 =
            ((exp.ns - now.ns) / 1000000).toNat := by
          rw [toU64_nonneg (by omega) (by omega)]
          exact Nat.mod_eq_of_lt (by omega)
        omega
  · rw [if_neg hf]
    refine ⟨_, _, _, rfl, rfl, hexp, ?_, fun _ => rfl, nofun, Nat.min_le_right _ _, ?_⟩
    · simp only [Bool.false_eq_true, false_iff]; omega
    · have hm := Nat.min_le_left (toU64 ((it.expires.ns - now.ns) / 1000000) % 2 ^ 32) next
      have hu : toU64 ((it.expires.ns - now.ns) / 1000000) % 2 ^ 32 =
          ((it.expires.ns - now.ns) / 1000000).toNat := by
        rw [toU64_nonneg (by omega) (by omega)]
        exact Nat.mod_eq_of_lt (by omega)
      omega

/-- A timer of 250 ms evaluated one millisecond before it expires. -/
example : evalTimer 1 ⟨⟨10, 1500000⟩, 250⟩ ⟨10, 400000⟩ 4000 =
    some (⟨⟨10, 251500000⟩, 250⟩, 251, true) := by decide +kernel

/-- And after the clock has jumped. -/
example : evalTimer 1 ⟨⟨10, 0⟩, 250⟩ ⟨99, 0⟩ 4000 =
    some (⟨⟨99, 250000000⟩, 250⟩, 250, true) := by decide +kernel

end Fio.Clock
