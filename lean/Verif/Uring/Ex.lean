import Verif.Uring.More

namespace Fio.Uring

open Spec

/-! ## Sizes of the rings -/

/-- A test for the upper bits. -/
theorem high_bits {x k : Nat} (hk : k ≤ 32) (hx : x < 2 ^ 32) : x &&& (2 ^ 32 - 2 ^ k) = 0 ↔ x < 2 ^ k := by
  have hm : 2 ^ 32 - 2 ^ k = (2 ^ (32 - k) - 1) <<< k := by
    rw [Nat.shiftLeft_eq, Nat.sub_mul, ← Nat.pow_add, Nat.sub_add_cancel hk, Nat.one_mul]
  constructor
  · intro h
    have h2 : (x >>> k) &&& (2 ^ (32 - k) - 1) = 0 := by
      have := congrArg (· >>> k) h
      rw [hm] at this
      simpa [Nat.shiftRight_and_distrib, Nat.shiftLeft_shiftRight] using this
    rw [Nat.and_two_pow_sub_one_eq_mod, Nat.shiftRight_eq_div_pow] at h2
    have hlt : x / 2 ^ k < 2 ^ (32 - k) := by
      rw [Nat.div_lt_iff_lt_mul (Nat.pow_pos (by omega)), ← Nat.pow_add, Nat.sub_add_cancel hk]
      exact hx
    rw [Nat.mod_eq_of_lt hlt] at h2
    rcases (Nat.div_eq_zero_iff).1 h2 with h3 | h3
    · exact absurd h3 (Nat.pos_iff_ne_zero.1 (Nat.pow_pos (by omega)))
    · exact h3
  · intro h
    apply Nat.eq_of_testBit_eq
    intro i
    rw [Nat.testBit_and, hm, Nat.testBit_shiftLeft, Nat.zero_testBit]
    by_cases hi : k ≤ i
    · have : x.testBit i = false := Nat.testBit_lt_two_pow (Nat.lt_of_lt_of_le h (Nat.pow_le_pow_right (by omega) hi))
      simp [this]
    · simp [hi]

/-- One step of the search: the bits looked for move up, what is known about the result stays. -/
theorem flsStep {y x r k : Nat} (hk : k ≤ 32) (hy : y < 2 ^ 32) (h : y = x * 2 ^ (32 - r)) (hr : r ≤ 32)
    (hx : x ≠ 0) :
    ∃ y' r', (if y &&& (2 ^ 32 - 2 ^ (32 - k)) = 0 then (y * 2 ^ k % 2 ^ 32, r - k) else (y, r)) = (y', r') ∧
      y' < 2 ^ 32 ∧ y' = x * 2 ^ (32 - r') ∧ r' ≤ 32 ∧
      (∀ j, y ≥ 2 ^ j → j + k ≤ 32 → y' ≥ 2 ^ (min (j + k) (32 - k))) := by
  by_cases hc : y < 2 ^ (32 - k)
  · rw [if_pos ((high_bits (by omega) hy).2 hc)]
    have hlt : y * 2 ^ k < 2 ^ 32 := by
      have := Nat.mul_lt_mul_of_pos_right hc (Nat.pow_pos (n := k) (show 0 < 2 by omega))
      rwa [← Nat.pow_add, Nat.sub_add_cancel hk] at this
    have hkr : k ≤ r := by
      by_cases hkr : k ≤ r
      · exact hkr
      · exfalso
        rw [h] at hc
        have h1 : 2 ^ (32 - k) ≤ 2 ^ (32 - r) := Nat.pow_le_pow_right (by omega) (by omega)
        have h2 : 1 * 2 ^ (32 - r) ≤ x * 2 ^ (32 - r) := Nat.mul_le_mul_right _ (by omega)
        omega
    refine ⟨_, _, rfl, Nat.mod_lt _ (by decide), ?_, by omega, ?_⟩
    · rw [Nat.mod_eq_of_lt hlt, h, Nat.mul_assoc, ← Nat.pow_add]
      congr 2
      omega
    · intro j hj hjk
      rw [Nat.mod_eq_of_lt hlt]
      have h1 : 2 ^ j * 2 ^ k ≤ y * 2 ^ k := Nat.mul_le_mul_right _ hj
      rw [← Nat.pow_add] at h1
      exact Nat.le_trans (Nat.pow_le_pow_right (by omega) (by omega)) h1
  · rw [if_neg (fun h => hc ((high_bits (by omega) hy).1 h))]
    refine ⟨_, _, rfl, hy, h, hr, fun j hj hjk => ?_⟩
    exact Nat.le_trans (Nat.pow_le_pow_right (by omega) (by omega)) (Nat.le_of_not_lt hc)

/-- `__fls` is the number of bits needed. -/
theorem fls_eq (x : Nat) (hx : x < 2 ^ 32) : x < 2 ^ fls x ∧ (x ≠ 0 → 2 ^ (fls x - 1) ≤ x ∧ 1 ≤ fls x) ∧ fls x ≤ 32 := by
  by_cases h0 : x = 0
  · subst h0; decide
  · unfold fls
    rw [if_neg h0]
    obtain ⟨y1, r1, e1, l1, v1, b1, m1⟩ := flsStep (y := x) (x := x) (r := 32) (k := 16) (by omega) hx (by simp) (by omega) h0
    rw [show (0xffff0000 : Nat) = 2 ^ 32 - 2 ^ (32 - 16) from rfl, e1]
    obtain ⟨y2, r2, e2, l2, v2, b2, m2⟩ := flsStep (k := 8) (by omega) l1 v1 b1 h0
    dsimp only
    rw [show (0xff000000 : Nat) = 2 ^ 32 - 2 ^ (32 - 8) from rfl, e2]
    obtain ⟨y3, r3, e3, l3, v3, b3, m3⟩ := flsStep (k := 4) (by omega) l2 v2 b2 h0
    dsimp only
    rw [show (0xf0000000 : Nat) = 2 ^ 32 - 2 ^ (32 - 4) from rfl, e3]
    obtain ⟨y4, r4, e4, l4, v4, b4, m4⟩ := flsStep (k := 2) (by omega) l3 v3 b3 h0
    dsimp only
    rw [show (0xc0000000 : Nat) = 2 ^ 32 - 2 ^ (32 - 2) from rfl, e4]
    obtain ⟨y5, r5, e5, l5, v5, b5, m5⟩ := flsStep (k := 1) (by omega) l4 v4 b4 h0
    dsimp only
    have q1 := m1 0 (by omega) (by omega)
    have q2 := m2 16 q1 (by omega)
    have q3 := m3 24 q2 (by omega)
    have q4 := m4 28 q3 (by omega)
    have q5 := m5 30 q4 (by omega)
    have hr : (if y4 &&& 2147483648 = 0 then r4 - 1 else r4) = r5 := by
      have := congrArg Prod.snd e5
      rw [show (2147483648 : Nat) = 2 ^ 32 - 2 ^ (32 - 1) from rfl]
      rw [apply_ite Prod.snd] at this
      exact this
    rw [hr]
    have hq : 2 ^ 31 ≤ x * 2 ^ (32 - r5) := by rw [← v5]; exact q5
    rw [v5] at l5
    have hpos : 0 < 2 ^ (32 - r5) := Nat.pow_pos (by omega)
    have hA : x < 2 ^ r5 := by
      have : x * 2 ^ (32 - r5) < 2 ^ r5 * 2 ^ (32 - r5) := by
        rw [← Nat.pow_add, Nat.add_sub_cancel' b5]
        exact l5
      exact Nat.lt_of_mul_lt_mul_right this
    have hB : 1 ≤ r5 := by
      by_cases h1 : 1 ≤ r5
      · exact h1
      · have : r5 = 0 := by omega
        rw [this] at hA
        omega
    refine ⟨hA, fun _ => ⟨?_, hB⟩, b5⟩
    have : 2 ^ (r5 - 1) * 2 ^ (32 - r5) ≤ x * 2 ^ (32 - r5) := by
      rw [← Nat.pow_add, show r5 - 1 + (32 - r5) = 31 by omega]
      exact hq
    exact Nat.le_of_mul_le_mul_right this hpos

/-- The rings asked for have at least `iodepth` places, a power of two, and less than twice as many as needed. -/
theorem C83_roundup (n : Nat) (h1 : 1 ≤ n) (h2 : n ≤ 2 ^ 31) :
    Pow2 (roundupPow2 n) ∧ n ≤ roundupPow2 n ∧ (2 ≤ n → roundupPow2 n < 2 * n) := by
  obtain ⟨f1, f2, f3⟩ := fls_eq (n - 1) (by omega)
  unfold roundupPow2
  rw [Nat.shiftLeft_eq, Nat.one_mul]
  refine ⟨⟨fls (n - 1), ?_, rfl⟩, by omega, fun h => ?_⟩
  · by_cases h0 : n - 1 = 0
    · rw [h0]; decide
    · obtain ⟨f4, f5⟩ := f2 h0
      by_cases hle : fls (n - 1) ≤ 31
      · exact hle
      · have : 2 ^ 31 ≤ 2 ^ (fls (n - 1) - 1) := Nat.pow_le_pow_right (by omega) (by omega)
        omega
  · obtain ⟨f4, f5⟩ := f2 (by omega)
    have : 2 ^ fls (n - 1) = 2 * 2 ^ (fls (n - 1) - 1) := by
      rw [← Nat.pow_succ', Nat.succ_eq_add_one, Nat.sub_add_cancel f5]
    omega

/-- The rings a kernel gives for `iodepth` places are big enough. -/
theorem C83_setup (depth : Nat) (h1 : 1 ≤ depth) (h2 : depth ≤ 2 ^ 31) : Setup depth (roundupPow2 depth) (roundupPow2 depth) :=
  ⟨(C83_roundup depth h1 h2).1, (C83_roundup depth h1 h2).1, (C83_roundup depth h1 h2).2.1, (C83_roundup depth h1 h2).2.1⟩

example : [1, 2, 3, 4, 5, 32, 33, 1000, 2 ^ 31].map roundupPow2 = [1, 2, 4, 4, 8, 32, 64, 1024, 2 ^ 31] := by decide +kernel

example : Setup 3 4 4 := ⟨⟨2, by omega, rfl⟩, ⟨2, by omega, rfl⟩, by omega, by omega⟩

/-! ## What goes wrong -/

/-- Two units are in the kernel; a third is queued, and the kernel answers `EAGAIN` once. -/
def exAgain : List Op :=
  [.queue false 0, .queue false 1, .commit [([], .took 2)], .queue false 2,
   .commit [([(0, 512)], .again), ([], .took 1)]]

theorem posts_nil {s : St} (h : s.fly = []) (ps : List (Nat × Int)) : posts s ps = s := by
  induction ps with
  | nil => rfl
  | cons p ps ih =>
    have : post s p = s := by
      unfold post
      split
      · rfl
      · rw [h]; rfl
    unfold posts at *
    rw [List.foldl_cons, this, ih]

theorem get_starved {s : St} (hf : s.fly = []) (hc : sub32 s.ld.cqTail s.ld.cqHead = 0) (hp : s.ld.sqpoll = false)
    (bcm max : Nat) (hb : bcm ≠ 0) (g : List (Nat × Int) × GRes) (gs : List (List (Nat × Int) × GRes)) :
    getevents bcm 1 max (g :: gs) s = .blocked := by
  unfold getevents getLoop
  rw [posts_nil (by exact hf)]
  have hr : reapStep { s with ld := { s.ld with off := s.ld.cqHead } } (max - 0) =
      ({ s with ld := { s.ld with off := s.ld.cqHead } }, 0) := by
    unfold reapStep
    rw [reap_none (by exact hc)]
  rw [hr]
  unfold getBody
  dsimp only
  rw [if_neg (by simp), if_neg (by rw [hp]; simp), if_neg hb]
  have hs : starved { s with ld := { s.ld with off := s.ld.cqHead } } (nextMin 1 0) = true := by
    unfold starved
    rw [show nextMin 1 0 = 1 from rfl]
    dsimp only
    rw [hf, hc]
    rfl
  rw [if_pos hs]

/-- Not every unit queued comes back: the completions consumed while a submission is tried again are thrown away, here the one
of unit 0; when all else has come back and the job waits for the last unit, it waits for ever. -/
theorem C83_lost_counterexample :
    (∃ s, Reach 4 4 4 false s ∧ s.back = [] ∧ s.lost = [(0, 512)] ∧ s.fly = [1, 2] ∧ s.sub = s.acc ∧ (out s).length = 3) ∧
    ∃ s, Reach 4 4 4 false s ∧ s.acc = [0, 1, 2] ∧ s.sub = s.acc ∧ s.back = [(1, 512), (2, 512)] ∧ s.fly = [] ∧ out s = [0] ∧
      ∀ g gs, getevents 1 1 1 (g :: gs) s = .blocked := by
  have hs : Setup 4 4 4 := ⟨⟨2, by omega, rfl⟩, ⟨2, by omega, rfl⟩, by omega, by omega⟩
  refine ⟨⟨_, ⟨hs, exAgain, rfl⟩, by decide +kernel⟩,
    ⟨_, ⟨hs, exAgain ++ [.get 1 2 2 3 [([(0, 512), (0, 512)], .ok)] []], rfl⟩, by decide +kernel, by decide +kernel,
      by decide +kernel, by decide +kernel, by decide +kernel, ?_⟩⟩
  exact get_starved (by decide +kernel) (by decide +kernel) (by decide +kernel) 1 1 (by omega)

/-- An error of the second call throws away what the same call has consumed already. -/
theorem C83_error_counterexample :
    ∃ s, run (init 4 4 4 false)
      [.queue false 0, .queue false 1, .commit [([], .took 2)], .get 1 2 2 2 [([(0, 512)], .err 4)] [],
       .get 1 1 1 2 [([(0, 512)], .ok)] []] = .ok s ∧
      s.back = [(1, 512)] ∧ s.lost = [(0, 512)] ∧ s.fly = [] ∧ out s = [0] :=
  ⟨_, rfl, by decide +kernel⟩

theorem getLoop_zero (max k amin : Nat) (s : St) (hc : sub32 s.ld.cqTail s.ld.cqHead = 0) (ha : amin = 0) :
    getLoop 0 max (List.replicate k ([], .ok)) s 0 amin = .running := by
  subst ha
  induction k with
  | zero => rfl
  | succ k ih =>
    have hr : reapStep (posts s []) (max - 0) = (s, 0) := by
      unfold reapStep posts
      rw [List.foldl_nil, reap_none hc]
    rw [List.replicate_succ]
    unfold getLoop
    dsimp only
    rw [hr]
    unfold getBody
    dsimp only
    rw [if_neg (by simp)]
    have hn : nextMin 0 0 = 0 := rfl
    rw [hn, Nat.zero_add]
    have hs : starved s 0 = false := by simp [starved]
    rw [hs, ih]
    simp

/-- A call that need not wait for anything (`min` is 0) does not return while there is nothing: it asks the kernel again and
again. -/
theorem C83_zero_counterexample (k : Nat) :
    ∃ s, run (init 4 4 4 false) [.queue false 0, .commit [([], .took 1)]] = .ok s ∧
      getevents 0 0 1 (List.replicate k ([], .ok)) s = .running := by
  refine ⟨_, rfl, ?_⟩
  unfold getevents
  exact getLoop_zero _ _ _ _ (by decide +kernel) (by rfl)

/-! ## Concrete runs -/

/-- Six units through rings of four places, in two rounds; completions out of order. -/
def exRun : List Op :=
  [.queue false 0, .queue false 1, .queue false 2, .commit [([], .took 2), ([(1, 512)], .took 1)],
   .get 1 1 3 3 [([], .ok)] [(0, -5)],
   .queue false 1, .queue true 3, .commit [([], .took 7)], .get 1 3 3 3 [([], .ok), ([(1, 64), (0, 32)], .again)] []]

theorem exRun_reach : ∃ s, Reach 4 4 4 false s ∧ s.acc = [0, 1, 2, 1] ∧ s.back = [(1, 512), (0, -5), (1, 64), (2, 32)] ∧
    s.lost = [] ∧ out s = [] ∧ s.ld.sqTail = 4 := by
  refine ⟨_, ⟨⟨⟨2, by omega, rfl⟩, ⟨2, by omega, rfl⟩, by omega, by omega⟩, exRun, rfl⟩, ?_⟩
  decide +kernel

/-- A state with units in all places, where the theorems above have something to say. -/
theorem ex_reach : ∃ s, Reach 4 4 4 false s ∧ s.fly = [1, 2] ∧ s.posted = [(0, 512)] ∧ s.nread = 0 ∧ s.sub = s.acc ∧ s.lost = [] ∧
    (out s).length = 3 ∧ 3 ∉ out s ∧ s.ld.queued ≠ s.ld.depth := by
  refine ⟨_, ⟨⟨⟨2, by omega, rfl⟩, ⟨2, by omega, rfl⟩, by omega, by omega⟩,
    [.queue false 0, .queue false 1, .queue false 2, .commit [([], .took 3)], .post [(0, 512)]], rfl⟩, ?_⟩
  decide +kernel

/-- A state with two units queued, and one with a polling kernel that has taken one of them before they are marked. -/
theorem ex_queued : (∃ s, Reach 4 4 4 false s ∧ s.ld.queued = 2 ∧ s.sub = []) ∧
    ∃ s, Reach 4 4 4 true s ∧ s.ld.queued = 2 ∧ s.sub = [3] ∧ s.issued = [] := by
  constructor
  · exact ⟨_, ⟨⟨⟨2, by omega, rfl⟩, ⟨2, by omega, rfl⟩, by omega, by omega⟩, [.queue false 3, .queue false 1], rfl⟩, by decide +kernel⟩
  · exact ⟨_, ⟨⟨⟨2, by omega, rfl⟩, ⟨2, by omega, rfl⟩, by omega, by omega⟩,
      [.queue false 3, .queue false 1, .poll 1], rfl⟩, by decide +kernel⟩

example : ∀ a ∈ [(([] : List (Nat × Int)), SRes.took 1), ([], .took 3)], ∃ n, a.2 = .took (n + 1) := by
  intro a ha
  simp only [List.mem_cons, List.not_mem_nil, or_false] at ha
  rcases ha with rfl | rfl
  · exact ⟨0, rfl⟩
  · exact ⟨2, rfl⟩

/-- The counters wrap around. -/
example : sub32 (u32 (2 ^ 32 + 1)) (u32 (2 ^ 32 - 2)) = 3 := by decide +kernel

end Fio.Uring
