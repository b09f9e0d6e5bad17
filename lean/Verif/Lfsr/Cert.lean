import Verif.Lfsr.Gf
import Verif.Lfsr.Model
import Mathlib.NumberTheory.LucasPrimality
/-
Certificates that every feedback polynomial of the tap table is primitive: prime factorisations of
2^n - 1 and evaluation of x^((2^n-1)/q) by repeated squaring in the kernel.
-/
namespace Fio.Lfsr

/-! ### Primality: trial division for small numbers, Lucas certificates for large ones -/

/-- No number in `d, d+1, ...` with square at most `p` divides `p`. -/
def noDiv (p : Nat) : (fuel d : Nat) → Bool
  | 0, _ => false
  | fuel + 1, d => if p < d * d then true else if p % d = 0 then false else noDiv p fuel (d + 1)

theorem noDiv_spec {p : Nat} : ∀ (fuel d : Nat), noDiv p fuel d = true →
    ∀ m, d ≤ m → m * m ≤ p → ¬ m ∣ p := by
  intro fuel
  induction fuel with
  | zero => intro d h; simp [noDiv] at h
  | succ fuel ih =>
    intro d h m hm hmp hdvd
    unfold noDiv at h
    split at h
    · rename_i hlt
      have := Nat.mul_le_mul hm hm
      omega
    · split at h
      · simp at h
      · rename_i hmod
        by_cases hmd : m = d
        · subst hmd; exact hmod (Nat.mod_eq_zero_of_dvd hdvd)
        · exact ih (d + 1) h m (by omega) hmp hdvd

def smallPrime (p : Nat) : Bool := decide (2 ≤ p) && noDiv p 1001 2

theorem smallPrime_spec {p : Nat} (h : smallPrime p = true) : p.Prime := by
  unfold smallPrime at h
  rw [Bool.and_eq_true, decide_eq_true_eq] at h
  rw [Nat.prime_def_le_sqrt]
  refine ⟨h.1, fun m hm hms => noDiv_spec _ _ h.2 m hm (Nat.le_sqrt.1 hms)⟩

/-- `a^k mod p` by repeated squaring. -/
def powMod (p a : Nat) : (fuel k : Nat) → Nat
  | 0, _ => 1 % p
  | fuel + 1, k =>
    if k = 0 then 1 % p else
      let h := powMod p a fuel (k / 2)
      if k % 2 = 1 then h * h % p * a % p else h * h % p

theorem powMod_eq {p a : Nat} : ∀ (fuel k : Nat), k < 2 ^ fuel → powMod p a fuel k = a ^ k % p := by
  intro fuel
  induction fuel with
  | zero => intro k hk; simp at hk; simp [powMod, hk]
  | succ fuel ih =>
    intro k hk
    rw [Nat.pow_succ] at hk
    unfold powMod
    by_cases hk0 : k = 0
    · simp [hk0]
    · rw [if_neg hk0]
      simp only [ih (k / 2) (by omega)]
      have hsq : a ^ (k / 2) % p * (a ^ (k / 2) % p) % p = a ^ (k / 2 + k / 2) % p := by
        rw [← Nat.mul_mod, ← Nat.pow_add]
      rw [hsq]
      split
      · rename_i hodd
        rw [Nat.mod_mul_mod, ← Nat.pow_succ]
        congr 2; omega
      · congr 2; omega

/-- A Lucas certificate for `p`: witness and factors of `p - 1`. -/
def lucasOk (p a : Nat) (fs : List Nat) : Bool :=
  decide (2 ≤ p) && decide (fs.prod = p - 1) && decide (p < 2 ^ 64) &&
  decide (powMod p a 64 (p - 1) = 1) && fs.all fun q => decide (powMod p a 64 ((p - 1) / q) ≠ 1)

theorem mem_of_prime_dvd_prod {fs : List Nat} (hfs : ∀ q ∈ fs, q.Prime) {r : Nat} (hr : r.Prime)
    (hd : r ∣ fs.prod) : r ∈ fs := by
  induction fs with
  | nil => simp at hd; exact absurd hd hr.ne_one
  | cons q qs ih =>
    rw [List.prod_cons, hr.dvd_mul] at hd
    rcases hd with hd | hd
    · rw [(Nat.prime_dvd_prime_iff_eq hr (hfs q (by simp))).1 hd]; simp
    · exact List.mem_cons_of_mem _ (ih (fun q hq => hfs q (by simp [hq])) hd)

theorem lucasOk_spec {p a : Nat} {fs : List Nat} (h : lucasOk p a fs = true)
    (hfs : ∀ q ∈ fs, q.Prime) : p.Prime := by
  unfold lucasOk at h
  simp only [Bool.and_eq_true, decide_eq_true_eq, List.all_eq_true] at h
  obtain ⟨⟨⟨⟨h1, h2⟩, h3⟩, h4⟩, h5⟩ := h
  have key : ∀ k, k < 2 ^ 64 → ((a : ZMod p) ^ k = 1 ↔ powMod p a 64 k = 1) := by
    intro k hk
    rw [powMod_eq _ _ hk]
    have : ((a : ZMod p) ^ k = 1) ↔ ((a ^ k : Nat) : ZMod p) = ((1 : Nat) : ZMod p) := by
      push_cast; rfl
    rw [this, ZMod.natCast_eq_natCast_iff']
    rw [Nat.mod_eq_of_lt (show 1 < p by omega)]
  apply lucas_primality p (a : ZMod p)
  · exact (key _ (by omega)).2 h4
  · intro q hq hqd hone
    have hmem := mem_of_prime_dvd_prod hfs hq (by rw [h2]; exact hqd)
    exact h5 q hmem ((key _ (Nat.lt_of_le_of_lt (Nat.div_le_self _ _) (by omega))).1 hone)

/-- Primes below 10^6 used below. -/
def smalls : List Nat := [
  2, 3, 5, 7, 11, 13, 17, 19, 23, 29, 31, 37, 41, 43, 47, 53, 59, 61, 71, 73, 79, 89, 97, 103, 109, 113, 127, 151, 157, 167, 223, 233, 241, 251, 257, 331, 337, 397, 421, 431, 569, 601, 617, 631, 673, 683, 881, 1039, 1103, 1321, 1613, 1801, 2089, 2113, 2143, 2179, 2351, 2713, 2731, 3191, 4051, 4513, 5419, 6361, 8191, 8501, 9719, 10639, 11119, 13367, 23311, 32377, 43691, 61681, 65537, 69431, 87211, 92737, 121369, 122921, 131071, 174763, 178481, 179951, 201961, 262657, 524287, 599479, 649657]

theorem smalls_ok : smalls.all smallPrime = true := by decide +kernel

theorem smalls_prime {q : Nat} (h : q ∈ smalls) : q.Prime :=
  smallPrime_spec (List.all_eq_true.1 smalls_ok q h)

theorem prime_2147483647 : Nat.Prime 2147483647 := by
  apply lucasOk_spec (a := 7) (fs := [2, 3, 3, 7, 11, 31, 151, 331])
  · decide +kernel
  · intro q hq
    apply smalls_prime
    revert q; decide +kernel

theorem prime_616318177 : Nat.Prime 616318177 := by
  apply lucasOk_spec (a := 5) (fs := [2, 2, 2, 2, 2, 3, 37, 167, 1039])
  · decide +kernel
  · intro q hq
    apply smalls_prime
    revert q; decide +kernel

theorem prime_164511353 : Nat.Prime 164511353 := by
  apply lucasOk_spec (a := 3) (fs := [2, 2, 2, 41, 59, 8501])
  · decide +kernel
  · intro q hq
    apply smalls_prime
    revert q; decide +kernel

theorem prime_2099863 : Nat.Prime 2099863 := by
  apply lucasOk_spec (a := 3) (fs := [2, 3, 3, 43, 2713])
  · decide +kernel
  · intro q hq
    apply smalls_prime
    revert q; decide +kernel

theorem prime_2796203 : Nat.Prime 2796203 := by
  apply lucasOk_spec (a := 5) (fs := [2, 23, 89, 683])
  · decide +kernel
  · intro q hq
    apply smalls_prime
    revert q; decide +kernel

theorem prime_13264529 : Nat.Prime 13264529 := by
  apply lucasOk_spec (a := 3) (fs := [2, 2, 2, 2, 31, 47, 569])
  · decide +kernel
  · intro q hq
    apply smalls_prime
    revert q; decide +kernel

theorem prime_4432676798593 : Nat.Prime 4432676798593 := by
  apply lucasOk_spec (a := 5) (fs := [2, 2, 2, 2, 2, 2, 2, 3, 3, 7, 7, 43, 337, 5419])
  · decide +kernel
  · intro q hq
    apply smalls_prime
    revert q; decide +kernel

theorem prime_20394401 : Nat.Prime 20394401 := by
  apply lucasOk_spec (a := 3) (fs := [2, 2, 2, 2, 2, 5, 5, 13, 37, 53])
  · decide +kernel
  · intro q hq
    apply smalls_prime
    revert q; decide +kernel

theorem prime_15790321 : Nat.Prime 15790321 := by
  apply lucasOk_spec (a := 19) (fs := [2, 2, 2, 2, 3, 3, 5, 7, 13, 241])
  · decide +kernel
  · intro q hq
    apply smalls_prime
    revert q; decide +kernel

theorem prime_1212847 : Nat.Prime 1212847 := by
  apply lucasOk_spec (a := 5) (fs := [2, 3, 19, 10639])
  · decide +kernel
  · intro q hq
    apply smalls_prime
    revert q; decide +kernel

theorem prime_3033169 : Nat.Prime 3033169 := by
  apply lucasOk_spec (a := 7) (fs := [2, 2, 2, 2, 3, 29, 2179])
  · decide +kernel
  · intro q hq
    apply smalls_prime
    revert q; decide +kernel

theorem prime_8060489 : Nat.Prime 8060489 := by
  apply lucasOk_spec (a := 3) (fs := [2, 2, 2, 23, 71, 617])
  · decide +kernel
  · intro q hq
    apply smalls_prime
    revert q; decide +kernel

theorem prime_3203431780337 : Nat.Prime 3203431780337 := by
  apply lucasOk_spec (a := 3) (fs := [2, 2, 2, 2, 59, 421, 8060489])
  · decide +kernel
  · intro q hq
    simp only [List.mem_cons, List.not_mem_nil, or_false] at hq
    rcases hq with rfl | rfl | rfl | rfl | rfl | rfl | rfl
    · exact smalls_prime (by decide +kernel)
    · exact smalls_prime (by decide +kernel)
    · exact smalls_prime (by decide +kernel)
    · exact smalls_prime (by decide +kernel)
    · exact smalls_prime (by decide +kernel)
    · exact smalls_prime (by decide +kernel)
    · exact prime_8060489

theorem prime_2305843009213693951 : Nat.Prime 2305843009213693951 := by
  apply lucasOk_spec (a := 37) (fs := [2, 3, 3, 5, 5, 7, 11, 13, 31, 41, 61, 151, 331, 1321])
  · decide +kernel
  · intro q hq
    apply smalls_prime
    revert q; decide +kernel

theorem prime_715827883 : Nat.Prime 715827883 := by
  apply lucasOk_spec (a := 5) (fs := [2, 3, 7, 11, 31, 151, 331])
  · decide +kernel
  · intro q hq
    apply smalls_prime
    revert q; decide +kernel

/-- Primes above 10^6. -/
def bigs : List Nat := [
  2147483647, 616318177, 164511353, 2099863, 2796203, 13264529, 4432676798593, 20394401, 15790321, 1212847, 3033169, 8060489, 3203431780337, 2305843009213693951, 715827883]

theorem bigs_prime {q : Nat} (h : q ∈ bigs) : q.Prime := by
  simp only [bigs, List.mem_cons, List.not_mem_nil, or_false] at h
  rcases h with rfl | rfl | rfl | rfl | rfl | rfl | rfl | rfl | rfl | rfl | rfl | rfl | rfl | rfl | rfl
  · exact prime_2147483647
  · exact prime_616318177
  · exact prime_164511353
  · exact prime_2099863
  · exact prime_2796203
  · exact prime_13264529
  · exact prime_4432676798593
  · exact prime_20394401
  · exact prime_15790321
  · exact prime_1212847
  · exact prime_3033169
  · exact prime_8060489
  · exact prime_3203431780337
  · exact prime_2305843009213693951
  · exact prime_715827883

/-- For each register length n: n, 2^n, the feedback polynomial, the prime factors of 2^n - 1
with multiplicity, and without. -/
def certs : List (Nat × Nat × Nat × List Nat × List Nat) := [
  (3, 8, 13, [7], [7]),
  (4, 16, 25, [3, 5], [3, 5]),
  (5, 32, 41, [31], [31]),
  (6, 64, 97, [3, 3, 7], [3, 7]),
  (7, 128, 193, [127], [127]),
  (8, 256, 369, [3, 5, 17], [3, 5, 17]),
  (9, 512, 545, [7, 73], [7, 73]),
  (10, 1024, 1153, [3, 11, 31], [3, 11, 31]),
  (11, 2048, 2561, [23, 89], [23, 89]),
  (12, 4096, 4179, [3, 3, 5, 7, 13], [3, 5, 7, 13]),
  (13, 8192, 8219, [8191], [8191]),
  (14, 16384, 16427, [3, 43, 127], [3, 43, 127]),
  (15, 32768, 49153, [7, 31, 151], [7, 31, 151]),
  (16, 65536, 106513, [3, 5, 17, 257], [3, 5, 17, 257]),
  (17, 131072, 147457, [131071], [131071]),
  (18, 262144, 264193, [3, 3, 3, 7, 19, 73], [3, 7, 19, 73]),
  (19, 524288, 524359, [524287], [524287]),
  (20, 1048576, 1179649, [3, 5, 5, 11, 31, 41], [3, 5, 11, 31, 41]),
  (21, 2097152, 2621441, [7, 7, 127, 337], [7, 127, 337]),
  (22, 4194304, 6291457, [3, 23, 89, 683], [3, 23, 89, 683]),
  (23, 8388608, 8650753, [47, 178481], [47, 178481]),
  (24, 16777216, 29491201, [3, 3, 5, 7, 13, 17, 241], [3, 5, 7, 13, 17, 241]),
  (25, 33554432, 37748737, [31, 601, 1801], [31, 601, 1801]),
  (26, 67108864, 67108935, [3, 2731, 8191], [3, 2731, 8191]),
  (27, 134217728, 134217767, [7, 73, 262657], [7, 73, 262657]),
  (28, 268435456, 301989889, [3, 5, 29, 43, 113, 127], [3, 5, 29, 43, 113, 127]),
  (29, 536870912, 671088641, [233, 1103, 2089], [233, 1103, 2089]),
  (30, 1073741824, 1073741907, [3, 3, 7, 11, 31, 151, 331], [3, 7, 11, 31, 151, 331]),
  (31, 2147483648, 2415919105, [2147483647], [2147483647]),
  (32, 4294967296, 6979321859, [3, 5, 17, 257, 65537], [3, 5, 17, 257, 65537]),
  (33, 8589934592, 8590983169, [7, 23, 89, 599479], [7, 23, 89, 599479]),
  (34, 17179869184, 17314086919, [3, 43691, 131071], [3, 43691, 131071]),
  (35, 34359738368, 42949672961, [31, 71, 127, 122921], [31, 71, 127, 122921]),
  (36, 68719476736, 68753031169, [3, 3, 3, 5, 7, 13, 19, 37, 73, 109], [3, 5, 7, 13, 19, 37, 73, 109]),
  (37, 137438953472, 137438953535, [223, 616318177], [223, 616318177]),
  (38, 274877906944, 274877907043, [3, 174763, 524287], [3, 174763, 524287]),
  (39, 549755813888, 584115552257, [7, 79, 8191, 121369], [7, 79, 8191, 121369]),
  (40, 1099511627776, 1374392156161, [3, 5, 5, 11, 17, 31, 41, 61681], [3, 5, 11, 17, 31, 41, 61681]),
  (41, 2199023255552, 2473901162497, [13367, 164511353], [13367, 164511353]),
  (42, 4398046511104, 6597071339521, [3, 3, 7, 7, 43, 127, 337, 5419], [3, 7, 43, 127, 337, 5419]),
  (43, 8796093022208, 13606456393729, [431, 9719, 2099863], [431, 9719, 2099863]),
  (44, 17592186044416, 26388279459841, [3, 5, 23, 89, 397, 683, 2113], [3, 5, 23, 89, 397, 683, 2113]),
  (45, 35184372088832, 59373627899905, [7, 31, 73, 151, 631, 23311], [7, 31, 73, 151, 631, 23311]),
  (46, 70368744177664, 105553216929793, [3, 47, 178481, 2796203], [3, 47, 178481, 2796203]),
  (47, 140737488355328, 145135534866433, [2351, 4513, 13264529], [2351, 4513, 13264529]),
  (48, 281474976710656, 422212468211713, [3, 3, 5, 7, 13, 17, 97, 241, 257, 673], [3, 5, 7, 13, 17, 97, 241, 257, 673]),
  (49, 562949953421312, 564049465049089, [127, 4432676798593], [127, 4432676798593]),
  (50, 1125899906842624, 1688849885429761, [3, 11, 31, 251, 601, 1801, 4051], [3, 11, 31, 251, 601, 1801, 4051]),
  (51, 2251799813685248, 3377802799742977, [7, 103, 2143, 11119, 131071], [7, 103, 2143, 11119, 131071]),
  (52, 4503599627370496, 5066549580791809, [3, 5, 53, 157, 1613, 2731, 8191], [3, 5, 53, 157, 1613, 2731, 8191]),
  (53, 9007199254740992, 13511211198971905, [6361, 69431, 20394401], [6361, 69431, 20394401]),
  (54, 18014398509481984, 27021597764616193, [3, 3, 3, 3, 7, 19, 73, 87211, 262657], [3, 7, 19, 73, 87211, 262657]),
  (55, 36028797018963968, 36028799166447617, [23, 31, 89, 881, 3191, 201961], [23, 31, 89, 881, 3191, 201961]),
  (56, 72057594037927936, 108086442596499457, [3, 5, 17, 29, 43, 113, 127, 15790321], [3, 5, 17, 29, 43, 113, 127, 15790321]),
  (57, 144115188075855872, 145241087982698497, [7, 32377, 524287, 1212847], [7, 32377, 524287, 1212847]),
  (58, 288230376151711744, 288230925907525633, [3, 59, 233, 1103, 2089, 3033169], [3, 59, 233, 1103, 2089, 3033169]),
  (59, 576460752303423488, 864691540771995649, [179951, 3203431780337], [179951, 3203431780337]),
  (60, 1152921504606846976, 1729382256910270465, [3, 3, 5, 5, 7, 11, 13, 31, 41, 61, 151, 331, 1321], [3, 5, 7, 11, 13, 31, 41, 61, 151, 331, 1321]),
  (61, 2305843009213693952, 3458870066936807425, [2305843009213693951], [2305843009213693951]),
  (62, 4611686018427387904, 6917529027641081953, [3, 715827883, 2147483647], [3, 715827883, 2147483647]),
  (63, 9223372036854775808, 13835058055282163713, [7, 7, 73, 127, 337, 92737, 649657], [7, 73, 127, 337, 92737, 649657])]

/-! ### A faster evaluator of powers of x, in a form the kernel reduces cheaply -/

/-- `mulK` with only arithmetic operations. -/
def mulF (N P : Nat) (k : Nat) : (a v acc : Nat) → Nat :=
  Nat.rec (fun _ _ acc => acc)
    (fun _ ih a v acc => ih (Nat.div a (nat_lit 2))
      ((fun v2 => Nat.xor v2 (Nat.mul P (Nat.div v2 N))) (Nat.mul (nat_lit 2) v))
      (Nat.xor acc (Nat.mul (Nat.mod a (nat_lit 2)) v))) k

/-- `powX` with only arithmetic operations. -/
def powF (n N P : Nat) (fuel : Nat) : (k : Nat) → Nat :=
  Nat.rec (fun _ => 1)
    (fun _ ih k => (fun q => (2 ^ (k % 2) * q) ^^^ (P * ((2 ^ (k % 2) * q) / N)))
      ((fun h => mulF N P n h h 0) (ih (k / 2)))) fuel

theorem gS_arith {n P v : Nat} (hv : v < 2 ^ n) :
    gS n P v = (2 * v) ^^^ (P * ((2 * v) / 2 ^ n)) := by
  have h2 : 2 * v / 2 ^ n < 2 := by
    rw [Nat.div_lt_iff_lt_mul (Nat.two_pow_pos n)]; omega
  unfold gS
  rw [Nat.testBit_eq_decide_div_mod_eq]
  generalize 2 * v / 2 ^ n = d at *
  rcases (by omega : d = 0 ∨ d = 1) with h | h <;> simp [h]

theorem mulF_eq {n P : Nat} (hP : Poly n P) : ∀ (k a v acc : Nat), v < 2 ^ n →
    mulF (2 ^ n) P k a v acc = acc ^^^ mulK n P k a v := by
  intro k
  induction k with
  | zero => intro a v acc _; simp [mulF, mulK]
  | succ k ih =>
    intro a v acc hv
    have e : mulF (2 ^ n) P (k + 1) a v acc =
        mulF (2 ^ n) P k (a / 2) ((2 * v) ^^^ (P * ((2 * v) / 2 ^ n))) (acc ^^^ (a % 2) * v) := rfl
    rw [e, ← gS_arith hv, ih _ _ _ (gS_lt hP hv), mulK, Nat.xor_assoc]
    congr 2
    rw [Nat.testBit_zero]
    rcases (by omega : a % 2 = 0 ∨ a % 2 = 1) with h | h <;> simp [h]

theorem mulK_lt {n P : Nat} (hP : Poly n P) : ∀ (k a v : Nat), v < 2 ^ n → mulK n P k a v < 2 ^ n := by
  intro k
  induction k with
  | zero => intro a v _; simp [mulK]
  | succ k ih =>
    intro a v hv
    rw [mulK]
    apply Nat.xor_lt_two_pow
    · split
      · exact hv
      · exact Nat.two_pow_pos n
    · exact ih _ _ (gS_lt hP hv)

theorem powF_eq {n P : Nat} (hn : 0 < n) (hP : Poly n P) : ∀ (fuel k : Nat), k < 2 ^ fuel →
    powF n (2 ^ n) P fuel k = (gS n P)^[k] 1 := by
  have h1 : 1 < 2 ^ n := Nat.one_lt_two_pow (by omega)
  intro fuel
  induction fuel with
  | zero => intro k hk; simp at hk; simp [powF, hk]
  | succ fuel ih =>
    intro k hk
    rw [Nat.pow_succ] at hk
    have e : powF n (2 ^ n) P (fuel + 1) k =
        (fun q => (2 ^ (k % 2) * q) ^^^ (P * ((2 ^ (k % 2) * q) / 2 ^ n)))
          ((fun h => mulF (2 ^ n) P n h h 0) (powF n (2 ^ n) P fuel (k / 2))) := rfl
    rw [e, ih (k / 2) (by omega)]
    simp only
    have hlt := iter_lt hP h1 (k / 2)
    rw [mulF_eq hP _ _ _ _ hlt, Nat.zero_xor]
    have hsq : mulK n P n ((gS n P)^[k / 2] 1) ((gS n P)^[k / 2] 1) = (gS n P)^[k / 2 + k / 2] 1 := by
      rw [← iter_eq_mul hlt, ← Function.iterate_add_apply]
    rw [hsq]
    have hlt2 := iter_lt hP h1 (k / 2 + k / 2)
    rcases (by omega : k % 2 = 0 ∨ k % 2 = 1) with h | h
    · rw [h, Nat.pow_zero, Nat.one_mul, Nat.div_eq_of_lt hlt2, Nat.mul_zero, Nat.xor_zero]
      congr 1; omega
    · rw [h, Nat.pow_one, ← gS_arith hlt2, ← Function.iterate_succ_apply' (gS n P)]
      congr 1; omega

/-- The feedback polynomial of a tap list: 1 + sum of x^tap. -/
def polyOf (taps : List Nat) : Nat := 1 + (taps.map (2 ^ ·)).sum

/-- All conditions on an entry. -/
def entryOk : Nat × Nat × Nat × List Nat × List Nat → Bool
  | (n, N, P, fs, fs1) =>
  let taps := lfsrTaps[n]?.getD []
  decide (N = 2 ^ n) && decide (P = polyOf taps) &&
  decide (taps[0]? = some n) && decide (2 ^ n ≤ P) && decide (P < 2 ^ (n + 1)) && P.testBit 0 &&
  decide ((createXormask 6 taps 0#64).toNat = P / 2) &&
  decide (fs.prod = 2 ^ n - 1) &&
  (fs.all fun q => fs1.contains q && (smalls.contains q || bigs.contains q)) &&
  decide (powF n N P 64 (N - 1) = 1) &&
  (fs1.all fun q => decide (powF n N P 64 ((N - 1) / q) ≠ 1))

theorem certs_ok : certs.all entryOk = true := by decide +kernel

theorem certs_ns : certs.map (·.1) = List.range' 3 61 := by decide +kernel

theorem entry {n : Nat} (h1 : 3 ≤ n) (h2 : n < 64) :
    ∃ taps, lfsrTaps[n]? = some taps ∧ taps[0]? = some n ∧ Primitive n (polyOf taps) ∧
      (createXormask 6 taps 0#64).toNat = polyOf taps / 2 := by
  have hmem : n ∈ certs.map (·.1) := by rw [certs_ns, List.mem_range'_1]; omega
  rw [List.mem_map] at hmem
  obtain ⟨⟨n', N, P, fs, fs1⟩, hc, rfl⟩ := hmem
  have h := List.all_eq_true.1 certs_ok _ hc
  simp only [entryOk] at h h1 h2 ⊢
  have hlen : n' < lfsrTaps.length := by
    have : lfsrTaps.length = 64 := rfl
    omega
  rw [List.getElem?_eq_getElem hlen] at h
  simp only [Option.getD_some, Bool.and_eq_true, decide_eq_true_eq, List.all_eq_true,
    Bool.or_eq_true, List.contains_iff_mem] at h
  obtain ⟨⟨⟨⟨⟨⟨⟨⟨⟨⟨gN, gP⟩, g1⟩, g2⟩, g3⟩, g4⟩, g5⟩, g6⟩, g7⟩, g8⟩, g9⟩ := h
  subst gP gN
  refine ⟨_, List.getElem?_eq_getElem hlen, g1, ?_, g5⟩
  have hP : Poly n' (polyOf lfsrTaps[n']) := ⟨g2, g3, g4⟩
  have hlt : 2 ^ n' - 1 < 2 ^ 64 := by
    have : 2 ^ n' ≤ 2 ^ 64 := Nat.pow_le_pow_right (by omega) (by omega)
    have : 0 < 2 ^ n' := Nat.two_pow_pos n'
    omega
  refine ⟨by omega, hP, ?_, ?_⟩
  · rw [← powF_eq (by omega) hP 64 _ hlt]; exact g8
  · intro q hq hqd
    rw [← powF_eq (by omega) hP 64 _ (Nat.lt_of_le_of_lt (Nat.div_le_self _ _) hlt)]
    apply g9
    have hmem : q ∈ fs := by
      apply mem_of_prime_dvd_prod _ hq (by rw [g6]; exact hqd)
      intro r hr
      rcases (g7 r hr).2 with h | h
      · exact smalls_prime h
      · exact bigs_prime h
    exact (g7 q hmem).1

end Fio.Lfsr
