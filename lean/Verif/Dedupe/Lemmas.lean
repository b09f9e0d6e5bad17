import Verif.Dedupe.Model
import Verif.Dedupe.Spec
import Verif.Pattern.Props
import Mathlib.Tactic.Ring

namespace Fio.Dedupe

open Rand Spec

/-! ## Random data -/

theorem le_get : ∀ (n v i : Nat), i < n → (le n v)[i]? = some (BitVec.ofNat 8 (v / 256 ^ i))
  | 0, _, _, h => by omega
  | n + 1, v, 0, _ => by simp [le]
  | n + 1, v, i + 1, h => by
    rw [le, List.getElem?_cons_succ, le_get n _ i (by omega), Nat.div_div_eq_div_mul, Nat.pow_succ']

theorem flatMap_length (s : List Nat) : (s.flatMap (le 8)).length = s.length * 8 := by
  induction s with
  | nil => rfl
  | cons a s ih => rw [List.flatMap_cons, List.length_append, ih, le_length, List.length_cons]; omega

theorem flatMap_get : ∀ (s : List Nat) (i : Nat), i < s.length * 8 →
    (s.flatMap (le 8))[i]? = some (BitVec.ofNat 8 (s.getD (i / 8) 0 / 256 ^ (i % 8)))
  | [], i, h => by simp at h
  | a :: s, i, h => by
    rw [List.flatMap_cons]
    by_cases h8 : i < 8
    · rw [List.getElem?_append_left (by rw [le_length]; omega), le_get _ _ _ h8, Nat.div_eq_of_lt h8,
        Nat.mod_eq_of_lt h8]
      simp
    · rw [List.getElem?_append_right (by rw [le_length]; omega), le_length,
        flatMap_get s (i - 8) (by simp at h; omega), show i / 8 = (i - 8) / 8 + 1 by omega,
        show i % 8 = (i - 8) % 8 by omega]
      simp

/-- The constant of the hash. -/
def g : Nat := 0x61C8864680B583EB

/-- The modulus. -/
def M : Nat := 2 ^ 64

theorem M_pos : 0 < M := by unfold M; omega

theorem hash_eq (a : Nat) : hash a = a * g % M := rfl

theorem hash_lt (a : Nat) : hash a < M := Nat.mod_lt _ M_pos

theorem hash_pow (a n : Nat) : hash a * g ^ n % M = a * g ^ (n + 1) % M := by
  rw [hash_eq, Nat.mod_mul_mod, Nat.pow_succ' (m := g), ← Nat.mul_assoc]

theorem getD_lt {α : Type} (l : List α) (i : Nat) (d : α) (h : i < l.length) : l.getD i d = l[i] := by
  simp [List.getD, h]

theorem rounds_length : ∀ (n : Nat) (s : List Nat), (fillRounds n s).1.length = n * s.length * 8
  | 0, s => by simp [fillRounds]
  | n + 1, s => by
    rw [fillRounds, List.length_append, flatMap_length, rounds_length n, List.length_map]; ring

theorem map_pow_zero (s : List Nat) (h : ∀ a ∈ s, a < M) : s.map (fun a => a * g ^ 0 % M) = s := by
  conv_rhs => rw [← List.map_id s]
  apply List.map_congr_left
  intro a ha
  rw [Nat.pow_zero, Nat.mul_one, Nat.mod_eq_of_lt (h a ha), id]

theorem map_pow_hash (s : List Nat) (n : Nat) :
    (s.map hash).map (fun a => a * g ^ n % M) = s.map fun a => a * g ^ (n + 1) % M := by
  rw [List.map_map]
  apply List.map_congr_left
  intro a _
  rw [Function.comp_apply, hash_pow]

theorem map_hash_lt (s : List Nat) : ∀ a ∈ s.map hash, a < M := by
  intro a ha
  obtain ⟨b, _, rfl⟩ := List.mem_map.1 ha
  exact hash_lt _

theorem rounds_snd (n : Nat) : ∀ s : List Nat, (∀ a ∈ s, a < M) →
    (fillRounds n s).2 = s.map fun a => a * g ^ n % M := by
  induction n with
  | zero => intro s h; rw [map_pow_zero s h, fillRounds]
  | succ n ih =>
    intro s _
    rw [fillRounds]
    dsimp only
    rw [ih _ (map_hash_lt s), map_pow_hash]

theorem rounds_get : ∀ (n : Nat) (s : List Nat) (i : Nat), (∀ a ∈ s, a < M) → i < n * s.length * 8 →
    (fillRounds n s).1[i]? =
      some (BitVec.ofNat 8 (s.getD (i / 8 % s.length) 0 * g ^ (i / 8 / s.length) % M / 256 ^ (i % 8)))
  | 0, s, i, _, h => by simp at h
  | n + 1, s, i, hs, h => by
    have hpos : 0 < s.length := by
      rcases Nat.eq_zero_or_pos s.length with h0 | h0
      · rw [h0] at h; simp at h
      · exact h0
    rw [fillRounds]
    dsimp only
    by_cases hi : i < s.length * 8
    · rw [List.getElem?_append_left (by rw [flatMap_length]; exact hi), flatMap_get s i hi]
      have h8 : i / 8 < s.length := by omega
      rw [Nat.mod_eq_of_lt h8, Nat.div_eq_of_lt h8, Nat.pow_zero, Nat.mul_one, getD_lt _ _ _ h8,
        Nat.mod_eq_of_lt (hs _ (List.getElem_mem h8))]
    · rw [List.getElem?_append_right (by rw [flatMap_length]; omega), flatMap_length]
      have hs' : ∀ a ∈ s.map hash, a < M := by
        intro a ha
        obtain ⟨b, _, rfl⟩ := List.mem_map.1 ha
        exact hash_lt _
      have e : (n + 1) * s.length * 8 = n * s.length * 8 + s.length * 8 := by ring
      rw [rounds_get n _ _ hs' (by rw [List.length_map]; omega), List.length_map]
      have e1 : (i - s.length * 8) / 8 = i / 8 - s.length := by omega
      have e2 : (i - s.length * 8) % 8 = i % 8 := by omega
      have e3 : (i / 8 - s.length) % s.length = i / 8 % s.length := by
        conv_rhs => rw [show i / 8 = i / 8 - s.length + s.length by omega]
        rw [Nat.add_mod_right]
      have e4 : i / 8 / s.length = (i / 8 - s.length) / s.length + 1 := by
        conv_lhs => rw [show i / 8 = i / 8 - s.length + s.length by omega]
        rw [Nat.add_div_right _ hpos]
      rw [e1, e2, e3, e4]
      have h8 : i / 8 % s.length < s.length := Nat.mod_lt _ hpos
      rw [getD_lt _ _ _ (by rw [List.length_map]; exact h8), List.getElem_map, hash_pow,
        getD_lt _ _ _ h8]

theorem small_length : ∀ (n s : Nat), (smallWords n s).1.length = n * 8
  | 0, _ => rfl
  | n + 1, s => by rw [smallWords, List.length_append, le_length, small_length n]; omega

theorem small_snd : ∀ (n s : Nat), s < M → (smallWords n s).2 = s * g ^ n % M
  | 0, s, h => by rw [smallWords, Nat.pow_zero, Nat.mul_one, Nat.mod_eq_of_lt h]
  | n + 1, s, h => by
    rw [smallWords]; dsimp only
    rw [small_snd n _ (hash_lt _), hash_pow]

theorem small_get : ∀ (n s i : Nat), s < M → i < n * 8 →
    (smallWords n s).1[i]? = some (BitVec.ofNat 8 (s * g ^ (i / 8) % M / 256 ^ (i % 8)))
  | 0, _, _, _, h => by omega
  | n + 1, s, i, hs, h => by
    rw [smallWords]; dsimp only
    by_cases h8 : i < 8
    · rw [List.getElem?_append_left (by rw [le_length]; exact h8), le_get _ _ _ h8, Nat.div_eq_of_lt h8,
        Nat.mod_eq_of_lt h8, Nat.pow_zero, Nat.mul_one, Nat.mod_eq_of_lt hs]
    · rw [List.getElem?_append_right (by rw [le_length]; omega), le_length,
        small_get n _ _ (hash_lt _) (by omega), hash_pow,
        show (i - 8) / 8 + 1 = i / 8 by omega, show (i - 8) % 8 = i % 8 by omega]

theorem fillSmall_length (len s : Nat) : (fillSmall len s).length = len := by
  unfold fillSmall
  dsimp only
  rw [List.length_append, small_length, le_length]; omega

theorem fillSmall_get (len s i : Nat) (hs : s < M) (h : i < len) :
    (fillSmall len s)[i]? = some (BitVec.ofNat 8 (s * g ^ (i / 8) % M / 256 ^ (i % 8))) := by
  unfold fillSmall
  dsimp only
  by_cases h8 : i < len / 8 * 8
  · rw [List.getElem?_append_left (by rw [small_length]; exact h8), small_get _ _ _ hs h8]
  · rw [List.getElem?_append_right (by rw [small_length]; omega), small_length, le_get _ _ _ (by omega),
      small_snd _ _ hs, show i / 8 = len / 8 by omega, show i - len / 8 * 8 = i % 8 by omega]

theorem primes_len : primes.length = 16 := rfl

theorem fillRandom_length (nb len seed : Nat) (h16 : nb ≤ 16) : (fillRandom nb len seed).length = len := by
  unfold fillRandom
  dsimp only
  rw [List.length_append, rounds_length, fillSmall_length, List.length_map, List.length_take, primes_len,
    Nat.min_eq_left h16]
  have h1 : len / 8 / nb * nb ≤ len / 8 := Nat.div_mul_le_self _ _
  omega

theorem fillRandom_get (nb len seed i : Nat) (h0 : 0 < nb) (h16 : nb ≤ 16) (hs : seed < 2 ^ 64)
    (h : i < len) : (fillRandom nb len seed)[i]? = some (randomByte nb len seed i) := by
  unfold fillRandom randomByte word
  dsimp only
  rw [show (2 : Nat) ^ 64 = M from rfl, show (0x61C8864680B583EB : Nat) = g from rfl]
  rw [show (2 : Nat) ^ 64 = M from rfl] at hs
  obtain ⟨s, hse⟩ : ∃ s, s = (primes.take nb).map fun p => seed * p % M := ⟨_, rfl⟩
  have hsl : s.length = nb := by
    rw [hse, List.length_map, List.length_take, primes_len, Nat.min_eq_left h16]
  have hs64 : ∀ a ∈ s, a < M := by
    intro a ha
    rw [hse] at ha
    obtain ⟨b, _, rfl⟩ := List.mem_map.1 ha
    exact Nat.mod_lt _ M_pos
  have hget : ∀ k, k < nb → s.getD k 0 = seed * factor.getD k 0 % M := by
    intro k hk
    rw [getD_lt _ _ _ (by rw [hsl]; exact hk), getD_lt _ _ _ (by
      show k < 16; omega)]
    simp only [hse, List.getElem_map, List.getElem_take]
    rfl
  have hfull : len / (8 * nb) = len / 8 / nb := (Nat.div_div_eq_div_mul _ _ _).symm
  rw [← hse, hfull]
  obtain ⟨q, hq⟩ : ∃ q, q = len / 8 / nb := ⟨_, rfl⟩
  rw [← hq]
  have hqn : q * nb ≤ len / 8 := by rw [hq]; exact Nat.div_mul_le_self _ _
  by_cases hi : i < q * nb * 8
  · rw [List.getElem?_append_left (by rw [rounds_length, hsl]; exact hi),
      rounds_get _ _ _ hs64 (by rw [hsl]; exact hi), hsl, hget _ (Nat.mod_lt _ h0), Nat.mod_mul_mod,
      if_pos (by omega)]
  · rw [List.getElem?_append_right (by rw [rounds_length, hsl]; omega), rounds_length, hsl,
      rounds_snd _ _ hs64]
    have hh : (s.map fun a => a * g ^ q % M).headD 0 = seed * g ^ q % M := by
      have h1 : (s.map fun a => a * g ^ q % M).headD 0 = (s.map fun a => a * g ^ q % M).getD 0 0 := by
        cases s <;> rfl
      rw [h1, getD_lt _ _ _ (by rw [List.length_map, hsl]; exact h0), List.getElem_map]
      have := hget 0 h0
      rw [getD_lt _ _ _ (by rw [hsl]; exact h0)] at this
      rw [this, show factor.getD 0 0 = 1 from rfl, Nat.mul_one, Nat.mod_mul_mod]
    rw [hh, fillSmall_get _ _ _ (Nat.mod_lt _ M_pos) (by omega), if_neg (by omega), Nat.mod_mul_mod,
      Nat.mul_assoc, ← Nat.pow_add, show (i - q * nb * 8) / 8 = i / 8 - q * nb by omega,
      show (i - q * nb * 8) % 8 = i % 8 by omega]

/-! ## One piece -/

theorem fillRest_some (pattern : List Byte) (len : Nat) (h : len < 2 ^ 32) :
    ∃ b, fillRest pattern len = some b ∧ b.length = len ∧ ∀ i < len,
      b[i]? = some (if pattern = [] then 0 else pattern.getD (i % pattern.length) 0) := by
  unfold fillRest
  by_cases hp : pattern = []
  · rw [if_neg (by simp [hp])]
    refine ⟨_, rfl, List.length_replicate, ?_⟩
    intro i hi
    rw [if_pos hp, List.getElem?_replicate, if_pos hi]
  · rw [if_pos hp]
    obtain ⟨b, hb, hl, hg⟩ := Pattern.C21_fill pattern (List.replicate len 0) hp (by simpa using h)
    rw [List.length_replicate] at hl hg
    refine ⟨b, hb, hl, ?_⟩
    intro i hi
    rw [hg i hi, if_neg hp]
    have : i % pattern.length < pattern.length := Nat.mod_lt _ (List.length_pos_iff.2 hp)
    rw [List.getElem?_eq_getElem this, getD_lt _ _ _ this]

theorem fillPercent_some (nb seed perc len : Nat) (pattern : List Byte) (h0 : 0 < nb) (h16 : nb ≤ 16)
    (hs : seed < 2 ^ 64) (hp : perc ≤ 100) (hl : len < 2 ^ 32) :
    ∃ b, fillPercent nb seed perc len len pattern = some b ∧ b.length = len ∧
      ∀ i < len, b[i]? = some (pieceByte nb perc pattern len seed i) := by
  unfold fillPercent
  by_cases h100 : perc = 100
  · rw [if_pos h100]
    obtain ⟨b, e, hbl, hg⟩ := fillRest_some pattern len hl
    refine ⟨b, e, hbl, ?_⟩
    intro i hi
    rw [hg i hi]
    unfold pieceByte
    simp [h100]
  · rw [if_neg h100, if_neg (by omega)]
    rcases Nat.eq_zero_or_pos len with hz | hz
    · subst hz; exact ⟨[], rfl, rfl, fun i hi => by omega⟩
    · obtain ⟨m, rfl⟩ : ∃ m, len = m + 1 := ⟨len - 1, by omega⟩
      rw [percLoop.eq_3 _ _ _ _ _ _ _ (by omega)]
      obtain ⟨a, ha⟩ : ∃ a, a = (m + 1) * (100 - perc) / 100 := ⟨_, rfl⟩
      have hal : a ≤ m + 1 := by
        rw [ha]
        apply Nat.div_le_of_le_mul
        rw [Nat.mul_comm]
        exact Nat.mul_le_mul_right _ (by omega)
      dsimp only
      rw [← ha]
      simp only [if_neg (show ¬ a > m + 1 by omega)]
      by_cases hleft : m + 1 - a = 0
      · rw [if_pos hleft]
        have : a = m + 1 := by omega
        refine ⟨_, rfl, by rw [fillRandom_length _ _ _ h16]; omega, ?_⟩
        intro i hi
        rw [fillRandom_get _ _ _ _ h0 h16 hs (by omega)]
        unfold pieceByte
        rw [← ha, if_pos (by omega)]
      · rw [if_neg hleft, if_neg (by omega), if_pos (by omega)]
        obtain ⟨b, e, hbl, hg⟩ := fillRest_some pattern (m + 1 - a) (by omega)
        rw [e, Option.bind_some, Nat.sub_self]
        refine ⟨fillRandom nb a seed ++ b ++ [], by simp [percLoop], by
          rw [List.append_nil, List.length_append, fillRandom_length _ _ _ h16]; omega, ?_⟩
        intro i hi
        rw [List.append_nil]
        unfold pieceByte
        rw [← ha]
        by_cases hia : i < a
        · rw [List.getElem?_append_left (by rw [fillRandom_length _ _ _ h16]; omega),
            fillRandom_get _ _ _ _ h0 h16 hs hia, if_pos hia]
        · rw [List.getElem?_append_right (by rw [fillRandom_length _ _ _ h16]; omega),
            fillRandom_length _ _ _ h16, hg _ (by omega), if_neg hia]

theorem percLoop_zero (nb seed perc seg : Nat) (pattern : List Byte) (fuel : Nat) :
    percLoop nb seed perc seg pattern fuel 0 = some [] := by cases fuel <;> rfl

end Fio.Dedupe
