import Verif.Fp.Lemmas
/-
C51: doubles sent over the network arrive unchanged.
-/
namespace Fio.Fp

/-- C51.  For every normal double, whatever format the compiler uses for `long double` (as long as it
holds all doubles): the word put on the wire is the IEEE 754 encoding of the number. -/
theorem wire_is_ieee {A : Arith} (hA : Sound A) {w : Fields} (h : w.Normal) :
    ∃ n, ∀ fuel, n ≤ fuel → toWire A fuel w.value = some (BitVec.ofNat 64 w.word) :=
  ⟨1024, fun _ hf => pack_normal hA h (by omega)⟩

/-- C51, the receiver: every word with an exponent field other than 0 and 2047 is read as the double
it encodes, on a machine whose `long double` may differ from the sender's. -/
theorem wire_read {A : Arith} (hA : Sound A) {w : Fields} (h : w.Normal) :
    ofWire A (BitVec.ofNat 64 w.word) = w.value :=
  unpack_normal hA h

/-- C51.  Zero and every normal double arrive unchanged; sender `A` and receiver `B` may be different
machines. -/
theorem round_trip {A B : Arith} (hA : Sound A) (hB : Sound B) {x : LD}
    (hx : x = .fin 0 ∨ ∃ w : Fields, w.Normal ∧ x = w.value) :
    ∃ n, ∀ fuel, n ≤ fuel → ∃ i, toWire A fuel x = some i ∧ ofWire B i = x := by
  refine ⟨1024, fun fuel hf => ?_⟩
  rcases hx with rfl | ⟨w, h, rfl⟩
  · exact ⟨0, by simp [toWire, pack], by simp [ofWire, unpack]⟩
  · exact ⟨_, pack_normal hA h (by omega), unpack_normal hB h⟩

/-- The hypotheses can be met: exact arithmetic. -/
theorem sound_exact (b : Bool) : Sound ⟨id, b⟩ := ⟨fun _ _ _ _ _ => rfl, fun _ _ h => h⟩

/-- -pi as a double is a normal number, with a negative sign. -/
example : Fields.Normal ⟨true, 1024, 0x921fb54442d18⟩ := by
  unfold Fields.Normal; decide

/-- What C51 asks of all doubles. -/
def AllArrive (A : Arith) : Prop :=
  ∀ w : Fields, w.Valid → ∃ fuel i, toWire A fuel w.value = some i ∧ ofWire A i = w.value

/-- Not so for infinities: the sender never leaves its loop. -/
theorem infinity_hangs (A : Arith) (s : Bool) (fuel : Nat) :
    toWire A fuel (Fields.value ⟨s, 2047, 0⟩) = none := by
  unfold Fields.value toWire pack
  cases s <;> simp [LD.lt, LD.neg, down_inf]

/-- Nor for not-a-number: the sender converts it to an integer, which is undefined. -/
theorem nan_undefined (A : Arith) (s : Bool) {m : Nat} (hm : m ≠ 0) (fuel : Nat) :
    toWire A fuel (Fields.value ⟨s, 2047, m⟩) = none := by
  unfold Fields.value toWire pack
  rw [if_pos rfl, if_neg hm]
  cases fuel <;> simp [LD.lt, down, up, LD.ge, significand]

theorem all_arrive_counterexample (A : Arith) : ¬ AllArrive A := by
  intro h
  obtain ⟨fuel, i, h1, _⟩ := h ⟨false, 2047, 0⟩ ⟨by decide, by decide⟩
  rw [infinity_hangs] at h1
  cases h1

/-- Nor for the subnormals below `2^-1023`: whatever their sign, the word on the wire is that of a
negative number of magnitude at least `2^974` (or of an infinity). -/
theorem subnormal_wrong {A : Arith} (hA : Sound A) {w : Fields} (he : w.e = 0) (h0 : 0 < w.m)
    (h1 : w.m < 2 ^ 51) : ∃ n, ∀ fuel, n ≤ fuel → ∃ w' : Fields, w'.Valid ∧ w'.s = true ∧
      1997 ≤ w'.e ∧ toWire A fuel w.value = some (BitVec.ofNat 64 w'.word) := by
  refine ⟨1075, fun fuel hf => ?_⟩
  obtain ⟨s, e, m⟩ := w
  simp only at he h0 h1
  subst he
  have l1 := Nat.log2_self_le (n := m) (by omega)
  have l2 := Nat.lt_log2_self (n := m)
  have l3 : m.log2 < 51 := (Nat.log2_lt (by omega)).2 h1
  generalize m.log2 = j at *
  have hp := pack_sub hA (s := s) l1 l2 (by omega) (fuel := fuel) (by omega)
  have hm' := (sub_form l1 l2 (by omega)).1
  rw [show (j : ℤ) - 51 = -((51 - j : ℕ) : ℤ) by omega,
    assemble_neg s (by omega) (by omega) hm'] at hp
  exact ⟨_, ⟨by simp only; omega, hm'⟩, rfl, by simp only; omega, hp⟩

/-- The smallest subnormal, for example. -/
example : (⟨false, 0, 1⟩ : Fields).e = 0 ∧ 0 < (⟨false, 0, 1⟩ : Fields).m := by decide

/-- The subnormal `2^-1023` arrives as zero. -/
theorem smallest_lost {A : Arith} (hA : Sound A) :
    ∃ n, ∀ fuel, n ≤ fuel → ∃ i, toWire A fuel (Fields.value ⟨false, 0, 2 ^ 51⟩) = some i ∧
      ofWire A i = .fin 0 := by
  refine ⟨1075, fun fuel hf => ⟨0, ?_, by simp [ofWire, unpack]⟩⟩
  rw [pack_sub hA (j := 51) (by norm_num) (by norm_num) (by norm_num) (by omega)]
  decide

end Fio.Fp
