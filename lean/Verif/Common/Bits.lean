/-
Bit scanning helpers shared by several areas.

Models lib/ffz.h (the portable versions).  Architectures that define
ARCH_HAVE_FFZ use a `bsf`-like instruction that agrees with it whenever the
argument has a zero bit; for the all-ones argument the portable function
yields 63 while the x86 one is undefined.
-/
namespace Fio

/-- One step of the binary search in lib/ffz.h:8-34 (`if (!(word & mask)) { word >>= k; r += k; }`
with `mask = 2^k-1`). -/
def ffsStep (k : Nat) (s : BitVec 64 × Nat) : BitVec 64 × Nat :=
  if s.1 &&& BitVec.ofNat 64 (2 ^ k - 1) = 0#64 then (s.1 >>> k, s.2 + k) else s

/-- lib/ffz.h:6-34 `ffs64` : index of the least significant set bit (63 for 0). -/
def ffs64 (w : BitVec 64) : Nat :=
  let s := ffsStep 32 (w, 0)
  let s := ffsStep 16 s
  let s := ffsStep 8 s
  let s := ffsStep 4 s
  let s := ffsStep 2 s
  if s.1 &&& 1#64 = 0#64 then s.2 + 1 else s.2

/-- lib/ffz.h:38-41 `ffz` : index of the least significant zero bit. -/
def ffz (w : BitVec 64) : Nat := ffs64 (~~~ w)

theorem and_mask_eq_zero {w : BitVec 64} {k : Nat} (hk : k ≤ 64) :
    w &&& BitVec.ofNat 64 (2 ^ k - 1) = 0#64 ↔ ∀ j, j < k → w.getLsbD j = false := by
  constructor
  · intro h j hj
    have := congrArg (fun x => x.getLsbD j) h
    simp only [BitVec.getLsbD_and, BitVec.getLsbD_ofNat, Nat.testBit_two_pow_sub_one, hj,
      decide_true, show j < 64 by omega, Bool.and_true] at this
    simpa using this
  · intro h
    apply BitVec.eq_of_getLsbD_eq
    intro i hi
    simp only [BitVec.getLsbD_and, BitVec.getLsbD_ofNat, Nat.testBit_two_pow_sub_one]
    by_cases hik : i < k
    · simp [h i hik]
    · simp [hik]

/-- Invariant of the bit scan: `s.1` is the input shifted by `s.2`, everything below is zero and
a set bit exists among the next `m` bits. -/
def FfsInv (w : BitVec 64) (m : Nat) (s : BitVec 64 × Nat) : Prop :=
  (∀ j, s.1.getLsbD j = w.getLsbD (s.2 + j)) ∧ (∀ j, j < s.2 → w.getLsbD j = false) ∧
    ∃ j, j < m ∧ s.1.getLsbD j = true

theorem ffsStep_inv {w : BitVec 64} {k : Nat} {s} (hk : k ≤ 64) (h : FfsInv w (k + k) s) :
    FfsInv w k (ffsStep k s) := by
  obtain ⟨h1, h2, j0, hj0, hb⟩ := h
  unfold ffsStep
  split
  · rename_i hz
    rw [and_mask_eq_zero hk] at hz
    refine ⟨?_, ?_, j0 - k, ?_, ?_⟩
    · intro j; simp [h1]; congr 1; omega
    · intro j hj
      simp at hj
      by_cases hjs : j < s.2
      · exact h2 j hjs
      · have := hz (j - s.2) (by omega)
        rw [h1] at this
        rwa [show s.2 + (j - s.2) = j by omega] at this
    · have : ¬ j0 < k := fun hlt => by simp [hz j0 hlt] at hb
      omega
    · have : ¬ j0 < k := fun hlt => by simp [hz j0 hlt] at hb
      simp; rwa [show k + (j0 - k) = j0 by omega]
  · rename_i hz
    rw [and_mask_eq_zero hk] at hz
    refine ⟨h1, h2, ?_⟩
    apply Classical.byContradiction
    intro hcon
    apply hz
    intro j hj
    cases hjb : s.1.getLsbD j with
    | false => rfl
    | true => exact absurd ⟨j, hj, hjb⟩ hcon

/-- `ffs64` finds the least significant set bit. -/
theorem ffs64_spec {w : BitVec 64} (h : w ≠ 0#64) :
    ffs64 w < 64 ∧ w.getLsbD (ffs64 w) = true ∧ ∀ j, j < ffs64 w → w.getLsbD j = false := by
  have h0 : FfsInv w (32 + 32) (w, 0) := by
    refine ⟨by simp, by simp, ?_⟩
    apply Classical.byContradiction
    intro hcon
    apply h
    apply BitVec.eq_of_getLsbD_eq
    intro i hi
    cases hb : w.getLsbD i with
    | false => simp
    | true => exact absurd ⟨i, by simpa using hi, hb⟩ hcon
  have h1 := ffsStep_inv (k := 16) (by omega) (ffsStep_inv (k := 32) (by omega) h0)
  have h2 := ffsStep_inv (k := 4) (by omega) (ffsStep_inv (k := 8) (by omega) h1)
  have h3 : FfsInv w (1 + 1) _ := ffsStep_inv (k := 2) (by omega) h2
  have h4 := ffsStep_inv (k := 1) (by omega) h3
  have e : ffs64 w =
      (ffsStep 1 (ffsStep 2 (ffsStep 4 (ffsStep 8 (ffsStep 16 (ffsStep 32 (w, 0))))))).2 := by
    unfold ffs64
    simp only []
    generalize ffsStep 2 (ffsStep 4 (ffsStep 8 (ffsStep 16 (ffsStep 32 (w, 0))))) = s
    simp only [ffsStep]
    split <;> simp_all
  obtain ⟨a, b, j, hj, hb⟩ := h4
  have hj0 : j = 0 := by omega
  subst hj0
  rw [a] at hb
  rw [e]
  generalize (ffsStep 1 (ffsStep 2 (ffsStep 4 (ffsStep 8 (ffsStep 16 (ffsStep 32 (w, 0))))))).2 = r
    at *
  refine ⟨?_, hb, b⟩
  apply Classical.byContradiction
  intro hc
  have h0 : w.getLsbD (r + 0) = false := BitVec.getLsbD_of_ge _ _ (by omega)
  rw [h0] at hb
  simp at hb

end Fio
