/-
Byte buffers as lists, with bounds-checked memcpy.
-/
namespace Fio

abbrev Byte := BitVec 8

/-- `memcpy(buf + off, src, |src|)`: `none` when the destination range leaves the buffer
(undefined behaviour in C). -/
def memWrite {α : Type} (buf : List α) (off : Nat) (src : List α) : Option (List α) :=
  if off + src.length ≤ buf.length then some (buf.take off ++ src ++ buf.drop (off + src.length))
  else none

/-- `memcpy(dst, buf + off, len)`: the bytes read, `none` when the source range leaves the
buffer (undefined behaviour in C). -/
def memRead {α : Type} (buf : List α) (off len : Nat) : Option (List α) :=
  if off + len ≤ buf.length then some ((buf.drop off).take len) else none

theorem memWrite_some {α : Type} {buf src : List α} {off : Nat} (h : off + src.length ≤ buf.length) :
    ∃ b, memWrite buf off src = some b ∧ b.length = buf.length ∧
      ∀ i : Nat, b[i]? = if off ≤ i ∧ i < off + src.length then src[i - off]? else buf[i]? := by
  refine ⟨_, if_pos h, ?_, ?_⟩
  · simp; omega
  · intro i
    rw [List.append_assoc, List.getElem?_append]
    split
    · rename_i h1
      rw [List.length_take, Nat.min_eq_left (by omega)] at h1
      rw [if_neg (by omega), List.getElem?_take_of_lt h1]
    · rename_i h1
      rw [List.length_take, Nat.min_eq_left (by omega)] at h1 ⊢
      rw [List.getElem?_append]
      split
      · rename_i h2; rw [if_pos (by omega)]
      · rename_i h2; rw [if_neg (by omega), List.getElem?_drop]
        congr 1; omega

theorem memRead_some {α : Type} {buf : List α} {off len : Nat} (h : off + len ≤ buf.length) :
    ∃ b, memRead buf off len = some b ∧ b.length = len ∧
      ∀ i : Nat, i < len → b[i]? = buf[off + i]? := by
  refine ⟨_, if_pos h, ?_, ?_⟩
  · simp; omega
  · intro i hi
    rw [List.getElem?_take_of_lt hi, List.getElem?_drop]

end Fio
