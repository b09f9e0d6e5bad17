import Verif.Blkreplay.Spec
import Verif.Blkmerge.Lemmas
/-
Lemmas for C99.
-/
namespace Fio.Blkreplay
open Fio.Blkmerge (Trace Rec fileBytes recBytes)

theorem alignDown_pow2 {w k x : Nat} (hx : x < 2 ^ w) : alignDown w (2 ^ k) x = x / 2 ^ k * 2 ^ k := by
  unfold alignDown
  apply Nat.eq_of_testBit_eq
  intro i
  rw [← Nat.shiftRight_eq_div_pow, ← Nat.shiftLeft_eq, Nat.testBit_and, Nat.testBit_xor,
    Nat.testBit_two_pow_sub_one, Nat.testBit_two_pow_sub_one, Nat.testBit_shiftLeft,
    Nat.testBit_shiftRight]
  have hz : w ≤ i → x.testBit i = false := fun h =>
    Nat.testBit_lt_two_pow (Nat.lt_of_lt_of_le hx (Nat.pow_le_pow_right (by omega) h))
  by_cases hi : k ≤ i
  · rw [show k + (i - k) = i by omega]
    by_cases h : i < w
    · simp [h, hi]
    · simp [hz (by omega)]
  · by_cases h : i < w
    · simp [h, hi]; omega
    · simp [hz (by omega), hi]

theorem place_eq {o : Opts} {sector : Nat} (ha : o.align = 0 ∨ ∃ k, k < 32 ∧ o.align = 2 ^ k)
    (hs : sector * 512 < 2 ^ 64) :
    place o sector = down o.align (if o.scale = 0 then sector * 512 else sector * 512 / o.scale) := by
  unfold place down
  simp only [Nat.mod_eq_of_lt hs]
  have hx : (if o.scale ≠ 0 then sector * 512 / o.scale else sector * 512) =
      (if o.scale = 0 then sector * 512 else sector * 512 / o.scale) := by
    by_cases h : o.scale = 0 <;> simp [h]
  rw [hx]
  have hlt : (if o.scale = 0 then sector * 512 else sector * 512 / o.scale) < 2 ^ 64 := by
    split
    · exact hs
    · exact Nat.lt_of_le_of_lt (Nat.div_le_self _ _) hs
  rcases ha with h | ⟨k, _, h⟩
  · rw [if_pos h, if_pos h]
  · have h2 : (2 : Nat) ^ k ≠ 0 := by have := Nat.two_pow_pos k; omega
    rw [h, if_neg h2, if_neg h2]
    exact alignDown_pow2 hlt

theorem bytes_eq {o : Opts} {b : Nat} (ha : o.align = 0 ∨ ∃ k, k < 32 ∧ o.align = 2 ^ k)
    (hb : b + o.align ≤ 2 ^ 32) : bytesAlign o b = up o.align b := by
  unfold bytesAlign up
  rcases ha with h | ⟨k, _, h⟩
  · rw [if_pos h, if_pos h]
  · have h2 : 0 < (2 : Nat) ^ k := Nat.two_pow_pos k
    rw [h] at hb ⊢
    rw [if_neg (by omega), if_neg (by omega), Nat.mod_eq_of_lt (by omega)]
    exact alignDown_pow2 (by omega)

theorem up_zero {a b : Nat} : up a b = 0 ↔ b = 0 := by
  unfold up
  by_cases ha : a = 0
  · simp [ha]
  · rw [if_neg ha]
    constructor
    · intro h
      rcases Nat.mul_eq_zero.mp h with h | h
      · rw [Nat.div_eq_zero_iff] at h
        omega
      · omega
    · rintro rfl
      rw [Nat.div_eq_of_lt (by omega)]
      simp

theorem cat_eq (t : Trace) (b : Nat) (hb : b < 16) : cat t b = has t b := by
  unfold cat has
  rw [Fio.Blkmerge.bit_ne _ _ (by omega), Nat.add_comm]

theorem low_iff (t : Trace) : t.action &&& 0xffff#32 = 1#32 ↔ t.action.toNat % 65536 = 1 := by
  rw [← BitVec.toNat_inj, BitVec.toNat_and]
  rw [show (0xffff#32).toNat = 2 ^ 16 - 1 from rfl, Nat.and_two_pow_sub_one_eq_mod]
  simp

theorem findIdx_some {p : FileE → Bool} : ∀ {l : List FileE} {i k : Nat}, findIdx p l i = some k →
    ∃ j f, k = i + j ∧ l[j]? = some f ∧ p f = true
  | f :: l, i, k, h => by
    rw [findIdx] at h
    split at h
    · rename_i hp
      cases h
      exact ⟨0, f, rfl, rfl, hp⟩
    · obtain ⟨j, f', h1, h2, h3⟩ := findIdx_some h
      exact ⟨j + 1, f', by omega, by simpa using h2, h3⟩

/-- Names of the files. -/
def names (s : St) : List Nat := s.files.map (·.name)

/-- Files, cache and opening. -/
structure Inv (o : Opts) (s : St) : Prop where
  look : ∀ f ∈ s.files, o.lookup f.maj f.min = some f.name
  cache : s.cacheMaj = 2 ^ 32 - 1 ∨
    ∃ n, (names s)[s.cacheNo]? = some n ∧ o.lookup s.cacheMaj s.cacheMin = some n
  opened : ∀ k, k < s.files.length → Ev.opened k ∈ s.evs
  order : ∀ a b dd off len delay no, s.evs = a ++ Ev.io dd off len delay no :: b → Ev.opened no ∈ a
  valid : ∀ dd off len delay no, Ev.io dd off len delay no ∈ s.evs → no < s.files.length

/-- The I/Os by names. -/
def byName (ns : List Nat) : List Ev → List Io
  | [] => []
  | .io dd off len delay no :: l => ⟨dd, off, len, delay, (ns[no]?).getD 0⟩ :: byName ns l
  | .opened _ :: l => byName ns l
  | .closed _ :: l => byName ns l

theorem iosOf_eq (fs : List FileE) : ∀ evs : List Ev, iosOf fs evs = byName (fs.map (·.name)) evs
  | [] => rfl
  | .io dd off len delay no :: l => by simp [iosOf, byName, iosOf_eq fs l]
  | .opened _ :: l => by simp [iosOf, byName, iosOf_eq fs l]
  | .closed _ :: l => by simp [iosOf, byName, iosOf_eq fs l]

theorem byName_append (ns : List Nat) : ∀ a b : List Ev, byName ns (a ++ b) = byName ns a ++ byName ns b
  | [], _ => rfl
  | .io dd off len delay no :: l, b => by simp [byName, byName_append ns l b]
  | .opened _ :: l, b => by simp [byName, byName_append ns l b]
  | .closed _ :: l, b => by simp [byName, byName_append ns l b]

theorem byName_more (ns x : List Nat) : ∀ evs : List Ev,
    (∀ dd off len delay no, Ev.io dd off len delay no ∈ evs → no < ns.length) →
    byName (ns ++ x) evs = byName ns evs
  | [], _ => rfl
  | .io dd off len delay no :: l, h => by
    have h1 := h dd off len delay no (by simp)
    rw [byName, byName, byName_more ns x l (fun dd off len delay no hm => h dd off len delay no (by simp [hm])),
      List.getElem?_append_left h1]
  | .opened _ :: l, h => by
    rw [byName, byName, byName_more ns x l (fun dd off len delay no hm => h dd off len delay no (by simp [hm]))]
  | .closed _ :: l, h => by
    rw [byName, byName, byName_more ns x l (fun dd off len delay no hm => h dd off len delay no (by simp [hm]))]

/-- The I/Os of a state. -/
def got (s : St) : List Io := byName (names s) s.evs

theorem snoc_split {α : Type} {l a b : List α} {x y : α} (h : l ++ [x] = a ++ y :: b) :
    (a = l ∧ x = y ∧ b = []) ∨ ∃ b', b = b' ++ [x] ∧ l = a ++ y :: b' := by
  rcases List.eq_nil_or_concat b with rfl | ⟨b', z, rfl⟩
  · left
    have := List.append_inj' h rfl
    exact ⟨this.1.symm, by simpa using this.2, rfl⟩
  · right
    rw [List.concat_eq_append] at h ⊢
    have h' : l ++ [x] = (a ++ y :: b') ++ [z] := by simpa using h
    have := List.append_inj' h' rfl
    obtain ⟨h1, h2⟩ := this
    cases h2
    exact ⟨b', rfl, h1⟩

theorem order_opened {evs : List Ev} (k : Nat)
    (h : ∀ a b dd off len delay no, evs = a ++ Ev.io dd off len delay no :: b → Ev.opened no ∈ a) :
    ∀ a b dd off len delay no, evs ++ [Ev.opened k] = a ++ Ev.io dd off len delay no :: b → Ev.opened no ∈ a := by
  intro a b dd off len delay no he
  rcases snoc_split he with ⟨_, h1, _⟩ | ⟨b', _, h2⟩
  · cases h1
  · exact h a b' dd off len delay no h2

theorem addFile_spec {o : Opts} {s : St} (h : Inv o s) {dev nm : Nat} (hdev : dev < 2 ^ 32)
    (hl : o.lookup (dev / 2 ^ 20) (dev % 2 ^ 20) = some nm) :
    ∃ fs e cm cn c, (addFile o s dev).2 =
        { s with files := fs, evs := s.evs ++ e, cacheMaj := cm, cacheMin := cn, cacheNo := c } ∧
      Inv o (addFile o s dev).2 ∧ got (addFile o s dev).2 = got s ∧
      (names (addFile o s dev).2)[(addFile o s dev).1]? = some nm := by
  unfold addFile
  simp only
  have hmaj : dev / 2 ^ 20 < 2 ^ 12 := by omega
  by_cases hc : s.cacheMaj = dev / 2 ^ 20 ∧ s.cacheMin = dev % 2 ^ 20
  · rw [if_pos hc]
    refine ⟨s.files, [], s.cacheMaj, s.cacheMin, s.cacheNo, by simp, h, rfl, ?_⟩
    rcases h.cache with h1 | ⟨n, h1, h2⟩
    · exfalso
      have := hc.1
      omega
    · rw [hc.1, hc.2, hl] at h2
      cases h2
      exact h1
  · rw [if_neg hc]
    cases hf : findIdx (fun f => f.maj == dev / 2 ^ 20 && f.min == dev % 2 ^ 20) s.files 0 with
    | some i =>
      simp only
      obtain ⟨j, f, h1, h2, h3⟩ := findIdx_some hf
      rw [Nat.zero_add] at h1
      subst h1
      have h4 := h.look f (List.mem_of_getElem? h2)
      simp only [Bool.and_eq_true, beq_iff_eq] at h3
      rw [h3.1, h3.2, hl] at h4
      have hn : (names s)[i]? = some nm := by
        rw [names, List.getElem?_map, h2]
        exact h4.symm
      refine ⟨s.files, [], dev / 2 ^ 20, dev % 2 ^ 20, i, by simp, ?_, rfl, hn⟩
      exact ⟨h.look, .inr ⟨nm, hn, hl⟩, h.opened, h.order, h.valid⟩
    | none =>
      simp only [hl]
      cases hf2 : findIdx (fun f => f.name == nm) s.files 0 with
      | some i =>
        simp only
        obtain ⟨j, f, h1, h2, h3⟩ := findIdx_some hf2
        rw [Nat.zero_add] at h1
        subst h1
        rw [beq_iff_eq] at h3
        have hil : i < s.files.length := (List.getElem?_eq_some_iff.mp h2).1
        have hns : (s.files.set i ⟨nm, dev / 2 ^ 20, dev % 2 ^ 20⟩).map (·.name) = s.files.map (·.name) := by
          apply List.ext_getElem?
          intro k
          by_cases hk : k = i
          · subst hk
            rw [List.getElem?_map, List.getElem?_set_self hil, List.getElem?_map, h2]
            simp [h3]
          · rw [List.getElem?_map, List.getElem?_set_ne (Ne.symm hk), List.getElem?_map]
        have hn : (s.files.map (·.name))[i]? = some nm := by
          rw [List.getElem?_map, h2]
          simp [h3]
        refine ⟨s.files.set i ⟨nm, dev / 2 ^ 20, dev % 2 ^ 20⟩, [.opened i], dev / 2 ^ 20, dev % 2 ^ 20, i, rfl, ⟨?_, ?_, ?_, ?_, ?_⟩, ?_, ?_⟩
        · intro f' hf'
          rcases List.mem_or_eq_of_mem_set hf' with hf' | rfl
          · exact h.look f' hf'
          · exact hl
        · right
          refine ⟨nm, ?_, hl⟩
          simp only [names, hns]
          exact hn
        · intro k hk
          simp only [List.length_set] at hk
          simp [h.opened k hk]
        · exact order_opened i h.order
        · intro dd off len delay no hm
          simp only [List.mem_append, List.mem_singleton, reduceCtorEq, or_false] at hm
          simpa using h.valid dd off len delay no hm
        · simp only [got, names, hns, byName_append, byName, List.append_nil]
        · simp only [names, hns]
          exact hn
      | none =>
        simp only
        have hn : (s.files.map (·.name) ++ [nm])[s.files.length]? = some nm := by
          rw [List.getElem?_append_right (by simp)]
          simp
        refine ⟨s.files ++ [⟨nm, dev / 2 ^ 20, dev % 2 ^ 20⟩], [.opened s.files.length], dev / 2 ^ 20, dev % 2 ^ 20, s.files.length, rfl, ⟨?_, ?_, ?_, ?_, ?_⟩, ?_, ?_⟩
        · intro f' hf'
          rcases List.mem_append.mp hf' with hf' | hf'
          · exact h.look f' hf'
          · rw [List.mem_singleton] at hf'
            subst hf'
            exact hl
        · right
          refine ⟨nm, ?_, hl⟩
          simp only [names, List.map_append, List.map_cons, List.map_nil]
          exact hn
        · intro k hk
          simp only [List.length_append, List.length_singleton] at hk
          by_cases hk' : k < s.files.length
          · simp [h.opened k hk']
          · simp; omega
        · exact order_opened _ h.order
        · intro dd off len delay no hm
          simp only [List.mem_append, List.mem_singleton, reduceCtorEq, or_false] at hm
          have := h.valid dd off len delay no hm
          simp
          omega
        · simp only [got, names, List.map_append, List.map_cons, List.map_nil, byName_append, byName, List.append_nil]
          exact byName_more _ _ _ (by simpa using h.valid)
        · simp only [names, List.map_append, List.map_cons, List.map_nil]
          exact hn

end Fio.Blkreplay
