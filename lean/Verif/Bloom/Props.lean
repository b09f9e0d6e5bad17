import Verif.Bloom.Model
/-
C23: the bloom filter has no false negatives.
-/
namespace Fio.Bloom

/-- Bit `h` of the map. -/
def bit (map : List (BitVec 32)) (h : Nat) : Bool :=
  match map[h / 32]? with
  | some w => w.getLsbD (h % 32)
  | none => false

theorem test_iff (w : BitVec 32) {i : Nat} (hi : i < 32) :
    (w &&& (1#32 <<< i) ≠ 0#32) ↔ w.getLsbD i = true := by
  constructor
  · intro h
    apply Classical.byContradiction
    intro hf
    apply h
    apply BitVec.eq_of_getLsbD_eq
    intro j hj
    rw [BitVec.getLsbD_and, BitVec.getLsbD_shiftLeft, BitVec.getLsbD_one]
    by_cases hji : j = i
    · subst hji; simp [hf]
    · have : (decide (0 < 32) && decide (j - i = 0) && !decide (j < i)) = false := by
        by_cases j < i
        · simp [*]
        · have : j - i ≠ 0 := by omega
          simp [this]
      simp; omega
  · intro h h0
    have := congrArg (fun x => BitVec.getLsbD x i) h0
    rw [BitVec.getLsbD_and, h] at this
    simp [hi] at this

theorem checkLoop_spec (set : Bool) : ∀ (hs : List Nat) (map : List (BitVec 32)) (n : Nat),
    (∀ h ∈ hs, h / 32 < map.length) →
    ∃ map' k, checkLoop set hs map n = some (map', n + k) ∧ map'.length = map.length ∧ k ≤ hs.length ∧
      (∀ i, bit map i = true → bit map' i = true) ∧
      (set = true → ∀ h ∈ hs, bit map' h = true) ∧
      ((∀ h ∈ hs, bit map h = true) → k = hs.length) ∧
      (set = false → k = hs.length → ∀ h ∈ hs, bit map h = true) ∧
      (set = false → map' = map) := by
  intro hs
  induction hs with
  | nil => intro map n _; exact ⟨map, 0, rfl, rfl, by simp, by simp, by simp, by simp, by simp, by simp⟩
  | cons h hs ih =>
    intro map n hb
    have hlt := hb h (by simp)
    have hw : map[h / 32]? = some map[h / 32] := List.getElem?_eq_getElem hlt
    have h32 : h % 32 < 32 := Nat.mod_lt _ (by omega)
    have hbit : bit map h = (map[h / 32]).getLsbD (h % 32) := by simp [bit, hw]
    unfold checkLoop
    rw [hw]
    by_cases ht : map[h / 32] &&& (1#32 <<< (h % 32)) ≠ 0#32
    · have hset : bit map h = true := by rw [hbit]; exact (test_iff _ h32).1 ht
      simp only [if_pos ht]
      obtain ⟨map', k, e1, e2, e3, e4, e5, e6, e7, e8⟩ := ih map (n + 1) (fun x hx => hb x (by simp [hx]))
      refine ⟨map', k + 1, by rw [e1]; congr 2; omega, e2, by simp; omega, e4, ?_, ?_, ?_, e8⟩
      · intro hs' x hx
        rcases List.mem_cons.1 hx with rfl | hx
        · exact e4 _ hset
        · exact e5 hs' x hx
      · intro hall
        rw [e6 (fun x hx => hall x (by simp [hx]))]; simp
      · intro hf hk x hx
        rcases List.mem_cons.1 hx with rfl | hx
        · exact hset
        · exact e7 hf (by simpa using hk) x hx
    · have hclr : ¬ bit map h = true := by rw [hbit]; exact fun hh => ht ((test_iff _ h32).2 hh)
      simp only [if_neg ht]
      cases set with
      | false =>
        simp only [Bool.false_eq_true, if_false]
        refine ⟨map, 0, rfl, rfl, by simp, by simp, by simp, ?_, ?_, by simp⟩
        · intro hall; exact absurd (hall h (by simp)) hclr
        · intro _ hk; simp at hk
      | true =>
        simp only [if_true]
        have hmono : ∀ i, bit map i = true →
            bit (map.set (h / 32) (map[h / 32] ||| (1#32 <<< (h % 32)))) i = true := by
          intro i hi
          unfold bit at hi ⊢
          rw [List.getElem?_set]
          by_cases hih : h / 32 = i / 32
          · rw [if_pos hih, if_pos hlt]
            rw [← hih, hw] at hi
            simp only at hi ⊢
            rw [BitVec.getLsbD_or, hi]; rfl
          · rw [if_neg hih]; exact hi
        have hnew : bit (map.set (h / 32) (map[h / 32] ||| (1#32 <<< (h % 32)))) h = true := by
          unfold bit
          rw [List.getElem?_set, if_pos rfl, if_pos hlt]
          simp [h32]
        obtain ⟨map', k, e1, e2, e3, e4, e5, e6, e7, e8⟩ :=
          ih (map.set (h / 32) (map[h / 32] ||| (1#32 <<< (h % 32)))) n
            (fun x hx => by rw [List.length_set]; exact hb x (by simp [hx]))
        refine ⟨map', k, e1, by rw [e2, List.length_set], by simp; omega, fun i hi => e4 i (hmono i hi), ?_, ?_,
          by simp, by simp⟩
        · intro _ x hx
          rcases List.mem_cons.1 hx with rfl | hx
          · exact e4 _ hnew
          · exact e5 rfl x hx
        · intro hall; exact absurd (hall h (by simp)) hclr

/-- The filter's map has room for every entry number. -/
def Ok (b : Bloom) : Prop := 0 < b.nentries ∧ (b.nentries - 1) / 32 < b.map.length

/-- All bits of `d` are set in the filter. -/
def Has (hashes : List Hash) (b : Bloom) (d : List Byte) : Prop :=
  ∀ f ∈ hashes, bit b.map ((f d).toNat % b.nentries) = true

theorem bloomCheck_spec (hashes : List Hash) (b : Bloom) (hok : Ok b) (d : List Byte) (s : Bool) :
    ∃ b' r, bloomCheck hashes b d s = some (b', r) ∧ Ok b' ∧
      (∀ d', Has hashes b d' → Has hashes b' d') ∧ (s = true → Has hashes b' d) ∧
      (Has hashes b d → r = true) ∧ (s = false → r = true → Has hashes b d) ∧ (s = false → b' = b) := by
  obtain ⟨h0, h1⟩ := hok
  unfold bloomCheck
  rw [if_neg (by omega)]
  have hb : ∀ h ∈ hashes.map (fun f => (f d).toNat % b.nentries), h / 32 < b.map.length := by
    intro h hh
    obtain ⟨f, _, rfl⟩ := List.mem_map.1 hh
    have : (f d).toNat % b.nentries < b.nentries := Nat.mod_lt _ h0
    have : (f d).toNat % b.nentries / 32 ≤ (b.nentries - 1) / 32 := Nat.div_le_div_right (by omega)
    omega
  obtain ⟨map', k, e1, e2, e3, e4, e5, e6, e7, e8⟩ := checkLoop_spec s _ b.map 0 hb
  rw [e1]
  rw [List.length_map] at *
  refine ⟨{ b with map := map' }, decide (0 + k = hashes.length), rfl, ⟨h0, by simp only; omega⟩, ?_, ?_, ?_, ?_, ?_⟩
  · intro d' hd' f hf; exact e4 _ (hd' f hf)
  · intro hs f hf; exact e5 hs _ (List.mem_map.2 ⟨f, hf, rfl⟩)
  · intro hd
    have := e6 (by intro h hh; obtain ⟨f, hf, rfl⟩ := List.mem_map.1 hh; exact hd f hf)
    simp [this]
  · intro hs hr f hf
    exact e7 hs (by simpa using hr) _ (List.mem_map.2 ⟨f, hf, rfl⟩)
  · intro hs; rw [e8 hs]

theorem run_spec (hashes : List Hash) : ∀ (ops : List (List Byte × Bool)) (b : Bloom), Ok b →
    ∃ b' rs, run hashes b ops = some (b', rs) ∧ Ok b' ∧ (∀ d, Has hashes b d → Has hashes b' d) ∧
      ∀ d, (d, true) ∈ ops → Has hashes b' d := by
  intro ops
  induction ops with
  | nil => intro b h; exact ⟨b, [], rfl, h, by simp, by simp⟩
  | cons op ops ih =>
    intro b h
    obtain ⟨d, s⟩ := op
    obtain ⟨b1, r, h1, h2, h3, h4, _⟩ := bloomCheck_spec hashes b h d s
    obtain ⟨b2, rs, g1, g2, g3, g4⟩ := ih b1 h2
    refine ⟨b2, r :: rs, by simp [run, h1, g1], g2, fun d' hd' => g3 d' (h3 d' hd'), ?_⟩
    intro d' hd'
    rcases List.mem_cons.1 hd' with heq | hd'
    · obtain ⟨rfl, rfl⟩ := Prod.mk.inj heq
      exact g3 _ (h4 rfl)
    · exact g4 d' hd'

/-- **C23.** For any hash functions and any filter size from 1 to 2^64-32: every sequence of
insertions and queries runs without leaving the map, and afterwards a query (or insertion) of any
data inserted before answers "present". -/
theorem C23_no_false_negatives (hashes : List Hash) (entries : Nat) (h0 : 0 < entries)
    (h1 : entries + 32 ≤ 2 ^ 64) (ops : List (List Byte × Bool)) :
    ∃ b rs, run hashes (bloomNew entries) ops = some (b, rs) ∧
      ∀ d s, (d, true) ∈ ops → ∃ b', bloomCheck hashes b d s = some (b', true) := by
  have hok : Ok (bloomNew entries) := by
    refine ⟨h0, ?_⟩
    simp only [bloomNew, List.length_replicate]
    rw [Nat.mod_eq_of_lt (by omega)]; omega
  obtain ⟨b, rs, g1, g2, g3, g4⟩ := run_spec hashes ops _ hok
  refine ⟨b, rs, g1, ?_⟩
  intro d s hd
  obtain ⟨b', r, e1, e2, e3, e4, e5, _⟩ := bloomCheck_spec hashes b g2 d s
  exact ⟨b', by rw [e1, e5 (g4 d hd)]⟩

/-- A pure query neither changes the filter nor answers "present" unless every bit of the data
is set, so a fresh filter answers "absent" for everything. -/
theorem C23_query_pure (hashes : List Hash) (hne : hashes ≠ []) (entries : Nat) (h0 : 0 < entries)
    (h1 : entries + 32 ≤ 2 ^ 64) (d : List Byte) :
    bloomCheck hashes (bloomNew entries) d false = some (bloomNew entries, false) := by
  have hok : Ok (bloomNew entries) := by
    refine ⟨h0, ?_⟩
    simp only [bloomNew, List.length_replicate]
    rw [Nat.mod_eq_of_lt (by omega)]; omega
  obtain ⟨b', r, e1, e2, e3, e4, e5, e6, e7⟩ := bloomCheck_spec hashes _ hok d false
  rw [e1, e7 rfl]
  cases r with
  | false => rfl
  | true =>
    obtain ⟨f, hf⟩ := List.exists_mem_of_ne_nil _ hne
    have := e6 rfl rfl f hf
    simp only [bit, bloomNew] at this
    split at this
    · rename_i w hw
      have hw0 := (List.mem_replicate.1 (List.mem_of_getElem? hw)).2
      rw [hw0] at this
      simp at this
    · cases this

/-- A concrete run with two hash functions on 40 entries: insertion of [1], [2], and answers. -/
example :
    (run [fun d => BitVec.ofNat 32 (d.length + 7 * (d.headD 0).toNat), fun d => BitVec.ofNat 32 (3 * (d.headD 0).toNat)]
      (bloomNew 40) [([1], true), ([2], false), ([2], true), ([2], false), ([1], false)]).map (·.2) =
    some [false, false, false, true, true] := by decide +kernel

end Fio.Bloom
