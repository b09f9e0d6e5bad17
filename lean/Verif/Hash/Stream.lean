import Verif.Hash.Words

/-! # Blocks of a string given in pieces -/

namespace Fio.Hash
open Spec (blocks slice)

/-- What is left after the full blocks. -/
def rest (B : Nat) (l : List Byte) : List Byte := l.drop (B * (l.length / B))

theorem rest_length (B : Nat) (l : List Byte) : (rest B l).length = l.length % B := by
  rw [rest, List.length_drop]
  have := Nat.div_add_mod l.length B
  omega

theorem blocks_lt (B : Nat) (l : List Byte) (h : l.length < B) : blocks B l = [] := by
  rw [blocks, Nat.div_eq_of_lt h]; rfl

theorem rest_lt (B : Nat) (l : List Byte) (h : l.length < B) : rest B l = l := by
  rw [rest, Nat.div_eq_of_lt h, Nat.mul_zero, List.drop_zero]

theorem div_step (B n : Nat) (hB : 0 < B) (h : B ≤ n) : n / B = (n - B) / B + 1 := by
  rw [← Nat.sub_add_cancel h, Nat.add_div_right _ hB, Nat.add_sub_cancel]

theorem blocks_cons (B : Nat) (hB : 0 < B) (l : List Byte) (h : B ≤ l.length) :
    blocks B l = l.take B :: blocks B (l.drop B) := by
  rw [blocks, div_step B _ hB h, List.range_succ_eq_map, List.map_cons, List.map_map, blocks, List.length_drop]
  congr 1
  apply List.map_congr_left
  intro i _
  simp only [Function.comp, slice, List.drop_drop]
  rw [Nat.mul_succ, Nat.add_comm]

theorem rest_step (B : Nat) (hB : 0 < B) (l : List Byte) (h : B ≤ l.length) : rest B l = rest B (l.drop B) := by
  rw [rest, rest, div_step B _ hB h, List.drop_drop, List.length_drop, Nat.mul_succ, Nat.add_comm]

theorem blocks_append (B : Nat) (hB : 0 < B) (n : Nat) : ∀ (a b : List Byte), a.length = B * n →
    blocks B (a ++ b) = blocks B a ++ blocks B b ∧ rest B (a ++ b) = rest B b := by
  induction n with
  | zero =>
    intro a b h
    have : a = [] := List.length_eq_zero_iff.mp (by omega)
    subst this
    rw [blocks_lt B [] hB]; exact ⟨rfl, rfl⟩
  | succ n ih =>
    intro a b h
    rw [Nat.mul_succ] at h
    have h1 : B ≤ a.length := by omega
    have h2 : B ≤ (a ++ b).length := by rw [List.length_append]; omega
    obtain ⟨e1, e2⟩ := ih (a.drop B) b (by rw [List.length_drop]; omega)
    rw [blocks_cons B hB _ h2, blocks_cons B hB _ h1, rest_step B hB _ h2, List.drop_append_of_le_length h1,
      List.take_append_of_le_length h1, e1, e2]
    exact ⟨rfl, rfl⟩

theorem split_full (B : Nat) (m : List Byte) : m = m.take (B * (m.length / B)) ++ rest B m :=
  (List.take_append_drop _ m).symm

/-- More data: only what was left over matters. -/
theorem blocks_more (B : Nat) (hB : 0 < B) (m d : List Byte) :
    blocks B (m ++ d) = blocks B m ++ blocks B (rest B m ++ d) ∧ rest B (m ++ d) = rest B (rest B m ++ d) := by
  have hl : (m.take (B * (m.length / B))).length = B * (m.length / B) := by
    rw [List.length_take]
    exact Nat.min_eq_left (Nat.mul_div_le _ _)
  have hr := rest_length B m
  have hlt : (rest B m).length < B := by rw [hr]; exact Nat.mod_lt _ hB
  have hs := split_full B m
  generalize hx : rest B m = r at *
  generalize m.take (B * (m.length / B)) = a at *
  obtain ⟨p1, p2⟩ := blocks_append B hB _ a (r ++ d) hl
  obtain ⟨q1, _⟩ := blocks_append B hB _ a r hl
  rw [hs, List.append_assoc, p1, p2, q1, blocks_lt B r hlt, List.append_nil]
  exact ⟨rfl, rfl⟩

theorem cpy_eq (b : List Byte) (off : Nat) (src : List Byte) (soff n : Nat) (h1 : soff + n ≤ src.length)
    (h2 : off + n ≤ b.length) :
    cpy b off src soff n = some (b.take off ++ ((src.drop soff).take n ++ b.drop (off + n))) := by
  have hl : ((src.drop soff).take n).length = n := by rw [List.length_take, List.length_drop]; omega
  rw [cpy, rd, if_pos h1]
  simp only [Option.bind_eq_bind, Option.bind_some, put, hl, if_pos h2]

/-- The state of a hash function after the string `m`: `R` relates the state of the program to the one of the
standard. -/
structure Str {S T : Type} (B : Nat) (R : S → T → Prop) (comp : T → List Byte → T) (s0 : T) (m : List Byte) (st : S)
    (buf : List Byte) : Prop where
  st : R st ((blocks B m).foldl comp s0)
  len : B ≤ buf.length
  buf : buf.take (m.length % B) = rest B m

section
variable {S T : Type} {B : Nat} {R : S → T → Prop} {comp : T → List Byte → T} {s0 : T} {m : List Byte} {st : S}
  {buf : List Byte}

/-- The data fit into the buffer. -/
theorem Str.small (hB : 0 < B) (h : Str B R comp s0 m st buf) (d : List Byte) (hd : m.length % B + d.length < B) :
    Str B R comp s0 (m ++ d) st (buf.take (m.length % B) ++ (d ++ buf.drop (m.length % B + d.length))) := by
  have hr := rest_length B m
  obtain ⟨e1, e2⟩ := blocks_more B hB m d
  have hlt : (rest B m ++ d).length < B := by rw [List.length_append, hr]; exact hd
  rw [blocks_lt B _ hlt] at e1
  rw [rest_lt B _ hlt] at e2
  have hl := h.len
  refine ⟨by rw [e1, List.append_nil]; exact h.st, ?_, ?_⟩
  · simp only [List.length_append, List.length_take, List.length_drop]; omega
  · rw [h.buf, e2, ← List.append_assoc, List.length_append, ← Nat.mod_add_mod, Nat.mod_eq_of_lt hd, ← hr,
      ← List.length_append, List.take_left]

/-- Where the rest begins, if a block gets full. -/
theorem rest_big (hB : 0 < B) (m d : List Byte) (hd : B ≤ m.length % B + d.length) :
    rest B (m ++ d) = d.drop (B - m.length % B + B * ((d.length - (B - m.length % B)) / B)) := by
  have hr := rest_length B m
  have hlt := Nat.mod_lt m.length hB
  have hge : B ≤ (rest B m ++ d).length := by rw [List.length_append, hr]; exact hd
  have hdr : (rest B m ++ d).drop B = d.drop (B - m.length % B) := by
    rw [List.drop_append, List.drop_eq_nil_of_le (by omega), hr, List.nil_append]
  rw [(blocks_more B hB m d).2, rest_step B hB _ hge, hdr, rest, List.drop_drop, List.length_drop]

/-- A block gets full. -/
theorem Str.big (hB : 0 < B) (d : List Byte) (hd : B ≤ m.length % B + d.length) {st' : S}
    (hs : R st' ((blocks B (d.drop (B - m.length % B))).foldl comp
      (comp ((blocks B m).foldl comp s0) ((rest B m ++ d).take B))))
    (n : Nat) (hn : n = B - m.length % B + B * ((d.length - (B - m.length % B)) / B)) {buf2 : List Byte}
    (h2 : B ≤ buf2.length) :
    Str B R comp s0 (m ++ d) st' (d.drop n ++ buf2.drop (d.length - n)) := by
  have hr := rest_length B m
  have hlt := Nat.mod_lt m.length hB
  obtain ⟨e1, _⟩ := blocks_more B hB m d
  have hge : B ≤ (rest B m ++ d).length := by rw [List.length_append, hr]; exact hd
  have hdr : (rest B m ++ d).drop B = d.drop (B - m.length % B) := by
    rw [List.drop_append, List.drop_eq_nil_of_le (by omega), hr, List.nil_append]
  rw [blocks_cons B hB _ hge, hdr] at e1
  have e3 : rest B (m ++ d) = d.drop n := by rw [rest_big hB m d hd, hn]
  have e4 : (d.drop n).length = (m ++ d).length % B := by rw [← e3, rest_length]
  have e5 := Nat.mod_lt (m ++ d).length hB
  refine ⟨?_, ?_, ?_⟩
  · rw [e1, List.foldl_append, List.foldl_cons]; exact hs
  · simp only [List.length_append, List.length_drop] at e4 e5 ⊢; omega
  · rw [e3, ← e4, List.take_left]

end

/-- The first block, when a part of it was in the buffer. -/
theorem first_block {B p : Nat} {m d buf : List Byte} (hB : 0 < B) (hl : B ≤ buf.length) (hp : p = m.length % B)
    (hb : buf.take p = rest B m) (hd : B ≤ p + d.length) :
    (buf.take p ++ (d.take (B - p) ++ buf.drop (p + (B - p)))).take B = (rest B m ++ d).take B ∧
    B ≤ (buf.take p ++ (d.take (B - p) ++ buf.drop (p + (B - p)))).length := by
  have hr := rest_length B m
  have hlt := Nat.mod_lt m.length hB
  constructor
  · rw [hb, List.take_append, List.take_append, hr, ← hp]
    congr 1
    rw [List.take_append, List.length_take, List.take_take, Nat.min_self,
      show B - p - min (B - p) d.length = 0 by omega, List.take_zero, List.append_nil, hr, ← hp]
  · simp only [List.length_append, List.length_take, List.length_drop]; omega

/-! ## The loop of SHA-256 and SHA-3 -/

/-- A `do … while` loop over the blocks of `data`. -/
def loopG {S : Type} (tr : S → List Byte → Option S) (B : Nat) (data : List Byte) : Nat → S → List Byte → Nat →
    Option (S × Nat)
  | 0, _, _, _ => none
  | n + 1, st, src, done => do
    let st ← tr st src
    let done := u32 (done + B)
    if u32 (done + (B - 1)) < data.length then loopG tr B data n st (data.drop done) done else some (st, done)

theorem loopG_eq {S T : Type} {tr : S → List Byte → Option S} {B : Nat} {R : S → T → Prop} {comp : T → List Byte → T}
    (hB : 0 < B) (htr : ∀ st a src, R st a → B ≤ src.length → ∃ st', tr st src = some st' ∧ R st' (comp a (src.take B)))
    (data : List Byte) (hd : data.length + 2 * B ≤ 4294967296) (n : Nat) :
    ∀ (st : S) (a : T) (src : List Byte) (done d : Nat), R st a → B ≤ src.length → u32 (done + B) = d →
      d ≤ data.length → (data.length - d) / B < n →
      ∃ st', loopG tr B data n st src done = some (st', d + B * ((data.length - d) / B)) ∧
        R st' ((blocks B (data.drop d)).foldl comp (comp a (src.take B))) := by
  induction n with
  | zero => intro _ _ _ _ _ _ _ _ _ h; exact absurd h (Nat.not_lt_zero _)
  | succ n ih =>
    intro st a src done d hR hs hu hle hn
    obtain ⟨st1, t1, t2⟩ := htr st a src hR hs
    have hu2 : u32 (d + (B - 1)) = d + (B - 1) := by rw [u32]; omega
    simp only [loopG, t1, Option.bind_eq_bind, Option.bind_some, hu, hu2]
    by_cases hc : d + (B - 1) < data.length
    · rw [if_pos hc]
      have hle2 : B ≤ data.length - d := by omega
      have hst := div_step B _ hB hle2
      have hx : data.length - d - B = data.length - (d + B) := by omega
      rw [hx] at hst
      obtain ⟨st', p1, p2⟩ := ih st1 (comp a (src.take B)) (data.drop d) d (d + B) t2 (by rw [List.length_drop]; omega)
        (by rw [u32]; omega) (by omega) (by omega)
      refine ⟨st', ?_, ?_⟩
      · rw [p1, hst, Nat.mul_succ, Nat.add_assoc, Nat.add_comm B]
      · rw [blocks_cons B hB _ (by rw [List.length_drop]; omega), List.drop_drop, List.foldl_cons]; exact p2
    · rw [if_neg hc]
      have h0 : (data.length - d) / B = 0 := Nat.div_eq_of_lt (by omega)
      refine ⟨st1, by rw [h0, Nat.mul_zero, Nat.add_zero], ?_⟩
      rw [blocks_lt B _ (by rw [List.length_drop]; omega)]; exact t2

/-- The update of SHA-256 and SHA-3: state, buffer and the number of bytes in it. -/
def updG {S : Type} (tr : S → List Byte → Option S) (B : Nat) (part : Nat) (st : S) (buf data : List Byte) :
    Option (S × List Byte × Nat) := do
  if u32 (part + data.length) > B - 1 then do
    let (buf, src, done) ← if part ≠ 0 then do
        let done := u32 (4294967296 - part)
        let buf ← cpy buf part data 0 (u32 (done + B))
        some (buf, buf, done)
      else some (buf, data, 0)
    let (st, done) ← loopG tr B data (data.length + 1) st src done
    let buf ← cpy buf 0 data done (data.length - done)
    some (st, buf, data.length - done)
  else do
    let buf ← cpy buf part data 0 data.length
    some (st, buf, part + data.length)

theorem updG_eq {S T : Type} {tr : S → List Byte → Option S} {B : Nat} {R : S → T → Prop} {comp : T → List Byte → T}
    {s0 : T} (hB : 0 < B) (hB2 : B ≤ 4294967295)
    (htr : ∀ st a src, R st a → B ≤ src.length → ∃ st', tr st src = some st' ∧ R st' (comp a (src.take B)))
    {m : List Byte} {st : S} {buf : List Byte} (h : Str B R comp s0 m st buf) (data : List Byte)
    (hd : data.length + 2 * B ≤ 4294967296) :
    ∃ st' buf', updG tr B (m.length % B) st buf data = some (st', buf', (m ++ data).length % B) ∧ Str B R comp s0 (m ++ data) st' buf' := by
  have hlt := Nat.mod_lt m.length hB
  have hl := h.len
  have hb := h.buf
  have hrl := rest_length B m
  have hu : u32 (m.length % B + data.length) = m.length % B + data.length := by rw [u32]; omega
  by_cases hc : m.length % B + data.length > B - 1
  · have hge : B ≤ m.length % B + data.length := by omega
    have key : ∀ (buf2 src : List Byte) (done : Nat), B ≤ buf2.length → B ≤ src.length →
        src.take B = (rest B m ++ data).take B → u32 (done + B) = B - m.length % B →
        ∃ st' buf', (do
          let (st, done) ← loopG tr B data (data.length + 1) st src done
          let buf ← cpy buf2 0 data done (data.length - done)
          some (st, buf, data.length - done)) = some (st', buf', (m ++ data).length % B) ∧ Str B R comp s0 (m ++ data) st' buf' := by
      intro buf2 src done hb2 hs hst hdn
      obtain ⟨st', l1, l2⟩ := loopG_eq hB htr data hd (data.length + 1) st _ src done (B - m.length % B) h.st hs hdn
        (by omega) (Nat.lt_succ_of_le (Nat.le_trans (Nat.div_le_self _ _) (by omega)))
      rw [hst] at l2
      have hk : B * ((data.length - (B - m.length % B)) / B) ≤ data.length - (B - m.length % B) := Nat.mul_div_le _ _
      have hk2 : data.length - (B - m.length % B) < B * ((data.length - (B - m.length % B)) / B) + B := by
        have := Nat.div_add_mod (data.length - (B - m.length % B)) B
        have := Nat.mod_lt (data.length - (B - m.length % B)) hB
        omega
      have hrb := rest_length B (m ++ data)
      rw [rest_big hB m data hge, List.length_drop] at hrb
      have hbig := Str.big hB data hge l2 _ rfl hb2
      generalize B * ((data.length - (B - m.length % B)) / B) = k at *
      simp only [l1, Option.bind_eq_bind, Option.bind_some]
      rw [cpy_eq _ _ _ _ _ (by omega) (by omega), List.take_zero, List.nil_append, Nat.zero_add,
        List.take_of_length_le (Nat.le_of_eq List.length_drop)]
      exact ⟨st', _, by rw [hrb]; rfl, hbig⟩
    rw [updG, hu, if_pos hc]
    by_cases hp : m.length % B = 0
    · have hr0 : rest B m = [] := List.length_eq_zero_iff.mp (by omega)
      rw [if_neg (by omega)]
      simp only [Option.bind_eq_bind, Option.bind_some]
      exact key buf data 0 hl (by omega) (by rw [hr0, List.nil_append]) (by rw [u32]; omega)
    · have h1 : u32 (4294967296 - m.length % B) = 4294967296 - m.length % B := by rw [u32]; omega
      have h2 : u32 (4294967296 - m.length % B + B) = B - m.length % B := by rw [u32]; omega
      rw [if_pos hp, h1]
      simp only [Option.bind_eq_bind, Option.bind_some, h2]
      rw [cpy_eq _ _ _ _ _ (by omega) (by omega)]
      simp only [Option.bind_some, List.drop_zero]
      obtain ⟨f1, f2⟩ := first_block hB hl rfl hb hge
      exact key _ _ _ f2 f2 f1 h2
  · rw [updG, hu, if_neg hc]
    rw [cpy_eq _ _ _ _ _ (by omega) (by omega), List.drop_zero, List.take_length]
    have hlt2 : m.length % B + data.length < B := by omega
    have hm : (m ++ data).length % B = m.length % B + data.length := by
      rw [List.length_append, ← Nat.mod_add_mod, Nat.mod_eq_of_lt hlt2]
    exact ⟨st, _, by rw [hm]; rfl, h.small hB data hlt2⟩

theorem cpy_len {b : List Byte} {off : Nat} {src : List Byte} {soff n : Nat} {b' : List Byte}
    (h : cpy b off src soff n = some b') : b'.length = b.length := by
  rw [cpy, rd] at h
  split at h
  · simp only [Option.bind_eq_bind, Option.bind_some, put] at h
    split at h
    · cases h
      simp only [List.length_append, List.length_take, List.length_drop] at *
      omega
    · cases h
  · cases h

end Fio.Hash
