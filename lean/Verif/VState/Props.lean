import Verif.VState.Model
import Verif.Verify.Header
/-
C26 and C27: the saved verify state.
-/
namespace Fio.VState

open Fio.Verify (FlipAt crc32c_flip)

/-! ## C27: the file -/

theorem encode_length (s : St) (hs : s.Wf) : (encode s).length = 144 + 8 * s.depth.toNat := by
  have h : ∀ l : List U64, (l.flatMap fun x => le 8 x.toNat).length = 8 * l.length := by
    intro l
    induction l with
    | nil => rfl
    | cons a l ih => simp [ih]; omega
  simp [encode, hs.rand, hs.name, h, hs.depth]; omega

theorem memRead_append {pre mid post : List Byte} {off n : Nat} (ho : pre.length = off) (hn : mid.length = n) :
    memRead (pre ++ mid ++ post) off n = some mid := by
  subst ho; subst hn
  unfold memRead
  rw [if_pos (by simp), List.append_assoc, List.drop_append_of_le_length (Nat.le_refl _), List.drop_length, List.nil_append,
    List.take_append_of_le_length (Nat.le_refl _), List.take_length]

theorem words_spec : ∀ (l : List U64) (pre : List Byte),
    words (pre ++ l.flatMap fun x => le 8 x.toNat) pre.length l.length = some l := by
  intro l
  induction l with
  | nil => intro pre; rfl
  | cons a l ih =>
    intro pre
    rw [List.length_cons, words, List.flatMap_cons, ← List.append_assoc,
      memRead_append (pre := pre) (mid := le 8 a.toNat) rfl (le_length _ _), Option.bind_some]
    have := ih (pre ++ le 8 a.toNat)
    rw [List.length_append, le_length] at this
    rw [this, Option.bind_some, fromLe_le, Nat.mod_eq_of_lt (show a.toNat < 256 ^ 8 from a.isLt), BitVec.ofNat_toNat, BitVec.setWidth_eq]

/-- The structure is recovered from its bytes. -/
theorem decode_encode (s : St) (hs : s.Wf) : decode (encode s) = some s := by
  obtain ⟨fl, hfl⟩ : ∃ fl, fl = s.inflight.flatMap fun x => le 8 x.toNat := ⟨_, rfl⟩
  obtain ⟨d, hd⟩ : ∃ d, d = le 4 s.depth.toNat := ⟨_, rfl⟩
  obtain ⟨z, hz⟩ : ∃ d, d = le 4 0 := ⟨_, rfl⟩
  obtain ⟨n, hn⟩ : ∃ d, d = le 8 s.numberio.toNat := ⟨_, rfl⟩
  obtain ⟨i, hi⟩ : ∃ d, d = le 8 s.index.toNat := ⟨_, rfl⟩
  obtain ⟨u, hu⟩ : ∃ d, d = le 8 s.use64.toNat := ⟨_, rfl⟩
  have ld : d.length = 4 := by simp [hd]
  have lz : z.length = 4 := by simp [hz]
  have ln : n.length = 8 := by simp [hn]
  have li : i.length = 8 := by simp [hi]
  have lu : u.length = 8 := by simp [hu]
  have e64 : ∀ x : U64, BitVec.ofNat 64 (fromLe (le 8 x.toNat)) = x := fun x => by
    rw [fromLe_le, Nat.mod_eq_of_lt (show x.toNat < 256 ^ 8 from x.isLt), BitVec.ofNat_toNat, BitVec.setWidth_eq]
  have ed : fromLe d = s.depth.toNat := by
    rw [hd, fromLe_le, Nat.mod_eq_of_lt (show s.depth.toNat < 256 ^ 4 from s.depth.isLt)]
  have m0 : memRead (encode s) 0 4 = some d := by
    have := memRead_append (pre := []) (mid := d) (post := z ++ n ++ i ++ u ++ s.rand ++ s.name ++ fl) (off := 0) rfl ld
    rw [← this, encode, ← hd, ← hz, ← hn, ← hi, ← hu, ← hfl]; simp only [List.append_assoc, List.nil_append]
  have m1 : memRead (encode s) 8 8 = some n := by
    have := memRead_append (pre := d ++ z) (mid := n) (post := i ++ u ++ s.rand ++ s.name ++ fl) (off := 8) (by simp [ld, lz]) ln
    rw [← this, encode, ← hd, ← hz, ← hn, ← hi, ← hu, ← hfl]; simp only [List.append_assoc]
  have m2 : memRead (encode s) 16 8 = some i := by
    have := memRead_append (pre := d ++ z ++ n) (mid := i) (post := u ++ s.rand ++ s.name ++ fl) (off := 16) (by simp [ld, lz, ln]) li
    rw [← this, encode, ← hd, ← hz, ← hn, ← hi, ← hu, ← hfl]; simp only [List.append_assoc]
  have m3 : memRead (encode s) 24 8 = some u := by
    have := memRead_append (pre := d ++ z ++ n ++ i) (mid := u) (post := s.rand ++ s.name ++ fl) (off := 24) (by simp [ld, lz, ln, li]) lu
    rw [← this, encode, ← hd, ← hz, ← hn, ← hi, ← hu, ← hfl]; simp only [List.append_assoc]
  have m4 : memRead (encode s) 32 48 = some s.rand := by
    have := memRead_append (pre := d ++ z ++ n ++ i ++ u) (mid := s.rand) (post := s.name ++ fl) (off := 32) (by simp [ld, lz, ln, li, lu]) hs.rand
    rw [← this, encode, ← hd, ← hz, ← hn, ← hi, ← hu, ← hfl]; simp only [List.append_assoc]
  have m5 : memRead (encode s) 80 64 = some s.name := by
    have := memRead_append (pre := d ++ z ++ n ++ i ++ u ++ s.rand) (mid := s.name) (post := fl) (off := 80) (by simp [ld, lz, ln, li, lu, hs.rand]) hs.name
    rw [← this, encode, ← hd, ← hz, ← hn, ← hi, ← hu, ← hfl]
  have m6 : words (encode s) 144 s.depth.toNat = some s.inflight := by
    have := words_spec s.inflight (d ++ z ++ n ++ i ++ u ++ s.rand ++ s.name)
    rw [show (d ++ z ++ n ++ i ++ u ++ s.rand ++ s.name).length = 144 by simp [ld, lz, ln, li, lu, hs.rand, hs.name], hs.depth] at this
    rw [← this, encode, ← hd, ← hz, ← hn, ← hi, ← hu]
  unfold decode
  rw [m0, Option.bind_some, m1, Option.bind_some, m2, Option.bind_some, m3, Option.bind_some, m4, Option.bind_some, m5,
    Option.bind_some, ed, m6, Option.bind_some, hn, hi, hu, e64, e64, e64, BitVec.ofNat_toNat, BitVec.setWidth_eq]

/-- The parts of a file that starts with a header of three words. -/
theorem load_parts (v sz c : Nat) (body rest : List Byte) (hv : v < 2 ^ 64) (hsz : sz < 2 ^ 64) (hc : c < 2 ^ 64) (hb : body.length = sz) :
    load (le 8 v ++ le 8 sz ++ le 8 c ++ body ++ rest) =
      if v ≠ 7 then .refused else if (Crc.crc32c body).toNat ≠ c then .refused else .loaded body := by
  obtain ⟨a, ha⟩ : ∃ a, a = le 8 v := ⟨_, rfl⟩
  obtain ⟨b, hb'⟩ : ∃ a, a = le 8 sz := ⟨_, rfl⟩
  obtain ⟨d, hd⟩ : ∃ a, a = le 8 c := ⟨_, rfl⟩
  have la : a.length = 8 := by simp [ha]
  have lb : b.length = 8 := by simp [hb']
  have ld : d.length = 8 := by simp [hd]
  have e : ∀ x, x < 2 ^ 64 → fromLe (le 8 x) = x := fun x hx => by
    rw [fromLe_le]; exact Nat.mod_eq_of_lt (show x < 256 ^ 8 from hx)
  have ea : fromLe a = v := by rw [ha, e v hv]
  have eb : fromLe b = sz := by rw [hb', e sz hsz]
  have ec : fromLe d = c := by rw [hd, e c hc]
  rw [← ha, ← hb', ← hd]
  have h24 : (a ++ b ++ d ++ body ++ rest).take 24 = a ++ b ++ d := by
    rw [List.append_assoc, List.take_append_of_le_length (by simp; omega), List.take_of_length_le (by simp; omega)]
  have hd24 : (a ++ b ++ d ++ body ++ rest).drop 24 = body ++ rest := by
    rw [List.append_assoc, List.drop_append_of_le_length (by simp; omega), List.drop_of_length_le (by simp; omega), List.nil_append]
  have t0 : (a ++ b ++ d).take 8 = a := by
    rw [List.append_assoc, List.take_append_of_le_length (by omega), List.take_of_length_le (by omega)]
  have t1 : ((a ++ b ++ d).drop 8).take 8 = b := by
    rw [List.append_assoc, List.drop_append_of_le_length (by omega), List.drop_of_length_le (by omega), List.nil_append,
      List.take_append_of_le_length (by omega), List.take_of_length_le (by omega)]
  have t2 : ((a ++ b ++ d).drop 16).take 8 = d := by
    rw [List.drop_append_of_le_length (by simp; omega), List.drop_of_length_le (by simp; omega), List.nil_append,
      List.take_of_length_le (by omega)]
  have t3 : (body ++ rest).take sz = body := by
    rw [List.take_append_of_le_length (by omega), List.take_of_length_le (by omega)]
  unfold load
  dsimp only
  rw [h24, hd24, t0, t1, t2, ea, eb, ec, t3, if_neg (by simp; omega)]
  by_cases h7 : v ≠ 7
  · rw [if_pos h7, if_pos h7]
  · rw [if_neg h7, if_neg h7, if_neg (by simp [hb])]

theorem crc_lt (b : List Byte) : (Crc.crc32c b).toNat < 2 ^ 64 := by
  have := (Crc.crc32c b).isLt; omega

theorem size_lt (s : St) (hs : s.Wf) : (encode s).length < 2 ^ 64 := by
  have := encode_length s hs
  have := s.depth.isLt
  omega

/-- **C27**, round trip: the state loaded from a file written by fio is the state that was saved. -/
theorem C27_roundtrip (s : St) (hs : s.Wf) :
    ∃ body, load (stateFile s) = .loaded body ∧ decode body = some s := by
  refine ⟨encode s, ?_, decode_encode s hs⟩
  have := load_parts 7 (encode s).length (Crc.crc32c (encode s)).toNat (encode s) [] (by decide) (size_lt s hs) (crc_lt _) rfl
  rw [List.append_nil, if_neg (by simp), if_neg (by simp)] at this
  exact this

/-- **C27**, version: a file with another version number is refused, whatever follows. -/
theorem C27_version (v : U64) (rest : List Byte) (hv : v ≠ 7) : load (le 8 v.toNat ++ rest) = .refused := by
  unfold load
  dsimp only
  split
  · rfl
  · rename_i h
    have hl : rest.length ≥ 16 := by simp at h; omega
    rw [if_pos]
    intro h7
    apply hv
    have e : ((le 8 v.toNat ++ rest).take 24).take 8 = le 8 v.toNat := by
      rw [List.take_take, Nat.min_eq_left (by omega), List.take_append_of_le_length (by simp), List.take_of_length_le (by simp)]
    rw [e, fromLe_le, Nat.mod_eq_of_lt (show v.toNat < 256 ^ 8 from v.isLt)] at h7
    exact BitVec.eq_of_toNat_eq h7

/-- **C27**, corruption: a file whose body differs from a written one in one bit is refused. -/
theorem C27_body (s : St) (hs : s.Wf) (body : List Byte) (i j : Nat) (hf : FlipAt (encode s) body i j) :
    load (le 8 7 ++ le 8 (encode s).length ++ le 8 (Crc.crc32c (encode s)).toNat ++ body) = .refused := by
  have := load_parts 7 (encode s).length (Crc.crc32c (encode s)).toNat body [] (by decide) (size_lt s hs) (crc_lt _) hf.2.1
  rw [List.append_nil] at this
  rw [this, if_neg (by simp), if_pos]
  exact fun h => crc32c_flip hf (BitVec.eq_of_toNat_eq h.symm)

/-- Also a changed checksum field is refused. -/
theorem C27_crc (s : St) (hs : s.Wf) (c : U64) (hc : c.toNat ≠ (Crc.crc32c (encode s)).toNat) :
    load (le 8 7 ++ le 8 (encode s).length ++ le 8 c.toNat ++ encode s) = .refused := by
  have := load_parts 7 (encode s).length c.toNat (encode s) [] (by decide) (size_lt s hs) c.isLt rfl
  rw [List.append_nil] at this
  rw [this, if_neg (by simp), if_pos (fun h => hc h.symm)]

theorem take24 (s : St) :
    (stateFile s).take 24 = le 8 7 ++ le 8 (encode s).length ++ le 8 (Crc.crc32c (encode s)).toNat := by
  unfold stateFile
  dsimp only
  rw [List.take_append_of_le_length (by simp), List.take_of_length_le (by simp)]

/-- Also every truncated file is refused. -/
theorem C27_truncated (s : St) (hs : s.Wf) (k : Nat) (hk : k < (stateFile s).length) : load ((stateFile s).take k) = .refused := by
  unfold load
  dsimp only
  split
  · rfl
  · rename_i h24
    split
    · rfl
    · have h24' : 24 ≤ k := by simp at h24; omega
      have hl : (stateFile s).length = 24 + (encode s).length := by simp [stateFile]; omega
      have e : ((((stateFile s).take k).take 24).drop 8).take 8 = le 8 (encode s).length := by
        rw [List.take_take, Nat.min_eq_left h24', take24, List.append_assoc,
          List.drop_append_of_le_length (by simp), List.drop_of_length_le (by simp), List.nil_append,
          List.take_append_of_le_length (by simp), List.take_of_length_le (by simp)]
      rw [if_pos]
      rw [e, fromLe_le, Nat.mod_eq_of_lt (show (encode s).length < 256 ^ 8 from size_lt s hs)]
      simp only [List.length_take, List.length_drop]
      omega

/-- verify_state_hdr agrees with verify_load_state on a complete header followed by the whole body. -/
theorem C27_server (s : St) (hs : s.Wf) (body : List Byte) (hl : body.length = (encode s).length) :
    ∃ r, stateHdr ((stateFile s).take 24) body = some r ∧ (r = true ↔ Crc.crc32c body = Crc.crc32c (encode s)) ∧
      (r = true ↔ load ((stateFile s).take 24 ++ body) = .loaded body) := by
  rw [take24]
  have hlp := load_parts 7 (encode s).length (Crc.crc32c (encode s)).toNat body [] (by decide) (size_lt s hs) (crc_lt _) hl
  rw [List.append_nil] at hlp
  rw [hlp]
  have e : ∀ x, x < 2 ^ 64 → fromLe (le 8 x) = x := fun x hx => by
    rw [fromLe_le]; exact Nat.mod_eq_of_lt (show x < 256 ^ 8 from hx)
  unfold stateHdr
  have t0 : (le 8 7 ++ le 8 (encode s).length ++ le 8 (Crc.crc32c (encode s)).toNat).take 8 = le 8 7 := by
    rw [List.append_assoc, List.take_append_of_le_length (by simp), List.take_of_length_le (by simp)]
  have t1 : ((le 8 7 ++ le 8 (encode s).length ++ le 8 (Crc.crc32c (encode s)).toNat).drop 8).take 8 = le 8 (encode s).length := by
    rw [List.append_assoc, List.drop_append_of_le_length (by simp), List.drop_of_length_le (by simp), List.nil_append,
      List.take_append_of_le_length (by simp), List.take_of_length_le (by simp)]
  have t2 : ((le 8 7 ++ le 8 (encode s).length ++ le 8 (Crc.crc32c (encode s)).toNat).drop 16).take 8 = le 8 (Crc.crc32c (encode s)).toNat := by
    rw [List.drop_append_of_le_length (by simp), List.drop_of_length_le (by simp), List.nil_append, List.take_of_length_le (by simp)]
  rw [t0, t1, t2, e 7 (by decide), e _ (size_lt s hs), e _ (crc_lt _), if_neg (by simp)]
  have : memRead body 0 (encode s).length = some body := by
    unfold memRead; rw [if_pos (by omega), List.drop_zero, List.take_of_length_le (by omega)]
  rw [this, Option.bind_some]
  refine ⟨_, rfl, ?_, ?_⟩
  · rw [beq_iff_eq]; exact ⟨fun h => BitVec.eq_of_toNat_eq h, fun h => by rw [h]⟩
  · rw [beq_iff_eq, if_neg (by simp)]
    by_cases h : (Crc.crc32c body).toNat = (Crc.crc32c (encode s)).toNat
    · simp [h]
    · simp [h]

/-! ## C26: which writes are verified -/

/-- The binary search finds exactly the members of a sorted array. -/
theorem search_spec (failed : List U64) (n : U64) (hs : failed.Pairwise fun a b => a ≤ b) :
    ∀ (fuel lo hi : Nat), hi ≤ failed.length → hi - lo ≤ fuel →
      ∃ r, search failed n fuel lo hi = some r ∧ (r = true ↔ ∃ i, lo ≤ i ∧ i < hi ∧ failed[i]? = some n) := by
  have hmono : ∀ i j (hi : i < failed.length) (hj : j < failed.length), i ≤ j → failed[i] ≤ failed[j] := by
    intro i j hi hj hij
    rcases Nat.lt_or_eq_of_le hij with h | h
    · exact List.pairwise_iff_getElem.1 hs i j hi hj h
    · subst h; exact BitVec.le_refl _
  intro fuel
  induction fuel with
  | zero =>
    intro lo hi h1 h2
    unfold search
    rw [if_neg (by omega)]
    exact ⟨false, rfl, by simp; intro i h3 h4; omega⟩
  | succ fuel ih =>
    intro lo hi h1 h2
    unfold search
    by_cases hlt : lo < hi
    · rw [if_pos hlt]
      dsimp only
      have hm : lo + (hi - lo) / 2 < failed.length := by omega
      rw [List.getElem?_eq_getElem hm]
      dsimp only
      by_cases he : failed[lo + (hi - lo) / 2] = n
      · rw [if_pos he]
        exact ⟨true, rfl, by simp only [true_iff]; exact ⟨lo + (hi - lo) / 2, by omega, by omega, by rw [List.getElem?_eq_getElem hm, he]⟩⟩
      · rw [if_neg he]
        by_cases hl : failed[lo + (hi - lo) / 2] < n
        · rw [if_pos hl]
          obtain ⟨r, hr, hri⟩ := ih (lo + (hi - lo) / 2 + 1) hi h1 (by omega)
          refine ⟨r, hr, hri.trans ⟨fun ⟨i, a, b, c⟩ => ⟨i, by omega, b, c⟩, fun ⟨i, a, b, c⟩ => ⟨i, ?_, b, c⟩⟩⟩
          by_contra hc
          obtain ⟨hi', hc'⟩ := List.getElem?_eq_some_iff.1 c
          have := hmono i _ hi' hm (by omega)
          rw [hc'] at this
          rw [BitVec.lt_def] at hl; rw [BitVec.le_def] at this
          omega
        · rw [if_neg hl]
          obtain ⟨r, hr, hri⟩ := ih lo (lo + (hi - lo) / 2) (by omega) (by omega)
          refine ⟨r, hr, hri.trans ⟨fun ⟨i, a, b, c⟩ => ⟨i, a, by omega, c⟩, fun ⟨i, a, b, c⟩ => ⟨i, a, ?_, c⟩⟩⟩
          by_contra hc
          obtain ⟨hi', hc'⟩ := List.getElem?_eq_some_iff.1 c
          have := hmono _ i hm hi' (by omega)
          rw [hc'] at this
          rw [BitVec.lt_def] at hl; rw [BitVec.le_def] at this
          exact he (BitVec.eq_of_toNat_eq (by omega))
    · rw [if_neg hlt]
      exact ⟨false, rfl, by simp; intro i h3 h4; omega⟩

/-- verify_state_should_skip is membership in the failed writes. -/
theorem shouldSkip_spec (failed : List U64) (n : U64) (hs : failed.Pairwise fun a b => a ≤ b) :
    ∃ r, shouldSkip failed n = some r ∧ (r = true ↔ n ∈ failed) := by
  unfold shouldSkip
  split
  · rename_i h
    rw [List.length_eq_zero_iff.1 h]
    exact ⟨false, rfl, by simp⟩
  · obtain ⟨r, hr, hri⟩ := search_spec failed n hs failed.length 0 failed.length (Nat.le_refl _) (by omega)
    refine ⟨r, hr, hri.trans ⟨fun ⟨i, _, _, h⟩ => List.mem_of_getElem? h, fun h => ?_⟩⟩
    obtain ⟨i, hi, e⟩ := List.getElem_of_mem h
    exact ⟨i, Nat.zero_le _, hi, by rw [List.getElem?_eq_getElem hi, e]⟩

/-- The entries looked at by verify_state_should_stop. -/
def watched (iodepth : Nat) (s : St) : List U64 := s.inflight.take (min iodepth s.depth.toNat)

theorem shouldStop_spec (vt : Vt) (s : St) (hs : s.Wf) (n : U64) :
    ∃ r, shouldStop vt (some s) n = some r ∧ (r = true ↔ s.numberio ≤ n ∨ n ∈ watched vt.iodepth s) := by
  unfold shouldStop watched
  dsimp only
  have hact : (if vt.iodepth < s.depth.toNat then vt.iodepth else s.depth.toNat) = min vt.iodepth s.depth.toNat := by
    split <;> omega
  rw [hact]
  have hd := hs.depth
  by_cases h : n < s.numberio
  · rw [if_pos h, if_neg (by omega)]
    refine ⟨_, rfl, ?_⟩
    rw [BitVec.lt_def] at h
    constructor
    · intro ha
      obtain ⟨x, hx, he⟩ := List.any_eq_true.1 ha
      exact Or.inr (of_decide_eq_true he ▸ hx)
    · rintro (ha | ha)
      · rw [BitVec.le_def] at ha; omega
      · exact List.any_eq_true.2 ⟨n, ha, by simp⟩
  · rw [if_neg h]
    refine ⟨true, rfl, by simp only [true_iff]; left; rw [BitVec.le_def]; rw [BitVec.lt_def] at h; omega⟩

/-- A verifier with a loaded state: the failed array is any sorted arrangement (qsort) of the restored
numbers. -/
structure Loaded (vt : Vt) (s : St) (failed : List U64) : Prop where
  wf : s.Wf
  sorted : failed.Pairwise fun a b => a ≤ b
  perm : failed.Perm (failedOf vt.iodepth s)

/-- A restored number is one of the entries behind the first `iodepth`. -/
theorem mem_failedOf (iodepth : Nat) (s : St) (hs : s.Wf) (n : U64) (hn : n ≠ invalid) :
    n ∈ failedOf iodepth s ↔ n ∈ s.inflight.drop iodepth := by
  unfold failedOf
  have hd := hs.depth
  split
  · rw [List.mem_filter, List.take_of_length_le (by omega)]
    simp [hn]
  · rw [List.drop_of_length_le (by omega)]

/-- Every entry is either watched or restored. -/
theorem mem_inflight (vt : Vt) (s : St) (hs : s.Wf) (n : U64) (hn : n ≠ invalid) :
    n ∈ s.inflight ↔ n ∈ watched vt.iodepth s ∨ n ∈ failedOf vt.iodepth s := by
  rw [mem_failedOf _ _ hs _ hn]
  unfold watched
  have hd := hs.depth
  rw [show min vt.iodepth s.depth.toNat = min vt.iodepth s.inflight.length by omega, ← List.take_eq_take_min,
    ← List.mem_append, List.take_append_drop]

/-- What the two verification loops do, in terms of the two tests. -/
theorem run_mem {skip stop : U64 → Option Bool} {Sk St : U64 → Prop}
    (hsk : ∀ n, ∃ r, skip n = some r ∧ (r = true ↔ Sk n)) (hst : ∀ n, ∃ r, stop n = some r ∧ (r = true ↔ St n)) :
    ∀ k n, ∃ l, verifyRun skip stop k n = some l ∧
      (∀ m, m ∈ l → n ≤ m ∧ m < n + k ∧ ¬ Sk (BitVec.ofNat 64 m) ∧ ¬ St (BitVec.ofNat 64 m)) ∧
      (∀ m, n ≤ m → m < n + k → ¬ Sk (BitVec.ofNat 64 m) →
        (∀ i, n ≤ i → i ≤ m → Sk (BitVec.ofNat 64 i) ∨ ¬ St (BitVec.ofNat 64 i)) → m ∈ l) := by
  intro k
  induction k with
  | zero => intro n; exact ⟨[], rfl, by simp, fun m h1 h2 => by omega⟩
  | succ k ih =>
    intro n
    obtain ⟨l, hl, h1, h2⟩ := ih (n + 1)
    obtain ⟨sk, e1, f1⟩ := hsk (BitVec.ofNat 64 n)
    obtain ⟨st, e2, f2⟩ := hst (BitVec.ofNat 64 n)
    unfold verifyRun
    rw [e1, Option.bind_some]
    cases hs : sk with
    | true =>
      rw [if_pos rfl, hl]
      refine ⟨l, rfl, fun m hm => ?_, fun m a b c d => ?_⟩
      · obtain ⟨a, b, c⟩ := h1 m hm; exact ⟨by omega, by omega, c⟩
      · refine h2 m ?_ (by omega) c fun i hi hi' => d i (by omega) hi'
        rcases Nat.lt_or_eq_of_le a with h | h
        · exact h
        · subst h; exact absurd (f1.1 hs) c
    | false =>
      rw [if_neg (by decide), e2, Option.bind_some]
      have nsk : ¬ Sk (BitVec.ofNat 64 n) := fun h => by rw [f1.2 h] at hs; exact absurd hs (by decide)
      cases ht : st with
      | true =>
        rw [if_pos rfl]
        refine ⟨[], rfl, by simp, fun m a b c d => ?_⟩
        rcases d n (Nat.le_refl _) a with h | h
        · exact absurd h nsk
        · exact absurd (f2.1 ht) h
      | false =>
        rw [if_neg (by decide), hl, Option.bind_some]
        have nst : ¬ St (BitVec.ofNat 64 n) := fun h => by rw [f2.2 h] at ht; exact absurd ht (by decide)
        refine ⟨n :: l, rfl, fun m hm => ?_, fun m a b c d => ?_⟩
        · rcases List.mem_cons.1 hm with rfl | hm
          · exact ⟨Nat.le_refl _, by omega, nsk, nst⟩
          · obtain ⟨a, b, c⟩ := h1 m hm; exact ⟨by omega, by omega, c⟩
        · rcases Nat.lt_or_eq_of_le a with h | h
          · exact List.mem_cons_of_mem _ (h2 m h (by omega) c fun i hi hi' => d i (by omega) hi')
          · subst h; exact List.mem_cons_self

theorem dry_mem {skip stop : U64 → Option Bool} {Sk St : U64 → Prop}
    (hsk : ∀ n, ∃ r, skip n = some r ∧ (r = true ↔ Sk n)) (hst : ∀ n, ∃ r, stop n = some r ∧ (r = true ↔ St n)) :
    ∀ k n, ∃ l, dryRun skip stop k n = some l ∧
      (∀ m, m ∈ l ↔ n ≤ m ∧ m < n + k ∧ ¬ Sk (BitVec.ofNat 64 m) ∧ ∀ i, n ≤ i → i ≤ m → ¬ St (BitVec.ofNat 64 i)) := by
  intro k
  induction k with
  | zero => intro n; exact ⟨[], rfl, fun m => ⟨fun h => absurd h (by simp), fun h => by omega⟩⟩
  | succ k ih =>
    intro n
    obtain ⟨l, hl, h1⟩ := ih (n + 1)
    obtain ⟨sk, e1, f1⟩ := hsk (BitVec.ofNat 64 n)
    obtain ⟨st, e2, f2⟩ := hst (BitVec.ofNat 64 n)
    unfold dryRun
    rw [e2, Option.bind_some]
    cases ht : st with
    | true =>
      rw [if_pos rfl]
      exact ⟨[], rfl, fun m => ⟨fun h => absurd h (by simp), fun h => absurd (f2.1 ht) (h.2.2.2 n (Nat.le_refl _) h.1)⟩⟩
    | false =>
      rw [if_neg (by decide), e1, Option.bind_some, hl, Option.bind_some]
      have nst : ¬ St (BitVec.ofNat 64 n) := fun h => by rw [f2.2 h] at ht; exact absurd ht (by decide)
      refine ⟨_, rfl, fun m => ?_⟩
      have key : (n + 1 ≤ m ∧ m < n + 1 + k ∧ ¬ Sk (BitVec.ofNat 64 m) ∧ ∀ i, n + 1 ≤ i → i ≤ m → ¬ St (BitVec.ofNat 64 i)) ↔
          (n < m ∧ m < n + (k + 1) ∧ ¬ Sk (BitVec.ofNat 64 m) ∧ ∀ i, n ≤ i → i ≤ m → ¬ St (BitVec.ofNat 64 i)) := by
        constructor
        · rintro ⟨a, b, c, d⟩
          refine ⟨a, by omega, c, fun i h1 h2 => ?_⟩
          rcases Nat.lt_or_eq_of_le h1 with h | h
          · exact d i h h2
          · subst h; exact nst
        · rintro ⟨a, b, c, d⟩
          exact ⟨a, by omega, c, fun i h1 h2 => d i (by omega) h2⟩
      cases hs : sk with
      | true =>
        rw [if_pos rfl, h1, key]
        refine ⟨fun ⟨a, b, c, d⟩ => ⟨by omega, b, c, d⟩, fun ⟨a, b, c, d⟩ => ⟨?_, b, c, d⟩⟩
        rcases Nat.lt_or_eq_of_le a with h | h
        · exact h
        · subst h; exact absurd (f1.1 hs) c
      | false =>
        have nsk : ¬ Sk (BitVec.ofNat 64 n) := fun h => by rw [f1.2 h] at hs; exact absurd hs (by decide)
        rw [if_neg (by decide), List.mem_cons, h1, key]
        constructor
        · rintro (rfl | ⟨a, b, c, d⟩)
          · exact ⟨Nat.le_refl _, by omega, nsk, fun i h1 h2 => by rw [show i = m by omega]; exact nst⟩
          · exact ⟨by omega, b, c, d⟩
        · rintro ⟨a, b, c, d⟩
          rcases Nat.lt_or_eq_of_le a with h | h
          · exact Or.inr ⟨h, b, c, d⟩
          · exact Or.inl h.symm

/-- What job `td` had recorded when its state was saved. -/
def limit (td : Td) : U64 := if td.fsynced then (if td.safe ≠ 0 then td.safe - 1 else 0) else td.issued

/-- A job whose state can be saved. -/
structure Td.Wf (td : Td) : Prop where
  rand : td.rand.length = 48
  name : td.name.length = 64
  slots : ∀ l, td.slots = some l → l.length = td.iodepth
  small : td.iodepth + td.failed.length < 2 ^ 32

theorem saveState_wf (td : Td) (h : td.Wf) : (saveState td).Wf := by
  refine ⟨h.rand, h.name, ?_⟩
  unfold saveState
  dsimp only
  rw [BitVec.toNat_ofNat, Nat.mod_eq_of_lt h.small, List.length_append]
  cases hs : td.slots with
  | none => simp
  | some l => simp [h.slots l hs]

/-- **C26**, safety: whatever iodepth the verifying job has, none of the `k` writes it may look at is
verified when it was in flight, had failed, or was at or beyond the recorded limit. -/
theorem C26_safe (td : Td) (sl : List U64) (hsl : td.slots = some sl) (vt : Vt) (failed : List U64)
    (hl : Loaded vt (saveState td) failed) (k : Nat) (hk : k < 2 ^ 64) :
    ∃ l, verifyRun (shouldSkip failed) (shouldStop vt (some (saveState td))) k 0 = some l ∧
      ∃ l', dryRun (shouldSkip failed) (shouldStop vt (some (saveState td))) k 0 = some l' ∧
      ∀ m, m ∈ l ∨ m ∈ l' → m < (limit td).toNat ∧ BitVec.ofNat 64 m ∉ sl ∧ BitVec.ofNat 64 m ∉ td.failed := by
  obtain ⟨l, h1, h2, -⟩ := run_mem (fun n => shouldSkip_spec failed n hl.sorted) (fun n => shouldStop_spec vt _ hl.wf n) k 0
  obtain ⟨l', h1', h2'⟩ := dry_mem (fun n => shouldSkip_spec failed n hl.sorted) (fun n => shouldStop_spec vt _ hl.wf n) k 0
  refine ⟨l, h1, l', h1', fun m hm => ?_⟩
  obtain ⟨hmk, hns, hnt⟩ : m < k ∧ ¬ (BitVec.ofNat 64 m ∈ failed) ∧
      ¬ ((saveState td).numberio ≤ BitVec.ofNat 64 m ∨ BitVec.ofNat 64 m ∈ watched vt.iodepth (saveState td)) := by
    rcases hm with hm | hm
    · obtain ⟨a, b, c, d⟩ := h2 m hm; exact ⟨by omega, c, d⟩
    · obtain ⟨a, b, c, d⟩ := (h2' m).1 hm; exact ⟨by omega, c, d m (Nat.zero_le _) (Nat.le_refl _)⟩
  have hlim : m < (limit td).toNat := by
    have : ¬ (limit td ≤ BitVec.ofNat 64 m) := fun h => hnt (Or.inl h)
    rw [BitVec.le_def, BitVec.toNat_ofNat, Nat.mod_eq_of_lt (by omega)] at this
    omega
  have hinv : BitVec.ofNat 64 m ≠ invalid := by
    intro e
    have := congrArg BitVec.toNat e
    rw [BitVec.toNat_ofNat, Nat.mod_eq_of_lt (by omega)] at this
    have h3 : invalid.toNat = 2 ^ 64 - 1 := by decide
    have := (limit td).isLt
    omega
  have hni : BitVec.ofNat 64 m ∉ (saveState td).inflight := by
    rw [mem_inflight vt _ hl.wf _ hinv]
    rintro (h | h)
    · exact hnt (Or.inr h)
    · exact hns (hl.perm.mem_iff.2 h)
  have hi : (saveState td).inflight = sl ++ td.failed := by simp [saveState, hsl]
  rw [hi, List.mem_append] at hni
  exact ⟨hlim, fun h => hni (Or.inl h), fun h => hni (Or.inr h)⟩

/-- **C26**, completeness: with the same iodepth, a write that had not failed is verified when it and all
earlier writes were below the limit and not in flight. -/
theorem C26_complete (td : Td) (htd : td.Wf) (sl : List U64) (hsl : td.slots = some sl) (vt : Vt) (failed : List U64)
    (hv : vt.iodepth = td.iodepth) (hl : Loaded vt (saveState td) failed) (k : Nat) (hk : k < 2 ^ 64) (m : Nat) (hm : m < k)
    (hlim : m < (limit td).toNat) (hfl : ∀ i ≤ m, BitVec.ofNat 64 i ∉ sl) (hfail : BitVec.ofNat 64 m ∉ td.failed) :
    ∃ l, verifyRun (shouldSkip failed) (shouldStop vt (some (saveState td))) k 0 = some l ∧
      ∃ l', dryRun (shouldSkip failed) (shouldStop vt (some (saveState td))) k 0 = some l' ∧ m ∈ l ∧ m ∈ l' := by
  obtain ⟨l, h1, -, h2⟩ := run_mem (fun n => shouldSkip_spec failed n hl.sorted) (fun n => shouldStop_spec vt _ hl.wf n) k 0
  obtain ⟨l', h1', h2'⟩ := dry_mem (fun n => shouldSkip_spec failed n hl.sorted) (fun n => shouldStop_spec vt _ hl.wf n) k 0
  have hi : (saveState td).inflight = sl ++ td.failed := by simp [saveState, hsl]
  have hslen := htd.slots sl hsl
  have hwf := hl.wf.depth
  rw [hi, List.length_append] at hwf
  have hnum : ∀ i ≤ m, (BitVec.ofNat 64 i).toNat = i := fun i h => by
    rw [BitVec.toNat_ofNat, Nat.mod_eq_of_lt (by omega)]
  have hstop : ∀ i, 0 ≤ i → i ≤ m → ¬ ((saveState td).numberio ≤ BitVec.ofNat 64 i ∨ BitVec.ofNat 64 i ∈ watched vt.iodepth (saveState td)) := by
    rintro i - him (h | h)
    · have h : limit td ≤ BitVec.ofNat 64 i := h
      rw [BitVec.le_def, hnum i him] at h; omega
    · unfold watched at h
      rw [hi, List.take_append_of_le_length (by omega)] at h
      exact hfl i him (List.mem_of_mem_take h)
  have hskip : BitVec.ofNat 64 m ∉ failed := by
    intro h
    have h := hl.perm.mem_iff.1 h
    have hinv : BitVec.ofNat 64 m ≠ invalid := by
      intro e
      have := congrArg BitVec.toNat e
      rw [hnum m (Nat.le_refl _)] at this
      have h3 : invalid.toNat = 2 ^ 64 - 1 := by decide
      have := (limit td).isLt
      omega
    rw [mem_failedOf _ _ hl.wf _ hinv, hi, hv, ← hslen, List.drop_append_of_le_length (Nat.le_refl _), List.drop_length, List.nil_append] at h
    exact hfail h
  refine ⟨l, h1, l', h1', h2 m (Nat.zero_le _) (by omega) hskip fun i a b => Or.inr (hstop i a b), ?_⟩
  exact (h2' m).2 ⟨Nat.zero_le _, by omega, hskip, hstop⟩

/-! ### Non-trivial cases -/

/-- iodepth 3, write 4 in flight, write 1 failed, 6 issued. -/
def exTd : Td :=
  { iodepth := 3, slots := some [invalid, 4, invalid], issued := 6, safe := 0, fsynced := false, failed := [1], index := 0,
    use64 := 0, rand := List.replicate 48 0xab#8, name := List.replicate 64 0x61#8 }

theorem exTd_wf : exTd.Wf := ⟨by decide, by decide, fun l h => by cases h; decide, by decide⟩

example : ∃ failed, Loaded ⟨3, false, 0⟩ (saveState exTd) failed ∧
    verifyRun (shouldSkip failed) (shouldStop ⟨3, false, 0⟩ (some (saveState exTd))) 10 0 = some [0, 2, 3] ∧
    dryRun (shouldSkip failed) (shouldStop ⟨3, false, 0⟩ (some (saveState exTd))) 10 0 = some [0, 2, 3] :=
  ⟨[1], ⟨saveState_wf _ exTd_wf, by simp, by decide⟩, by decide, by decide⟩

/-- With a smaller iodepth in the verifying job an in-flight write is skipped instead of stopped at. -/
example : ∃ failed, Loaded ⟨1, false, 0⟩ (saveState exTd) failed ∧
    verifyRun (shouldSkip failed) (shouldStop ⟨1, false, 0⟩ (some (saveState exTd))) 10 0 = some [0, 2, 3, 5] :=
  ⟨[1, 4], ⟨saveState_wf _ exTd_wf, by decide, by decide⟩, by decide⟩

example : load (stateFile (saveState exTd)) = .loaded (encode (saveState exTd)) := by decide +kernel

end Fio.VState
