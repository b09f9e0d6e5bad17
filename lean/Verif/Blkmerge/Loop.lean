import Verif.Blkmerge.Lemmas
/-
Lemmas for C98: the loops.
-/
namespace Fio.Blkmerge

theorem fileBytes_length (b : Bool) : ∀ l : List Rec, l.length ≤ (fileBytes b l).length
  | [] => by simp [fileBytes]
  | r :: l => by
    have := fileBytes_length b l
    simp only [fileBytes, List.length_append, recBytes_length, List.length_cons]
    omega

theorem scaled_eq (c : Cursor) (t : Trace) (pct : Nat) (hi : c.iter = 0) (hs : c.scalar = pct)
    (ht : t.time.toNat * pct < 2 ^ 64) :
    { t with time := timeOf c t, pduLen := 0#16 } = scaled pct t := by
  unfold scaled
  congr 1
  unfold timeOf
  rw [hi, hs]
  apply BitVec.eq_of_toNat_eq
  by_cases h0 : t.time.toNat = 0
  · have : t.time = 0#64 := BitVec.eq_of_toNat_eq (by simpa using h0)
    simp [this]
  · have hp : pct < 2 ^ 64 := by
      have : pct ≤ t.time.toNat * pct := Nat.le_mul_of_pos_left _ (by omega)
      omega
    have h1 : (BitVec.ofInt 64 (pct : Int)).toNat = pct := by
      rw [BitVec.ofInt_natCast, BitVec.toNat_ofNat, Nat.mod_eq_of_lt hp]
    rw [BitVec.toNat_udiv, BitVec.toNat_mul, h1]
    simp only [show BitVec.ofInt 64 0 = 0#64 from rfl, BitVec.zero_mul, BitVec.add_zero]
    rw [Nat.mod_eq_of_lt ht]
    have : t.time.toNat * pct / 100 < 2 ^ 64 := by omega
    show t.time.toNat * pct / 100 = _
    rw [BitVec.toNat_ofNat, Nat.mod_eq_of_lt this]

/-- A file that is read once and has the records `l` left behind what was read. -/
structure Open (c : Cursor) (pct : Nat) (l : List Rec) (skip : Nat) : Prop where
  iter : c.iter = 0
  nrIter : c.nrIter = 1
  scalar : c.scalar = pct
  time : ∀ r ∈ l, r.t.time.toNat * pct < 2 ^ 64
  left : ∃ d, c.f = some d ∧ d.drop (c.pos + skip) = fileBytes c.swap l

/-- A cursor that still has the records `L` to deliver, the first one read. -/
def At (c : Cursor) (L : List Trace) : Prop :=
  ∃ pct l, Open c pct l c.t.pduLen.toNat ∧
    L = { c.t with pduLen := 0#16 } :: (wanted l).map (scaled pct)

theorem readTrace_spec {c : Cursor} {pct : Nat} {l : List Rec} (h : Open c pct l 0) :
    (wanted l = [] ∧ ∃ c', readTrace c = some (0, c') ∧ c'.iter = 0 ∧ c'.nrIter = 1) ∨
    (∃ c', readTrace c = some (48, c') ∧ At c' ((wanted l).map (scaled pct))) := by
  obtain ⟨d, hf, hd⟩ := h.left
  rw [Nat.add_zero] at hd
  have hlen : l.length < (c.f.getD []).length + 1 := by
    have h1 := fileBytes_length c.swap l
    rw [← hd, List.length_drop] at h1
    rw [hf]
    simp only [Option.getD_some]
    omega
  rcases readLoop_spec c.swap l _ c hlen ⟨d, hf, hd⟩ rfl with ⟨h1, c', h2, h3, h4, h5, h6, h7⟩ |
    ⟨r, l', c', h1, h2, h3, h4, _, h6, h7, h8, h9, h10, h11, h12, h13⟩
  · left
    exact ⟨h1, c', h2, by rw [h4, h.iter], by rw [h5, h.nrIter]⟩
  · right
    refine ⟨c', h6, pct, l', ⟨by rw [h8, h.iter], by rw [h9, h.nrIter], by rw [h11, h.scalar],
      fun x hx => h.time x (h4 x hx), ?_⟩, ?_⟩
    · obtain ⟨d', hf', hd'⟩ := h13
      refine ⟨d', hf', ?_⟩
      rw [h10, h12]
      exact hd'
    · rw [h1, List.map_cons, h12]
      congr 1
      exact (scaled_eq c r.t pct h.iter h.scalar (h.time r h3)).symm

theorem earliest_spec : ∀ (l : List Cursor) (i idx : Nat) (time : BitVec 64),
    (earliestFrom l i idx time = idx ∧ ∀ c ∈ l, time ≤ c.t.time) ∨
    (∃ k c, l[k]? = some c ∧ earliestFrom l i idx time = i + k ∧ c.t.time < time ∧
      ∀ c' ∈ l, c.t.time ≤ c'.t.time)
  | [], i, idx, time => by
    left
    exact ⟨rfl, fun c hc => by cases hc⟩
  | c :: l, i, idx, time => by
    rw [earliestFrom]
    by_cases h : c.t.time < time
    · rw [if_pos h]
      right
      rcases earliest_spec l (i + 1) i c.t.time with ⟨h1, h2⟩ | ⟨k, c', h1, h2, h3, h4⟩
      · refine ⟨0, c, rfl, h1, h, ?_⟩
        intro c' hc'
        rcases List.mem_cons.mp hc' with rfl | hc'
        · exact BitVec.le_refl _
        · exact h2 c' hc'
      · refine ⟨k + 1, c', by simpa using h1, by rw [h2]; omega, by bv_omega, ?_⟩
        intro x hx
        rcases List.mem_cons.mp hx with rfl | hx
        · bv_omega
        · exact h4 x hx
    · rw [if_neg h]
      rcases earliest_spec l (i + 1) idx time with ⟨h1, h2⟩ | ⟨k, c', h1, h2, h3, h4⟩
      · left
        refine ⟨h1, ?_⟩
        intro x hx
        rcases List.mem_cons.mp hx with rfl | hx
        · bv_omega
        · exact h2 x hx
      · right
        refine ⟨k + 1, c', by simpa using h1, by rw [h2]; omega, h3, ?_⟩
        intro x hx
        rcases List.mem_cons.mp hx with rfl | hx
        · bv_omega
        · exact h4 x hx

/-- The cursors in use have the lists `Ls` to deliver. -/
structure Inv (s : St) (Ls : List (List Trace)) : Prop where
  nr : Ls.length = s.nr
  le : s.nr ≤ s.bcs.length
  at_ : ∀ (k : Nat) (L : List Trace), Ls[k]? = some L → ∃ c, s.bcs[k]? = some c ∧ At c L

theorem findEarliest_spec {s : St} {Ls : List (List Trace)} (h : Inv s Ls) (h0 : s.nr ≠ 0) :
    ∃ c, findEarliest s < s.nr ∧ s.bcs[findEarliest s]? = some c ∧
      ∀ k c', k < s.nr → s.bcs[k]? = some c' → c.t.time.toNat ≤ c'.t.time.toNat := by
  have hle := h.le
  have hmem : ∀ k c', k < s.nr → s.bcs[k]? = some c' → c' ∈ s.bcs.take s.nr := by
    intro k c' hk hc
    apply List.mem_of_getElem? (i := k)
    rw [List.getElem?_take, if_pos hk]
    exact hc
  rcases earliest_spec (s.bcs.take s.nr) 0 0 (BitVec.allOnes 64) with ⟨h1, h2⟩ | ⟨k, c, h1, h2, _, h4⟩
  · have hlt : 0 < s.bcs.length := by omega
    refine ⟨s.bcs[0], ?_, ?_, ?_⟩
    · rw [findEarliest, h1]; omega
    · rw [findEarliest, h1]; exact List.getElem?_eq_getElem hlt
    · intro k c' hk hc
      have := h2 c' (hmem k c' hk hc)
      have hb := s.bcs[0].t.time.isLt
      have : (BitVec.allOnes 64).toNat ≤ c'.t.time.toNat := this
      rw [BitVec.toNat_allOnes] at this
      omega
  · have hk : k < s.nr := by
      obtain ⟨hk, _⟩ := List.getElem?_eq_some_iff.mp h1
      rw [List.length_take] at hk
      omega
    refine ⟨c, ?_, ?_, ?_⟩
    · rw [findEarliest, h2]; omega
    · rw [findEarliest, h2, Nat.zero_add]
      rw [List.getElem?_take, if_pos hk] at h1
      exact h1
    · intro j c' hj hc
      exact h4 c' (hmem j c' hj hc)

/-- Merging by always taking the earliest. -/
inductive Merged : List (List Trace) → List Trace → Prop
  | done {ls : List (List Trace)} : (∀ l ∈ ls, l = []) → Merged ls []
  | step {ls r : List (List Trace)} {x : Trace} {l out : List Trace} :
      ls.Perm ((x :: l) :: r) →
      (∀ m ∈ r, ∀ y, m.head? = some y → x.time.toNat ≤ y.time.toNat) →
      Merged (l :: r) out → Merged ls (x :: out)

theorem Merged.perm {ls ls' : List (List Trace)} {out : List Trace} (h : Merged ls out)
    (hp : ls.Perm ls') : Merged ls' out := by
  cases h with
  | done h => exact .done fun l hl => h l (hp.mem_iff.mpr hl)
  | step h1 h2 h3 => exact .step (hp.symm.trans h1) h2 h3

theorem Merged.nil_cons {ls : List (List Trace)} {out : List Trace} (h : Merged ls out) :
    Merged ([] :: ls) out := by
  induction h with
  | done h =>
    refine .done fun l hl => ?_
    rcases List.mem_cons.mp hl with rfl | hl
    · rfl
    · exact h l hl
  | @step ls r x l out h1 h2 h3 ih =>
    refine .step (r := [] :: r) ((h1.cons []).trans (List.Perm.swap _ _ _)) ?_
      (ih.perm (List.Perm.swap _ _ _))
    intro m hm y hy
    rcases List.mem_cons.mp hm with rfl | hm
    · cases hy
    · exact h2 m hm y hy

theorem Merged.shuffle {ls : List (List Trace)} {out : List Trace} (h : Merged ls out) :
    Shuffle ls out := by
  induction h with
  | done h => exact .done h
  | step h1 _ _ ih => exact .step h1 ih

theorem Shuffle.mem {α : Type} {ls : List (List α)} {out : List α} (h : Shuffle ls out) :
    ∀ y ∈ out, ∃ l ∈ ls, y ∈ l := by
  induction h with
  | done h => intro y hy; cases hy
  | @step ls r x l out h1 _ ih =>
    intro y hy
    rcases List.mem_cons.mp hy with rfl | hy
    · exact ⟨y :: l, h1.mem_iff.mpr (by simp), by simp⟩
    · obtain ⟨m, hm, hym⟩ := ih y hy
      rcases List.mem_cons.mp hm with rfl | hm
      · exact ⟨x :: m, h1.mem_iff.mpr (by simp), by simp [hym]⟩
      · exact ⟨m, h1.mem_iff.mpr (by simp [hm]), hym⟩

theorem Merged.sorted {ls : List (List Trace)} {out : List Trace} (h : Merged ls out)
    (hs : ∀ l ∈ ls, Sorted l) : Sorted out := by
  induction h with
  | done h => exact List.Pairwise.nil
  | @step ls r x l out h1 h2 h3 ih =>
    have hxl : Sorted (x :: l) := hs _ (h1.mem_iff.mpr (by simp))
    have hr : ∀ m ∈ r, Sorted m := fun m hm => hs _ (h1.mem_iff.mpr (by simp [hm]))
    unfold Sorted at hxl
    rw [List.pairwise_cons] at hxl
    refine List.Pairwise.cons ?_ (ih ?_)
    · intro y hy
      obtain ⟨m, hm, hym⟩ := h3.shuffle.mem y hy
      rcases List.mem_cons.mp hm with rfl | hm
      · exact hxl.1 y hym
      · have hsm := hr m hm
        cases m with
        | nil => cases hym
        | cons z m =>
          have hz := h2 _ hm z rfl
          unfold Sorted at hsm
          rw [List.pairwise_cons] at hsm
          rcases List.mem_cons.mp hym with rfl | hym
          · exact hz
          · exact Nat.le_trans hz (hsm.1 y hym)
    · intro m hm
      rcases List.mem_cons.mp hm with rfl | hm
      · exact hxl.2
      · exact hr m hm

theorem getElem_perm {α : Type} : ∀ {l : List α} {i : Nat} (h : i < l.length),
    (l[i] :: l.eraseIdx i).Perm l
  | _ :: _, 0, _ => List.Perm.refl _
  | x :: l, i + 1, h => by
    have := getElem_perm (l := l) (i := i) (by simpa using h)
    exact (List.Perm.swap _ _ _).trans (this.cons x)

theorem set_perm {α : Type} : ∀ {l : List α} {i : Nat} (_ : i < l.length) (a : α),
    (l.set i a).Perm (a :: l.eraseIdx i)
  | _ :: _, 0, _, _ => List.Perm.refl _
  | x :: l, i + 1, h, a => by
    have := set_perm (l := l) (i := i) (by simpa using h) a
    exact (this.cons x).trans (List.Perm.swap _ _ _)

theorem perm_drop {α : Type} (l : List α) (i : Nat) (hi : i < l.length) (x : α)
    (hx : l[l.length - 1]? = some x) : l.Perm (l[i] :: (l.set i x).dropLast) := by
  have hne : l ≠ [] := by intro h; simp [h] at hi
  obtain ⟨l', z, rfl⟩ : ∃ l' z, l = l' ++ [z] := ⟨l.dropLast, l.getLast hne, (List.dropLast_concat_getLast hne).symm⟩
  have hz : z = x := by simpa using hx
  subst hz
  by_cases h : i < l'.length
  · rw [List.set_append, if_pos h, List.dropLast_concat]
    rw [List.getElem_append_left h]
    refine List.perm_append_comm.trans ?_
    rw [List.singleton_append]
    refine ((getElem_perm h).symm.cons z).trans ?_
    refine (List.Perm.swap _ _ _).trans ?_
    exact (set_perm h z).symm.cons _
  · have : i = l'.length := by simp at hi; omega
    subst this
    simp

theorem sum_perm {ls ls' : List (List Trace)} (h : ls.Perm ls') :
    (ls.map List.length).sum = (ls'.map List.length).sum := (h.map _).sum_nat

theorem mergeLoop_spec : ∀ (n : Nat) (s : St) (Ls : List (List Trace)), (Ls.map List.length).sum < n →
    Inv s Ls → ∃ s' out, mergeLoop n s = some s' ∧ s'.out = s.out ++ out.flatMap (recBytes false) ∧
      Merged Ls out
  | 0, _, _, h, _ => by omega
  | n + 1, s, Ls, hn, hinv => by
    rw [mergeLoop]
    by_cases h0 : s.nr = 0
    · rw [if_pos h0]
      refine ⟨s, [], rfl, by simp, .done ?_⟩
      have : Ls = [] := List.eq_nil_of_length_eq_zero (by rw [hinv.nr, h0])
      simp [this]
    · rw [if_neg h0]
      obtain ⟨c, hi, hc, hmin⟩ := findEarliest_spec hinv h0
      generalize hidx : findEarliest s = i at hi hc
      have hiL : i < Ls.length := by rw [hinv.nr]; exact hi
      have hib : i < s.bcs.length := by have := hinv.le; omega
      obtain ⟨c2, hc2, hat⟩ := hinv.at_ i Ls[i] (List.getElem?_eq_getElem hiL)
      rw [hc] at hc2
      cases hc2
      obtain ⟨pct, l, ho, hL⟩ := hat
      have hheads : ∀ m ∈ Ls, ∀ y, m.head? = some y → c.t.time.toNat ≤ y.time.toNat := by
        intro m hm y hy
        obtain ⟨k, hk, hkm⟩ := List.mem_iff_getElem.mp hm
        obtain ⟨ck, hck, pk, lk, _, hLk⟩ := hinv.at_ k m (by rw [List.getElem?_eq_getElem hk, hkm])
        rw [hLk] at hy
        cases hy
        exact hmin k ck (by rw [← hinv.nr]; exact hk) hck
      simp only [hc]
      have ho' : Open { c with pos := c.pos + c.t.pduLen.toNat, t := { c.t with pduLen := 0#16 } } pct l 0 := by
        obtain ⟨d, hf, hd⟩ := ho.left
        exact ⟨ho.iter, ho.nrIter, ho.scalar, ho.time, d, hf, hd⟩
      have hset : Ls.set i ((wanted l).map (scaled pct)) |>.Perm
          ((wanted l).map (scaled pct) :: Ls.eraseIdx i) := set_perm hiL _
      have hLs : Ls.Perm (Ls[i] :: Ls.eraseIdx i) := (getElem_perm hiL).symm
      have hhe : ∀ m ∈ Ls.eraseIdx i, ∀ y, m.head? = some y → c.t.time.toNat ≤ y.time.toNat :=
        fun m hm => hheads m (List.mem_of_mem_eraseIdx hm)
      rcases readTrace_spec ho' with ⟨hw, c', hr, hit, hni⟩ | ⟨c', hr, hat'⟩
      · rw [hr]
        simp only [if_true]
        have hlast : s.nr - 1 < s.bcs.length := by have := hinv.le; omega
        rw [finish]
        simp only [List.getElem?_set_self hib]
        rw [if_neg (by rw [hit]; decide), if_neg (by rw [hit, hni]; decide)]
        simp only [List.set_set]
        obtain ⟨cn, hcn⟩ : ∃ cn,
            (s.bcs.set i { c' with iter := c'.iter + 1, f := none })[s.nr - 1]? = some cn :=
          ⟨_, List.getElem?_eq_getElem (by simpa using hlast)⟩
        rw [hcn]
        simp only
        have hlL : Ls.length - 1 < Ls.length := by omega
        rw [hw, List.map_nil] at hL
        have hp := perm_drop Ls i hiL _ (List.getElem?_eq_getElem hlL)
        have hsum := sum_perm hp
        rw [hL] at hsum hp
        simp only [List.map_cons, List.length_cons, List.sum_cons, List.length_nil] at hsum
        obtain ⟨s', out, h1, h2, h3⟩ := mergeLoop_spec n
          { bcs := s.bcs.set i cn
            nr := s.nr - 1, ret := 0
            out := s.out ++ encode { c.t with pduLen := 0#16 } }
          ((Ls.set i Ls[Ls.length - 1]).dropLast) (by omega)
          ⟨by simp [hinv.nr], by simpa using Nat.le_of_lt hlast, by
            intro k L hk
            have hkl : k < Ls.length - 1 := by
              obtain ⟨hk', _⟩ := List.getElem?_eq_some_iff.mp hk
              simpa using hk'
            rw [List.getElem?_dropLast, List.length_set, if_pos hkl] at hk
            have hkb : k < s.bcs.length := by have := hinv.le; have := hinv.nr; omega
            by_cases hki : k = i
            · subst hki
              rw [List.getElem?_set_self hiL] at hk
              cases hk
              obtain ⟨cl, hcl, hal⟩ := hinv.at_ (Ls.length - 1) _ (List.getElem?_eq_getElem hlL)
              refine ⟨cl, ?_, hal⟩
              simp only
              rw [List.getElem?_set_self hkb]
              have hne : k ≠ s.nr - 1 := by rw [← hinv.nr]; omega
              rw [List.getElem?_set_ne hne] at hcn
              rw [hinv.nr, hcn] at hcl
              exact hcl
            · rw [List.getElem?_set_ne (Ne.symm hki)] at hk
              obtain ⟨cl, hcl, hal⟩ := hinv.at_ k L hk
              refine ⟨cl, ?_, hal⟩
              simp only
              rw [List.getElem?_set_ne (Ne.symm hki)]
              exact hcl⟩
        refine ⟨s', { c.t with pduLen := 0#16 } :: out, h1, ?_, ?_⟩
        · rw [h2, List.flatMap_cons, encode_eq, List.append_assoc]
        · refine .step hp ?_ h3.nil_cons
          intro m hm
          exact hheads m (hp.mem_iff.mpr (List.mem_cons_of_mem _ hm))
      · rw [hr]
        simp only
        rw [if_neg (by decide)]
        have hsum := sum_perm hLs
        have hsum2 := sum_perm hset
        rw [hL] at hsum hLs
        simp only [List.map_cons, List.length_cons, List.sum_cons, List.length_map] at hsum hsum2
        obtain ⟨s', out, h1, h2, h3⟩ := mergeLoop_spec n
          { bcs := s.bcs.set i c', nr := s.nr, ret := 48
            out := s.out ++ encode { c.t with pduLen := 0#16 } }
          (Ls.set i ((wanted l).map (scaled pct))) (by omega)
          ⟨by simp [hinv.nr], by simpa using hinv.le, by
            intro k L hk
            by_cases hki : k = i
            · subst hki
              rw [List.getElem?_set_self hiL] at hk
              cases hk
              exact ⟨c', List.getElem?_set_self hib, hat'⟩
            · rw [List.getElem?_set_ne (Ne.symm hki)] at hk
              obtain ⟨cl, hcl, hal⟩ := hinv.at_ k L hk
              refine ⟨cl, ?_, hal⟩
              simp only
              rw [List.getElem?_set_ne (Ne.symm hki)]
              exact hcl⟩
        refine ⟨s', { c.t with pduLen := 0#16 } :: out, h1, ?_, ?_⟩
        · rw [h2, List.flatMap_cons, encode_eq, List.append_assoc]
        · exact .step hLs hhe (h3.perm hset)

/-- The source of an input. -/
def srcOf (i : Input) : Src := .data (fileBytes i.big i.recs)

theorem setup_spec : ∀ (rest : List Input) (i : Nat) (s : St) (Ls : List (List Trace)),
    (∀ x ∈ rest, x.Good) → s.nr = i → s.bcs.length = i + rest.length →
    (∀ (k : Nat) (x : Input), rest[k]? = some x → ∃ c, s.bcs[i + k]? = some c ∧ c.iter = 0 ∧ c.nrIter = 1 ∧ c.scalar = x.pct) →
    Inv s Ls →
    ∃ s', setup (rest.map srcOf) i s = some (false, s') ∧ s'.out = s.out ∧
      Inv s' (Ls ++ rest.map fun x => share x.pct x.recs)
  | [], i, s, Ls, _, _, _, _, hinv => ⟨s, rfl, rfl, by simpa using hinv⟩
  | x :: rest, i, s, Ls, hg, hnr, hlen, hcs, hinv => by
    have hx := hg x (by simp)
    obtain ⟨c, hc, hit, hni, hsc⟩ := hcs 0 x rfl
    rw [Nat.add_zero] at hc
    have hib : i < s.bcs.length := by rw [hlen]; simp
    rw [List.map_cons, srcOf, setup, hc]
    simp only
    have hne : x.recs ≠ [] := by
      intro h
      obtain ⟨r, hr, _⟩ := hx.some
      rw [h] at hr
      cases hr
    obtain ⟨r, l, hrl⟩ : ∃ r l, x.recs = r :: l := by
      cases h : x.recs with
      | nil => exact absurd h hne
      | cons r l => exact ⟨r, l, rfl⟩
    have hisb : isBlktrace (fileBytes x.big x.recs) = some x.big := by
      rw [hrl]
      exact isBlktrace_file _ _ _ (hx.magic r l hrl)
    rw [hisb]
    simp only
    have ho : Open { c with f := some (fileBytes x.big x.recs), pos := 0, swap := x.big } x.pct x.recs 0 :=
      ⟨hit, hni, hsc, hx.time, _, rfl, by simp⟩
    rcases readTrace_spec ho with ⟨hw, _⟩ | ⟨c', hr, hat'⟩
    · exfalso
      obtain ⟨r', hr', hw'⟩ := hx.some
      have : r'.t ∈ wanted x.recs := by
        unfold wanted
        rw [List.mem_filter]
        exact ⟨List.mem_map_of_mem hr', by simpa using hw'⟩
      rw [hw] at this
      cases this
    · rw [hr]
      simp only
      rw [if_neg (by decide)]
      simp only [List.set_set]
      have hLi : Ls.length = i := by rw [hinv.nr, hnr]
      obtain ⟨s', h1, h2, h3⟩ := setup_spec rest (i + 1)
        { bcs := s.bcs.set i c', nr := s.nr + 1, ret := 48, out := s.out }
        (Ls ++ [share x.pct x.recs]) (fun y hy => hg y (by simp [hy])) (by simp [hnr])
        (by simp [hlen]; omega)
        (by
          intro k y hk
          obtain ⟨c2, hc2, h⟩ := hcs (k + 1) y (by simpa using hk)
          refine ⟨c2, ?_, h⟩
          simp only
          rw [List.getElem?_set_ne (by omega), show i + 1 + k = i + (k + 1) by omega]
          exact hc2)
        ⟨by simp [hinv.nr], by simp; omega, by
          intro k L hk
          by_cases hki : k = i
          · subst hki
            rw [List.getElem?_append_right (by omega), hLi, Nat.sub_self] at hk
            cases hk
            exact ⟨c', List.getElem?_set_self hib, hat'⟩
          · have hkl : k < Ls.length := by
              obtain ⟨h, _⟩ := List.getElem?_eq_some_iff.mp hk
              simp at h
              omega
            rw [List.getElem?_append_left hkl] at hk
            obtain ⟨cl, hcl, hal⟩ := hinv.at_ k L hk
            refine ⟨cl, ?_, hal⟩
            simp only
            rw [List.getElem?_set_ne (Ne.symm hki)]
            exact hcl⟩
      refine ⟨s', h1, h2, ?_⟩
      rw [List.map_cons]
      simpa using h3

end Fio.Blkmerge
