import Verif.Replay.Props
import Verif.Replay.Chunk

/-!
C75: a log read in chunks.
-/
namespace Fio.Replay
open Spec (Out strip GoodOpts)

/-- The setting: a log that fio wrote, read back without redirection. -/
structure Setting (o : Opts) (names : List (List Nat)) (ts : List Nat) (evs : List Ev) : Prop where
  version : o.version = 3
  redirect : o.redirect = none
  dir : o.dir = []
  opts : GoodOpts o
  hnames : ∀ n ∈ names, Spec.Name n
  nodup : names.Nodup
  times : ∀ t ∈ ts, t < 2 ^ 64
  hevs : ∀ e ∈ evs, Spec.Entry names.length e

/-- The pieces that entries stand for, files numbered as in the job. -/
def outs (o : Opts) (before : Nat) (es : List Ev) : List Out :=
  Spec.pieces o (fun f => (f : Nat)) before es

/-- The lines of entries. -/
def text (names : List (List Nat)) (es : List Ev) : List Nat := (es.map (logLine names)).flatten

theorem addEvs_get {names : List (List Nat)} {ts : List Nat} {evs : List Ev} {p : Nat}
    (h : p < names.length) :
    (addEvs names ts ++ evs)[p]? = some (.file (ts.getD p 0) p .add) := by
  rw [List.getElem?_append_left (by simp [addEvs, h])]
  simp [addEvs, h]

theorem evs_get {names : List (List Nat)} {ts : List Nat} {evs : List Ev} {p : Nat} {e : Ev}
    (h : names.length ≤ p) (he : (addEvs names ts ++ evs)[p]? = some e) : e ∈ evs := by
  rw [List.getElem?_append_right (by simp [addEvs, h])] at he
  exact List.mem_of_getElem? he

theorem outs_cons (o : Opts) (b : Nat) (e : Ev) (es : List Ev) :
    outs o b (e :: es) = outs o b [e] ++ outs o (evTime e) es := by
  unfold outs
  cases e with
  | file t f a => simp [Spec.pieces, evTime]
  | io t f d off len => simp only [Spec.pieces, evTime]; split <;> simp

theorem good_at {o : Opts} {names : List (List Nat)} {ts : List Nat} {evs : List Ev}
    (H : Setting o names ts evs) {p : Nat} {e : Ev} (he : (addEvs names ts ++ evs)[p]? = some e) :
    GoodName (names.getD (evFile e) []) := by
  have := range_adds (ts := ts) H.hevs e (List.mem_of_getElem? he)
  exact spec_name (H.hnames _ (getD_name this))

theorem step_all {o : Opts} {names : List (List Nat)} {ts : List Nat} {evs : List Ev}
    (H : Setting o names ts evs) {p : Nat} {s : R} {e : Ev} (hs : s.files = names.take p)
    (he : (addEvs names ts ++ evs)[p]? = some e) :
    ∃ s', ((readLine o s (logLine names e) = .next s' ∧ outs o s.last [e] = []) ∨
        (readLine o s (logLine names e) = .queued s' ∧ (outs o s.last [e]).length = 1)) ∧
      s'.files = names.take (p + 1) ∧ s'.last = evTime e ∧
      s'.pieces.map strip = s.pieces.map strip ++ outs o s.last [e] := by
  have hgn := good_at H he
  by_cases hp : p < names.length
  · rw [addEvs_get hp] at he
    simp only [Option.some.injEq] at he
    subst he
    have ht : ts.getD p 0 < 2 ^ 64 := by
      rw [List.getD_eq_getElem?_getD]
      cases h : ts[p]? with
      | none => simp
      | some t => exact H.times t (List.mem_of_getElem? h)
    obtain ⟨s1, h1, h2, _⟩ := readLine_add (o := o) (s := s) (f := p) (names := names) H.version ht
      hgn (Or.inl H.redirect)
    have hlen : s.files.length = p := by rw [hs, List.length_take]; omega
    refine ⟨s1, Or.inr ⟨h1, by simp [outs, Spec.pieces]⟩, ?_, h2.last, ?_⟩
    · rw [h2.files, hs, H.dir, H.redirect, List.take_add_one, List.getElem?_eq_getElem hp]
      simp [List.getD_eq_getElem?_getD, hp]
    · rw [h2.outs, hlen]; rfl
  · have hmem := evs_get (by omega) he
    have hE := H.hevs e hmem
    have hfull : names.take p = names := List.take_of_length_le (by omega)
    have hfull' : names.take (p + 1) = names := List.take_of_length_le (by omega)
    rw [hfull] at hs
    rw [hfull']
    have hfi : ∀ f, f < names.length →
        getFileno s.files (o.redirect.getD (names.getD f [])) = (f : Nat) := by
      intro f hf
      rw [hs, H.redirect]
      exact getFileno_nodup H.nodup hf
    cases e with
    | file t f a =>
      obtain ⟨s1, h1, h2, _⟩ := readLine_oc (o := o) (s := s) H.version hE.1 hgn hE.2.2
        (hfi f hE.2.1)
      exact ⟨s1, Or.inr ⟨h1, by simp [outs, Spec.pieces]⟩, by rw [h2.files, hs], h2.last, h2.outs⟩
    | io t f d off len =>
      obtain ⟨s1, h1, h2, _⟩ := readLine_io (o := o) (s := s) H.version H.opts hE.1 hE.2.2.1
        hE.2.2.2.1 hE.2.2.2.2 hgn (hfi f hE.2.1)
      refine ⟨s1, ?_, by rw [h2.files, hs], h2.last, ?_⟩
      · rcases h1 with ⟨ha, hb⟩ | ⟨ha, hb⟩
        · exact Or.inl ⟨ha, by simp [outs, Spec.pieces, hb]⟩
        · exact Or.inr ⟨ha, by simp [outs, Spec.pieces, hb]⟩
      · rw [h2.outs]; rfl

theorem drop_of_get {l : List Ev} {p : Nat} {e : Ev} (h : l[p]? = some e) :
    l.drop p = e :: l.drop (p + 1) := by
  rw [List.getElem?_eq_some_iff] at h
  obtain ⟨h1, h2⟩ := h
  rw [← h2]
  exact List.drop_eq_getElem_cons h1

/-- Reading at most `k` pieces. -/
theorem readLoop_budget {o : Opts} {names : List (List Nat)} {ts : List Nat} {evs : List Ev}
    (H : Setting o names ts evs) :
    ∀ (fuel k p : Nat) (s : R), 1 ≤ k → (addEvs names ts ++ evs).length - p ≤ fuel →
      p ≤ (addEvs names ts ++ evs).length → s.files = names.take p →
      ∃ s' p' P, readLoop o fuel (some k) s (text names ((addEvs names ts ++ evs).drop p))
          = some (s', text names ((addEvs names ts ++ evs).drop p')) ∧
        p' ≤ (addEvs names ts ++ evs).length ∧ s'.files = names.take p' ∧
        s'.pieces.map strip = s.pieces.map strip ++ P ∧
        outs o s.last ((addEvs names ts ++ evs).drop p)
          = P ++ outs o s'.last ((addEvs names ts ++ evs).drop p') ∧
        (p' = (addEvs names ts ++ evs).length ∨ P.length = k) ∧ P.length ≤ k := by
  generalize hall : addEvs names ts ++ evs = all
  intro fuel
  induction fuel with
  | zero =>
    intro k p s hk hf hp hs
    have hpe : p = all.length := by omega
    subst hpe
    refine ⟨s, all.length, [], ?_, Nat.le_refl _, hs, by simp, by simp, Or.inl rfl, by simp⟩
    simp [readLoop]
  | succ fuel ih =>
    intro k p s hk hf hp hs
    cases he : all[p]? with
    | none =>
      have hpe : p = all.length := by
        have := List.getElem?_eq_none_iff.mp he; omega
      subst hpe
      refine ⟨s, all.length, [], ?_, Nat.le_refl _, hs, by simp, by simp, Or.inl rfl, by simp⟩
      simp [readLoop, text]
    | some e =>
      have hpl : p < all.length := (List.getElem?_eq_some_iff.mp he).1
      have he' : (addEvs names ts ++ evs)[p]? = some e := by rw [hall]; exact he
      obtain ⟨s1, h1, f1, l1, p1⟩ := step_all H hs he'
      have hgn := good_at H he'
      have hb := body_line hgn
      rw [drop_of_get he]
      have htx : text names (e :: all.drop (p + 1)) = logLine names e ++ text names (all.drop (p + 1)) := by
        simp [text]
      rw [htx]
      have hfg : fgets 4095 (logLine names e ++ text names (all.drop (p + 1)))
          = (logLine names e, text names (all.drop (p + 1))) := by
        rw [logLine_eq]; exact fgets_line _ _ _ hb.1 hb.2
      have hne : logLine names e ++ text names (all.drop (p + 1)) ≠ [] := by
        rw [logLine_eq]; simp
      unfold readLoop
      rw [if_neg hne, hfg, outs_cons]
      rcases h1 with ⟨h1, ho⟩ | ⟨h1, ho⟩
      · rw [h1]
        simp only
        obtain ⟨s2, p2, P, e2, hp2, f2, q2, o2, d2, hle⟩ := ih k (p + 1) s1 hk (by omega) (by omega) f1
        refine ⟨s2, p2, P, e2, hp2, f2, ?_, ?_, d2, hle⟩
        · rw [q2, p1, ho]; simp
        · rw [ho, ← l1, o2]; simp
      · rw [h1]
        simp only
        by_cases hk1 : k = 1
        · rw [if_pos hk1]
          refine ⟨s1, p + 1, outs o s.last [e], rfl, by omega, f1, p1, ?_, Or.inr (by omega), by omega⟩
          rw [l1]
        · rw [if_neg hk1]
          obtain ⟨s2, p2, P, e2, hp2, f2, q2, o2, d2, hle⟩ := ih (k - 1) (p + 1) s1 (by omega)
            (by omega) (by omega) f1
          refine ⟨s2, p2, outs o s.last [e] ++ P, e2, hp2, f2, ?_, ?_, ?_, ?_⟩
          · rw [q2, p1, List.append_assoc]
          · rw [← l1, o2, List.append_assoc]
          · rcases d2 with d2 | d2
            · exact Or.inl d2
            · right; rw [List.length_append]; omega
          · rw [List.length_append]; omega

/-- The state between two calls: `p` entries are read. -/
structure CInv (names : List (List Nat)) (all : List Ev) (c : C) (p : Nat) : Prop where
  files : c.r.files = names.take p
  rest : c.rest = text names (all.drop p)
  le : p ≤ all.length
  cur : c.cur = c.r.pieces.length
  lt : c.cur < 2 ^ 32

/-- What is still to be handed out. -/
def left (o : Opts) (all : List Ev) (c : C) (p : Nat) : List Out :=
  c.r.pieces.map strip ++ outs o c.r.last (all.drop p)

theorem text_length_ge (names : List (List Nat)) (es : List Ev) :
    es.length ≤ (text names es).length := flatten_length_ge names es

theorem items_facts (c : C) (e : Nat) (hc : c.cur < 2 ^ 32) (h0 : c.high = 0 → c.cur = 0) :
    (itemsToFetch c e).2.r = c.r ∧ (itemsToFetch c e).2.rest = c.rest ∧
      (itemsToFetch c e).2.cur = c.cur ∧
      c.cur + (itemsToFetch c e).1 < 2 ^ 32 := by
  unfold itemsToFetch
  split
  · rename_i h
    refine ⟨rfl, rfl, rfl, ?_⟩
    rw [h0 h]; simp
  · refine ⟨rfl, rfl, rfl, ?_⟩
    dsimp only
    split
    · simpa using hc
    · generalize hx : (c.high + 2 ^ 32 - c.cur) % 2 ^ 32 * 1000000000 % 2 ^ 32 = x
      have hlt : x < 2 ^ 32 := by rw [← hx]; exact Nat.mod_lt _ (by decide)
      have : x / e ≤ x := Nat.div_le_self _ _
      omega

theorem readChunk_ok {o : Opts} {names : List (List Nat)} {ts : List Nat} {evs : List Ev}
    (H : Setting o names ts evs) {c : C} {p g e : Nat}
    (hi : CInv names (addEvs names ts ++ evs) c p) (h0 : c.high = 0 → c.cur = 0) :
    ∃ c' b p', readChunk o g c e = some (c', b) ∧
      CInv names (addEvs names ts ++ evs) c' p' ∧
      left o (addEvs names ts ++ evs) c' p' = left o (addEvs names ts ++ evs) c p ∧
      c.cur ≤ c'.cur ∧ (b = false → c'.cur = 0) ∧ (c'.cur ≠ 0 → c'.high ≠ 0) ∧
      (0 < (itemsToFetch c e).1 → c'.rest ≠ [] →
        c'.cur = c.cur + (itemsToFetch c e).1 ∧ c'.check = (c'.cur + 1) / 2) := by
  obtain ⟨hr, hre, hcu, hlt⟩ := items_facts c e hi.lt h0
  unfold readChunk
  dsimp only
  generalize hk : (itemsToFetch c e).1 = k at hlt ⊢
  generalize hc2 : (itemsToFetch c e).2 = c2 at hr hre hcu ⊢
  by_cases hz : k = 0
  · rw [if_pos hz]
    refine ⟨c2, true, p, rfl, ⟨by rw [hr]; exact hi.files, by rw [hre]; exact hi.rest, hi.le,
      by rw [hcu, hr]; exact hi.cur, by rw [hcu]; exact hi.lt⟩, by rw [left, hr]; rfl,
      by omega, (fun h => by cases h), ?_, by omega⟩
    intro hcn
    rw [← hc2]
    unfold itemsToFetch at hk ⊢
    split
    · rename_i h
      exact absurd (h0 h) (by rw [← hcu]; exact hcn)
    · rename_i h
      rw [if_neg h] at hk
      dsimp only at hk ⊢
      rw [hk, hz, Nat.add_zero, Nat.mod_eq_of_lt hi.lt, ← hcu]
      exact hcn
  · rw [if_neg hz]
    have hfuel : (addEvs names ts ++ evs).length - p ≤ c2.rest.length + 1 := by
      have := text_length_ge names ((addEvs names ts ++ evs).drop p)
      rw [hre, hi.rest]
      rw [List.length_drop] at this
      omega
    obtain ⟨s', p', P, e1, e2, e3, e4, e5, e6, e7⟩ := readLoop_budget H (c2.rest.length + 1) k p
      (restart g g g c2.r) (by omega) hfuel hi.le (by rw [hr]; exact hi.files)
    rw [show c2.rest = text names ((addEvs names ts ++ evs).drop p) from by rw [hre, hi.rest]] at e1 ⊢
    rw [e1]
    simp only
    have hlast : (restart g g g c2.r).last = c.r.last := by rw [hr]; rfl
    have hpcs : (restart g g g c2.r).pieces = c.r.pieces := by rw [hr]; rfl
    rw [hlast] at e5
    rw [hpcs] at e4
    have hlenP : s'.pieces.length = c.r.pieces.length + P.length := by
      have := congrArg List.length e4
      simpa using this
    have hsub : s'.pieces.length - c2.r.pieces.length = P.length := by rw [hr]; omega
    rw [hsub, hcu]
    have hnw : (c.cur + P.length) % 2 ^ 32 = c.cur + P.length := Nat.mod_eq_of_lt (by omega)
    rw [hnw]
    refine ⟨_, _, p', rfl, ⟨e3, rfl, e2, ?_, ?_⟩, ?_, ?_, ?_, ?_, ?_⟩
    · dsimp only; rw [hlenP, hi.cur]
    · dsimp only; omega
    · simp only [left]
      rw [e4, e5, List.append_assoc]
    · dsimp only; omega
    · intro hb; simpa using hb
    · intro h; exact h
    · intro _ hne
      have hPk : P.length = k := by
        rcases e6 with h | h
        · exfalso
          apply hne
          dsimp only
          rw [h, List.drop_length]
          rfl
        · exact h
      dsimp only
      rw [hPk]
      refine ⟨rfl, ?_⟩
      rcases Nat.lt_or_ge (c.cur + k + 1) (2 ^ 32) with h | h
      · rw [Nat.mod_eq_of_lt h]
      · -- the product modulo 2^32 is a multiple of 2^9
        exfalso
        have hce : c.cur + k + 1 = 2 ^ 32 := by omega
        rw [← hk] at hce
        unfold itemsToFetch at hce hk
        split at hce
        · rename_i hh
          rw [h0 hh] at hce
          simp at hce
        · rename_i hh
          rw [if_neg hh] at hk
          dsimp only at hce hk
          split at hce
          · rename_i he0
            rw [if_pos he0] at hk
            omega
          · rename_i he0
            rw [if_neg he0] at hk
            generalize hx : (c.high + 2 ^ 32 - c.cur) % 2 ^ 32 * 1000000000 % 2 ^ 32 = x at hce hk
            have hx2 : x % 2 = 0 := by
              rw [← hx]
              omega
            have hxl : x < 2 ^ 32 := by rw [← hx]; exact Nat.mod_lt _ (by decide)
            have : x / e ≤ x := Nat.div_le_self _ _
            omega

theorem pieces_nil_cur {names : List (List Nat)} {all : List Ev} {c : C} {p : Nat}
    (hi : CInv names all c p) : c.r.pieces = [] ↔ c.cur = 0 := by
  rw [hi.cur, List.length_eq_zero_iff]

/-- One round. -/
theorem getChunk_ok {o : Opts} {names : List (List Nat)} {ts : List Nat} {evs : List Ev}
    (H : Setting o names ts evs) {c : C} {p g e : Nat}
    (hi : CInv names (addEvs names ts ++ evs) c p) (h0 : c.high = 0 → c.cur = 0)
    (hne : c.r.pieces ≠ []) :
    ∃ c' x p', getChunk o g c e = some (c', some x) ∧
      CInv names (addEvs names ts ++ evs) c' p' ∧ (c'.high = 0 → c'.cur = 0) ∧
      strip x :: left o (addEvs names ts ++ evs) c' p' = left o (addEvs names ts ++ evs) c p ∧
      ((c.rest ≠ [] → 1 ≤ c.check ∧ c.check ≤ c.cur) →
        (c.check = c.cur → c.rest ≠ [] → 0 < (itemsToFetch c e).1) →
        c'.rest ≠ [] → 1 ≤ c'.check ∧ c'.check ≤ c'.cur) := by
  have hcz : c.cur ≠ 0 := fun h => hne ((pieces_nil_cur hi).mpr h)
  unfold getChunk
  rw [if_neg hne]
  dsimp only
  -- the state after reading ahead
  have mid : ∃ c1 p1, (if c.check = c.cur then readChunk o g c e else some (c, true))
      = some (c1, true) ∧ CInv names (addEvs names ts ++ evs) c1 p1 ∧
      left o (addEvs names ts ++ evs) c1 p1 = left o (addEvs names ts ++ evs) c p ∧
      c1.cur ≠ 0 ∧ c1.high ≠ 0 ∧
      ((c.rest ≠ [] → 1 ≤ c.check ∧ c.check ≤ c.cur) →
        (c.check = c.cur → c.rest ≠ [] → 0 < (itemsToFetch c e).1) →
        c1.rest ≠ [] → 1 ≤ c1.check ∧ c1.check < c1.cur) := by
    by_cases hm : c.check = c.cur
    · rw [if_pos hm]
      obtain ⟨c1, b, p1, r1, r2, r3, r4, r5, r6, r7⟩ := readChunk_ok H (g := g) (e := e) hi h0
      have hb : b = true := by
        cases b with
        | true => rfl
        | false => have := r5 rfl; omega
      subst hb
      refine ⟨c1, p1, r1, r2, r3, by omega, r6 (by omega), ?_⟩
      intro hmark hfast hrest
      have hcr : c.rest ≠ [] := by
        intro hc
        -- nothing left: what was read is nothing
        have hpl : (addEvs names ts ++ evs).drop p = [] := by
          have := hi.rest
          rw [hc] at this
          have hge := text_length_ge names ((addEvs names ts ++ evs).drop p)
          rw [← this] at hge
          exact List.length_eq_zero_iff.mp (Nat.le_zero.mp hge)
        apply hrest
        -- the file is at its end
        have hr1 : readChunk o g c e = some (c1, true) := r1
        unfold readChunk at hr1
        dsimp only at hr1
        obtain ⟨_, hre, _, _⟩ := items_facts c e hi.lt h0
        split at hr1
        · simp only [Option.some.injEq, Prod.mk.injEq] at hr1
          rw [← hr1.1, hre, hc]
        · rw [hre, hc] at hr1
          simp only [readLoop, List.length_nil, if_true] at hr1
          simp only [Option.some.injEq, Prod.mk.injEq] at hr1
          rw [← hr1.1]
      have hk := hfast hm hcr
      obtain ⟨q1, q2⟩ := r7 hk hrest
      rw [q2]
      have hlt := r2.lt
      have hce : 2 ≤ c1.cur := by omega
      omega
    · rw [if_neg hm]
      refine ⟨c, p, rfl, hi, rfl, hcz, fun h => hcz (h0 h), ?_⟩
      intro hmark _ hrest
      have := hmark hrest
      omega
  obtain ⟨c1, p1, m1, m2, m3, m4, m5, m6⟩ := mid
  rw [m1]
  simp only
  cases hps : c1.r.pieces with
  | nil => exact absurd ((pieces_nil_cur m2).mp hps) m4
  | cons x ps =>
    have hcur : (c1.cur + 2 ^ 32 - 1) % 2 ^ 32 = c1.cur - 1 := by
      have := m2.lt
      rw [show c1.cur + 2 ^ 32 - 1 = (c1.cur - 1) + 2 ^ 32 from by omega, Nat.add_mod_right,
        Nat.mod_eq_of_lt (by omega)]
    simp only
    refine ⟨_, x, p1, rfl, ⟨m2.files, m2.rest, m2.le, ?_, ?_⟩, ?_, ?_, ?_⟩
    · dsimp only
      rw [hcur, m2.cur, hps]; simp
    · dsimp only
      rw [hcur]; have := m2.lt; omega
    · intro h; exact absurd h m5
    · rw [← m3]
      simp [left, hps]
    · intro hmark hfast hrest
      have := m6 hmark hfast hrest
      dsimp only
      rw [hcur]
      omega

/-- The reader keeps up: whenever the mark is reached and the file is not at its
end, at least one more piece is fetched. -/
def KeepsUp (o : Opts) (g : Nat) : List Nat → C → Prop
  | [], _ => True
  | e :: es, c =>
    (c.r.pieces ≠ [] → c.check = c.cur → c.rest ≠ [] → 0 < (itemsToFetch c e).1) ∧
      match getChunk o g c e with
      | some (c', some _) => KeepsUp o g es c'
      | _ => True

theorem drain_ok {o : Opts} {names : List (List Nat)} {ts : List Nat} {evs : List Ev} {g : Nat}
    (H : Setting o names ts evs) :
    ∀ (es : List Nat) (c : C) (p : Nat), CInv names (addEvs names ts ++ evs) c p →
      (c.high = 0 → c.cur = 0) →
      ∃ ps c' p', drain o g es c = some (ps, c') ∧
        ps.map strip ++ left o (addEvs names ts ++ evs) c' p'
          = left o (addEvs names ts ++ evs) c p ∧
        (ps.length = es.length ∨ c'.r.pieces = []) ∧
        ((c.rest ≠ [] → 1 ≤ c.check ∧ c.check ≤ c.cur) → KeepsUp o g es c →
          c'.r.pieces = [] → left o (addEvs names ts ++ evs) c' p' = []) := by
  intro es
  have fin : ∀ (c : C) (p : Nat), CInv names (addEvs names ts ++ evs) c p →
      (c.rest ≠ [] → 1 ≤ c.check ∧ c.check ≤ c.cur) → c.r.pieces = [] →
      left o (addEvs names ts ++ evs) c p = [] := by
    intro c p hi hm hpn
    have hcu := (pieces_nil_cur hi).mp hpn
    have hre : c.rest = [] := by
      rcases Classical.em (c.rest = []) with h | h
      · exact h
      · have := hm h; omega
    have hge := text_length_ge names ((addEvs names ts ++ evs).drop p)
    rw [← hi.rest, hre] at hge
    have : (addEvs names ts ++ evs).drop p = [] :=
      List.length_eq_zero_iff.mp (Nat.le_zero.mp hge)
    rw [left, this, hpn]
    rfl
  induction es with
  | nil =>
    intro c p hi h0
    exact ⟨[], c, p, rfl, by simp, Or.inl rfl, fun hm _ hp => fin c p hi hm hp⟩
  | cons e es ih =>
    intro c p hi h0
    by_cases hne : c.r.pieces = []
    · refine ⟨[], c, p, ?_, by simp, Or.inr hne, fun hm _ hp => fin c p hi hm hp⟩
      simp [drain, getChunk, hne]
    · obtain ⟨c1, x, p1, g1, g2, g3, g4, g5⟩ := getChunk_ok H (g := g) (e := e) hi h0 hne
      obtain ⟨ps, c2, p2, d1, d2, d3, d4⟩ := ih c1 p1 g2 g3
      refine ⟨x :: ps, c2, p2, ?_, ?_, ?_, ?_⟩
      · simp only [drain, g1, d1, Option.map_some]
      · rw [← g4, ← d2]; simp
      · rcases d3 with d3 | d3
        · left; simp [d3]
        · exact Or.inr d3
      · intro hm hk hp
        obtain ⟨hk1, hk2⟩ := hk
        rw [g1] at hk2
        exact d4 (g5 hm (hk1 hne)) hk2 hp

/-- **C75.**  Reading a log in chunks, whatever times are measured: nothing
crashes, and the pieces handed out are those of the log in the right order (a
beginning of them).  If the reader keeps up - at every mark reached before the
end of the file at least one piece is fetched - then a job that has run out of
pieces has had all of them. -/
theorem C75_chunked_partial (o : Opts) (names : List (List Nat)) (ts : List Nat) (evs : List Ev)
    (g : Nat) (s0 : R) (H : Setting o names ts evs) (hf : Fresh s0) (es : List Nat) :
    ∃ ps c' c0 b, startChunk o g s0 (writeLog names ts evs) = some (c0, b) ∧
      chunked o g s0 (writeLog names ts evs) es = some (ps, c') ∧
      ps.map strip <+: Spec.pieces o (fun f => (f : Nat)) 0 (addEvs names ts ++ evs) ∧
      (ps.length = es.length ∨ c'.r.pieces = []) ∧
      (KeepsUp o g es c0 → c'.r.pieces = [] →
        ps.map strip = Spec.pieces o (fun f => (f : Nat)) 0 (addEvs names ts ++ evs)) := by
  have hov : ({ o with version := 3 } : Opts) = o := by
    have := H.version
    cases o; simp at this; subst this; rfl
  let c00 : C := { r := s0, rest := text names (addEvs names ts ++ evs), cur := 0, check := 0,
                   high := 0 }
  have hi : CInv names (addEvs names ts ++ evs) c00 0 :=
    ⟨by simp [c00, hf.files], by simp [c00], by omega, by simp [c00, hf.pieces], by simp [c00]⟩
  obtain ⟨c0, b, p, r1, r2, r3, r4, r5, r6, r7⟩ := readChunk_ok H (g := g) (e := 0) hi (fun _ => rfl)
  have hstart : startChunk o g s0 (writeLog names ts evs) = some (c0, b) := by
    unfold startChunk writeLog
    rw [readVersion_write]
    simp only
    rw [hov]
    exact r1
  have hleft0 : left o (addEvs names ts ++ evs) c00 0 = outs o 0 (addEvs names ts ++ evs) := by
    simp [left, c00, hf.pieces, hf.last]
  have h0 : c0.high = 0 → c0.cur = 0 := by
    intro h
    rcases Nat.eq_zero_or_pos c0.cur with hc | hc
    · exact hc
    · exact absurd h (r6 (by omega))
  obtain ⟨ps, c', p', d1, d2, d3, d4⟩ := drain_ok H (g := g) es c0 p r2 h0
  have heq : ps.map strip ++ left o (addEvs names ts ++ evs) c' p'
      = Spec.pieces o (fun f => (f : Nat)) 0 (addEvs names ts ++ evs) := by
    rw [d2, r3, hleft0]; rfl
  refine ⟨ps, c', c0, b, hstart, ?_, ?_, d3, ?_⟩
  · unfold chunked
    rw [hstart]
    simp only
    rw [hov]
    exact d1
  · exact ⟨_, heq⟩
  · intro hk hp
    have hm : c0.rest ≠ [] → 1 ≤ c0.check ∧ c0.check ≤ c0.cur := by
      intro hr
      have := r7 (show 0 < 10 from by decide) hr
      have h10 : (itemsToFetch c00 0).1 = 10 := rfl
      rw [h10] at this
      have hc0 : c00.cur = 0 := rfl
      rw [hc0] at this
      omega
    rw [← heq, d4 hm hk hp, List.append_nil]

end Fio.Replay
