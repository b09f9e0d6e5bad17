import Verif.Replay.Loop

/-! Lemmas: the pieces are handed out in order. -/
namespace Fio.Replay
open Spec (Out strip GoodOpts)

/-- What taking a piece does, by what the piece asks for. -/
def getOut (o : Opts) (fs : List FSt) : Out → Option (List FSt × Option Io)
  | .special f a => (special o fs ⟨.inval, f, 0, 0, 0, a⟩).map fun fs => (fs, none)
  | .wait _ => some (fs, none)
  | .io d f off len _ =>
    match fileOf fs f with
    | none => none
    | some (i, x) => (getFile x).map fun x' => (fs.set i x', some ⟨d, i, off, len⟩)

theorem getPiece_strip (o : Opts) (fs : List FSt) (p : Piece) :
    getPiece o fs p = getOut o fs (strip p) := by
  unfold getPiece strip
  cases h : p.ddir <;> simp only [getOut] <;> rfl

/-- The run, by what the pieces ask for. -/
def replayOut (o : Opts) : List Bool → List FSt → List Out → List Io → Option (List Io)
  | [], _, _, _ => some []
  | false :: w, fs, ps, [] => replayOut o w fs ps []
  | false :: w, fs, ps, io :: q =>
    match completeIo fs io.file with
    | none => none
    | some fs => replayOut o w fs ps q
  | true :: w, fs, [], q => replayOut o w fs [] q
  | true :: w, fs, p :: ps, q =>
    match getOut o fs p with
    | none => none
    | some (fs, none) => replayOut o w fs ps q
    | some (fs, some io) => (replayOut o w fs ps (q ++ [io])).map (io :: ·)

theorem replay_strip (o : Opts) : ∀ (w : List Bool) (fs : List FSt) (ps : List Piece) (q : List Io),
    replay o w fs ps q = replayOut o w fs (ps.map strip) q := by
  intro w
  induction w with
  | nil => intro fs ps q; rfl
  | cons b w ih =>
    intro fs ps q
    cases b with
    | false =>
      cases q with
      | nil => simp only [replay, replayOut, ih]
      | cons io q =>
        simp only [replay, replayOut]
        split <;> simp_all
    | true =>
      cases ps with
      | nil => simp only [replay, replayOut, ih, List.map_nil]
      | cons p ps =>
        simp only [replay, replayOut, List.map_cons, getPiece_strip]
        split <;> simp_all

/-- I/Os in flight on a file. -/
def infl (q : List Io) (f : Nat) : Nat := q.countP (fun io => io.file == f)

/-- The files agree with the history so far and with the I/O in flight. -/
structure Inv (n : Nat) (op : Nat → Bool) (q : List Io) (fs : List FSt) : Prop where
  len : fs.length = n
  inq : ∀ io ∈ q, io.file < n
  st : ∀ i x, fs[i]? = some x → x.refs = (if op i then 1 else 0) + infl q i ∧
    (x.isOpen = true ↔ 0 < x.refs)

theorem infl_append (q : List Io) (io : Io) (f : Nat) :
    infl (q ++ [io]) f = infl q f + if io.file = f then 1 else 0 := by
  simp only [infl, List.countP_append, List.countP_cons, List.countP_nil]
  by_cases h : io.file = f <;> simp [h]

theorem infl_cons (q : List Io) (io : Io) (f : Nat) :
    infl (io :: q) f = infl q f + if io.file = f then 1 else 0 := by
  simp only [infl, List.countP_cons]
  by_cases h : io.file = f <;> simp [h]

theorem complete_ok {n : Nat} {op : Nat → Bool} {q : List Io} {io : Io} {fs : List FSt}
    (h : Inv n op (io :: q) fs) :
    ∃ fs', completeIo fs io.file = some fs' ∧ Inv n op q fs' := by
  have hlt : io.file < fs.length := by rw [h.len]; exact h.inq io (by simp)
  have hx := List.getElem?_eq_getElem hlt
  obtain ⟨hr, ho⟩ := h.st _ _ hx
  rw [infl_cons, if_pos rfl] at hr
  unfold completeIo
  rw [hx]
  simp only
  generalize fs[io.file] = x at hr ho hx
  have hpos : 0 < x.refs := by omega
  have hop : x.isOpen = true := ho.mpr hpos
  unfold putFile
  simp only [hop, Bool.not_true, Bool.false_eq_true, if_false]
  rw [if_neg (by omega)]
  have key : ∀ y : FSt, y.refs = x.refs - 1 → (y.isOpen = true ↔ 0 < y.refs) →
      Inv n op q (fs.set io.file y) := by
    intro y hy hyo
    refine ⟨by rw [List.length_set]; exact h.len, fun j hj => h.inq j (by simp [hj]), ?_⟩
    intro i z hz
    rw [List.getElem?_set] at hz
    split at hz
    · rename_i e
      subst e
      try rw [if_pos hlt] at hz
      simp only [Option.some.injEq] at hz
      subst hz
      exact ⟨by omega, hyo⟩
    · rename_i e
      obtain ⟨h1, h2⟩ := h.st i z hz
      rw [infl_cons, if_neg e] at h1
      exact ⟨h1, h2⟩
  split
  · rename_i h1
    exact ⟨_, rfl, key _ (by simp; omega) (by simp)⟩
  · rename_i h1
    exact ⟨_, rfl, key _ rfl (by simp; omega)⟩

theorem fileOf_nat {fs : List FSt} {f : Nat} (h : f < fs.length) :
    fileOf fs (f : Nat) = some (f, fs[f]) := by
  unfold fileOf
  rw [if_neg (by omega)]
  simp [List.getElem?_eq_getElem h]

theorem set_inv {n : Nat} {op op' : Nat → Bool} {q q' : List Io} {fs : List FSt} {f : Nat} {y : FSt}
    (h : Inv n op q fs) (hq : ∀ io ∈ q', io.file < n)
    (hop : ∀ i, i ≠ f → op' i = op i) (hin : ∀ i, i ≠ f → infl q' i = infl q i)
    (hr : y.refs = (if op' f then 1 else 0) + infl q' f) (ho : y.isOpen = true ↔ 0 < y.refs) :
    Inv n op' q' (fs.set f y) := by
  refine ⟨by rw [List.length_set]; exact h.len, hq, ?_⟩
  intro i z hz
  rw [List.getElem?_set] at hz
  split at hz
  · rename_i e
    subst e
    split at hz
    · simp only [Option.some.injEq] at hz
      subst hz
      exact ⟨hr, ho⟩
    · cases hz
  · rename_i e
    obtain ⟨h1, h2⟩ := h.st i z hz
    rw [hop i (fun c => e c.symm), hin i (fun c => e c.symm)]
    exact ⟨h1, h2⟩

/-- Taking the piece of an I/O of an open file. -/
theorem take_io {n f : Nat} {op : Nat → Bool} {q : List Io} {fs : List FSt} {o : Opts} {d : Ddir}
    {off len dl : Nat} (h : Inv n op q fs) (hf : f < n) (hop : op f = true) :
    ∃ fs', getOut o fs (.io d f off len dl) = some (fs', some ⟨d, f, off, len⟩) ∧
      Inv n op (q ++ [⟨d, f, off, len⟩]) fs' := by
  have hlt : f < fs.length := by rw [h.len]; exact hf
  obtain ⟨hr, ho⟩ := h.st f _ (List.getElem?_eq_getElem hlt)
  rw [hop, if_pos rfl] at hr
  have hopen : fs[f].isOpen = true := ho.mpr (by omega)
  refine ⟨fs.set f { fs[f] with refs := fs[f].refs + 1 }, ?_, ?_⟩
  · simp only [getOut]
    rw [fileOf_nat hlt]
    simp only [getFile, hopen, if_true, Option.map_some]
  · apply set_inv h
    · intro io hio
      rw [List.mem_append] at hio
      rcases hio with hio | hio
      · exact h.inq io hio
      · simp at hio; subst hio; exact hf
    · intro i _; rfl
    · intro i hi
      rw [infl_append, if_neg (fun c => hi c.symm)]; rfl
    · rw [infl_append, if_pos rfl, hop, if_pos rfl]
      simp only; omega
    · simp [hopen]

/-- Taking the piece of a close. -/
theorem take_close {n f : Nat} {op : Nat → Bool} {q : List Io} {fs : List FSt} {o : Opts}
    (h : Inv n op q fs) (hf : f < n) (hop : op f = true) :
    ∃ fs', getOut o fs (.special f .close) = some (fs', none) ∧
      Inv n (fun g => if g = f then false else op g) q fs' := by
  have hlt : f < fs.length := by rw [h.len]; exact hf
  obtain ⟨hr, ho⟩ := h.st f _ (List.getElem?_eq_getElem hlt)
  rw [hop, if_pos rfl] at hr
  have hopen : fs[f].isOpen = true := ho.mpr (by omega)
  have key : ∀ y : FSt, y.refs = fs[f].refs - 1 → (y.isOpen = true ↔ 0 < y.refs) →
      Inv n (fun g => if g = f then false else op g) q (fs.set f y) := by
    intro y hy hyo
    apply set_inv h h.inq
    · intro i hi; simp [hi]
    · intro i _; rfl
    · simp; omega
    · exact hyo
  have he : closeFile fs[f] = some (if fs[f].refs = 1
      then { isOpen := false, closing := false, refs := 0 }
      else { fs[f] with closing := true, refs := fs[f].refs - 1 }) := by
    unfold closeFile putFile
    simp only [hopen, Bool.not_true, Bool.false_eq_true, if_false]
    rw [if_neg (by omega)]
    split <;> rfl
  refine ⟨_, ?_, key (if fs[f].refs = 1
      then { isOpen := false, closing := false, refs := 0 }
      else { fs[f] with closing := true, refs := fs[f].refs - 1 }) ?_ ?_⟩
  · simp only [getOut, special]
    rw [fileOf_nat hlt]
    simp only [he, Option.map_some]
  · split
    · rename_i h1; simp [h1]
    · rfl
  · split
    · simp
    · rename_i h1
      simp [hopen]; omega

/-- Taking the piece of an open, when nothing is in flight on the file. -/
theorem take_open {n f : Nat} {op : Nat → Bool} {q : List Io} {fs : List FSt} {o : Opts}
    (h : Inv n op q fs) (hf : f < n) (hop : op f = false) (hz : infl q f = 0) :
    ∃ fs', getOut o fs (.special f .open) = some (fs', none) ∧
      Inv n (fun g => if g = f then true else op g) q fs' := by
  have hlt : f < fs.length := by rw [h.len]; exact hf
  obtain ⟨hr, ho⟩ := h.st f _ (List.getElem?_eq_getElem hlt)
  rw [hop, hz] at hr
  have hopen : fs[f].isOpen = false := by
    cases hb : fs[f].isOpen with
    | false => rfl
    | true => have := ho.mp hb; simp at hr; omega
  refine ⟨_, ?_, set_inv (f := f) (y := { isOpen := true, closing := false, refs := 1 }) h h.inq
    (fun i hi => by simp [hi]) (fun i _ => rfl) (by simp [hz]) (by simp)⟩
  simp only [getOut, special]
  rw [fileOf_nat hlt]
  simp only [hopen, Bool.false_eq_true, and_false, if_false, openFile, Option.map_some]

theorem take_add {n f : Nat} {op : Nat → Bool} {q : List Io} {fs : List FSt} {o : Opts}
    (h : Inv n op q fs) (hf : f < n) : getOut o fs (.special f .add) = some (fs, none) := by
  have hlt : f < fs.length := by rw [h.len]; exact hf
  simp only [getOut, special]
  rw [fileOf_nat hlt]
  rfl

/-- An entry names a file of the job. -/
def InRange (n : Nat) (es : List Ev) : Prop := ∀ e ∈ es, evFile e < n

/-- The run with any schedule: no file is opened while I/O on it is in flight
because no file is opened twice. -/
theorem replayOut_once (o : Opts) (n : Nat) :
    ∀ (w : List Bool) (es : List Ev) (before : Nat) (op : Nat → Bool) (q : List Io) (fs : List FSt),
      InRange n es → Spec.History op es → (Spec.opens es).Nodup →
      (∀ f ∈ Spec.opens es, infl q f = 0 ∧ op f = false) → Inv n op q fs →
      ∃ r, replayOut o w fs (Spec.pieces o (fun f => (f : Nat)) before es) q = some r ∧
        r <+: Spec.ios o es ∧
        ((Spec.pieces o (fun f => (f : Nat)) before es).length ≤ w.count true →
          r = Spec.ios o es) := by
  intro w
  induction w with
  | nil =>
    intro es before op q fs hr hh hnd ho hi
    refine ⟨[], rfl, List.nil_prefix, ?_⟩
    intro hc
    simp at hc
    clear hr hh hnd ho hi
    induction es generalizing before with
    | nil => rfl
    | cons e es ih =>
      cases e with
      | file t f a => simp [Spec.pieces] at hc
      | io t f d off len =>
        simp only [Spec.pieces, Spec.ios] at hc ⊢
        split at hc
        · simp at hc
        · rename_i hk
          rw [if_neg hk]
          exact ih t hc
  | cons b w ih =>
    intro es before op q fs hr hh hnd ho hi
    cases b with
    | false =>
      cases q with
      | nil =>
        obtain ⟨r, h1, h2, h3⟩ := ih es before op [] fs hr hh hnd ho hi
        exact ⟨r, by simpa only [replayOut] using h1, h2, by simpa using h3⟩
      | cons io q =>
        obtain ⟨fs', hc, hi'⟩ := complete_ok hi
        obtain ⟨r, h1, h2, h3⟩ := ih es before op q fs' hr hh hnd
          (fun f hf => by
            have := ho f hf
            rw [infl_cons] at this
            exact ⟨by omega, this.2⟩) hi'
        refine ⟨r, ?_, h2, by simpa using h3⟩
        simp only [replayOut, hc]
        exact h1
    | true =>
      -- entries that leave no piece are skipped
      induction es generalizing before with
      | nil =>
        obtain ⟨r, h1, h2, h3⟩ := ih [] before op q fs hr hh hnd ho hi
        exact ⟨r, by simpa only [replayOut, Spec.pieces] using h1, h2,
          fun _ => h3 (by simp [Spec.pieces])⟩
      | cons e es ihe =>
        have hr' : InRange n es := fun x hx => hr x (by simp [hx])
        have hfn : evFile e < n := hr e (by simp)
        cases e with
        | file t f a =>
          simp only [evFile] at hfn
          have finish : ∀ (op' : Nat → Bool) (fs' : List FSt),
              getOut o fs (.special (f : Nat) a) = some (fs', none) → Spec.History op' es →
              (Spec.opens es).Nodup → (∀ f ∈ Spec.opens es, infl q f = 0 ∧ op' f = false) →
              Inv n op' q fs' →
              ∃ r, replayOut o (true :: w) fs
                  (Spec.pieces o (fun f => (f : Nat)) before (.file t f a :: es)) q = some r ∧
                r <+: Spec.ios o (.file t f a :: es) ∧
                ((Spec.pieces o (fun f => (f : Nat)) before (.file t f a :: es)).length
                  ≤ (true :: w).count true → r = Spec.ios o (.file t f a :: es)) := by
            intro op' fs' hg hh' hnd' ho' hi'
            obtain ⟨r, h1, h2, h3⟩ := ih es t op' q fs' hr' hh' hnd' ho' hi'
            refine ⟨r, ?_, h2, ?_⟩
            · simp only [Spec.pieces, replayOut, hg]
              exact h1
            · intro hc
              apply h3
              simpa [Spec.pieces] using hc
          cases a with
          | add =>
            exact finish op fs (take_add hi hfn) (by simpa [Spec.History] using hh)
              (by simpa [Spec.opens] using hnd) (by simpa [Spec.opens] using ho) hi
          | «open» =>
            simp only [Spec.History] at hh
            simp only [Spec.opens, List.nodup_cons] at hnd
            have hof := ho f (by simp [Spec.opens])
            obtain ⟨fs', hg, hi'⟩ := take_open (o := o) hi hfn hh.1 hof.1
            refine finish _ fs' hg hh.2 hnd.2 ?_ hi'
            intro g hg'
            have := ho g (by simp [Spec.opens, hg'])
            refine ⟨this.1, ?_⟩
            have hne : g ≠ f := fun c => hnd.1 (c ▸ hg')
            simp [hne, this.2]
          | close =>
            simp only [Spec.History] at hh
            simp only [Spec.opens] at hnd
            obtain ⟨fs', hg, hi'⟩ := take_close (o := o) hi hfn hh.1
            refine finish _ fs' hg hh.2 hnd ?_ hi'
            intro g hg'
            have := ho g (by simp [Spec.opens, hg'])
            refine ⟨this.1, ?_⟩
            show (if g = f then false else op g) = false
            split
            · rfl
            · exact this.2
        | io t f d off len =>
          simp only [evFile] at hfn
          simp only [Spec.History] at hh
          by_cases hk : Spec.Kept o d = true
          · obtain ⟨fs', hg, hi'⟩ := take_io (o := o) (d := d) (off := Spec.place o off) (len := len)
              (dl := Spec.pause o before t) hi hfn hh.1
            obtain ⟨r, h1, h2, h3⟩ := ih es t op _ fs' hr' hh.2 (by simpa [Spec.opens] using hnd)
              (by
                intro g hg'
                have := ho g (by simp [Spec.opens, hg'])
                refine ⟨?_, this.2⟩
                rw [infl_append, if_neg]
                · omega
                · intro c
                  simp only at c
                  rw [← c, hh.1] at this
                  exact absurd this.2 (by decide)) hi'
            refine ⟨⟨d, f, Spec.place o off, len⟩ :: r, ?_, ?_, ?_⟩
            · simp only [Spec.pieces, if_pos hk, replayOut, hg, h1, Option.map_some]
            · simp only [Spec.ios, if_pos hk]
              exact (List.cons_prefix_cons).mpr ⟨rfl, h2⟩
            · intro hc
              simp only [Spec.pieces, if_pos hk, List.length_cons, List.count_cons_self] at hc
              simp only [Spec.ios, if_pos hk]
              rw [h3 (by omega)]
          · obtain ⟨r, h1, h2, h3⟩ := ihe t hr' hh.2 (by simpa [Spec.opens] using hnd)
              (fun g hg' => ho g (by simpa [Spec.opens] using hg'))
            refine ⟨r, ?_, ?_, ?_⟩
            · simpa only [Spec.pieces, if_neg hk] using h1
            · simpa only [Spec.ios, if_neg hk] using h2
            · simpa only [Spec.pieces, Spec.ios, if_neg hk] using h3

/-- One by one: nothing is in flight when a piece is taken. -/
theorem replayOut_sync (o : Opts) (n : Nat) :
    ∀ (es : List Ev) (k before : Nat) (op : Nat → Bool) (fs : List FSt),
      InRange n es → Spec.History op es → Inv n op [] fs →
      (Spec.pieces o (fun f => (f : Nat)) before es).length ≤ k →
      replayOut o (Spec.oneByOne k) fs (Spec.pieces o (fun f => (f : Nat)) before es) []
        = some (Spec.ios o es) := by
  intro es
  induction es with
  | nil =>
    intro k before op fs _ _ _ _
    induction k with
    | zero => rfl
    | succ k ih => simpa only [Spec.oneByOne, Spec.pieces, replayOut] using ih (by simp [Spec.pieces])
  | cons e es ih =>
    intro k before op fs hr hh hi hk
    have hr' : InRange n es := fun x hx => hr x (by simp [hx])
    have hfn : evFile e < n := hr e (by simp)
    cases e with
    | file t f a =>
      simp only [evFile] at hfn
      cases k with
      | zero => simp [Spec.pieces] at hk
      | succ k =>
        have hk' : (Spec.pieces o (fun f => (f : Nat)) t es).length ≤ k := by
          simpa [Spec.pieces] using hk
        have finish : ∀ (op' : Nat → Bool) (fs' : List FSt),
            getOut o fs (.special (f : Nat) a) = some (fs', none) → Spec.History op' es →
            Inv n op' [] fs' →
            replayOut o (Spec.oneByOne (k + 1)) fs
              (Spec.pieces o (fun f => (f : Nat)) before (.file t f a :: es)) []
              = some (Spec.ios o (.file t f a :: es)) := by
          intro op' fs' hg hh' hi'
          simp only [Spec.oneByOne, Spec.pieces, replayOut, hg]
          exact ih k t op' fs' hr' hh' hi' hk'
        cases a with
        | add => exact finish op fs (take_add hi hfn) (by simpa [Spec.History] using hh) hi
        | «open» =>
          simp only [Spec.History] at hh
          obtain ⟨fs', hg, hi'⟩ := take_open (o := o) hi hfn hh.1 (by simp [infl])
          exact finish _ fs' hg hh.2 hi'
        | close =>
          simp only [Spec.History] at hh
          obtain ⟨fs', hg, hi'⟩ := take_close (o := o) hi hfn hh.1
          exact finish _ fs' hg hh.2 hi'
    | io t f d off len =>
      simp only [evFile] at hfn
      simp only [Spec.History] at hh
      by_cases hkp : Spec.Kept o d = true
      · cases k with
        | zero => simp [Spec.pieces, if_pos hkp] at hk
        | succ k =>
          have hk' : (Spec.pieces o (fun f => (f : Nat)) t es).length ≤ k := by
            simpa [Spec.pieces, if_pos hkp] using hk
          obtain ⟨fs', hg, hi'⟩ := take_io (o := o) (d := d) (off := Spec.place o off) (len := len)
              (dl := Spec.pause o before t) hi hfn hh.1
          obtain ⟨fs'', hc, hi''⟩ := complete_ok (q := []) hi'
          simp only [Spec.oneByOne, Spec.pieces, if_pos hkp, replayOut, hg, List.nil_append, hc,
            Spec.ios]
          rw [ih k t op fs'' hr' hh.2 hi'' hk']
          rfl
      · simp only [Spec.pieces, if_neg hkp, Spec.ios] at hk ⊢
        exact ih k t op fs hr' hh.2 hi hk

end Fio.Replay
