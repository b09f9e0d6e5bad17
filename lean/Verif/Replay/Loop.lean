import Verif.Replay.Steps

/-! Lemmas: reading a whole log, and handing out its pieces. -/
namespace Fio.Replay
open Spec (Out strip GoodOpts)

theorem flatten_length_ge (names : List (List Nat)) (es : List Ev) :
    es.length ≤ ((es.map (logLine names)).flatten).length := by
  induction es with
  | nil => simp
  | cons e es ih =>
    have : 1 ≤ (logLine names e).length := by rw [logLine_eq]; simp
    simp only [List.map_cons, List.flatten_cons, List.length_append, List.length_cons]
    omega

/-- The bssplit words stay as they are when syncs have length 0. -/
def SyncZero (es : List Ev) : Prop :=
  ∀ t f d off len, Ev.io t f d off len ∈ es → d.idx < 3 ∨ len = 0

theorem readLoop_evs {o : Opts} {names : List (List Nat)} {fi : Nat → Int}
    (hv : o.version = 3) (ho : GoodOpts o) (hn : ∀ n ∈ names, Spec.Name n) :
    ∀ (es : List Ev) (s : R) (fuel : Nat), es.length ≤ fuel →
      (∀ e ∈ es, Spec.Entry names.length e) → Good s →
      (∀ f, f < names.length → getFileno s.files (o.redirect.getD (names.getD f [])) = fi f) →
      ∃ s', readLoop o fuel none s (es.map (logLine names)).flatten = some (s', []) ∧
        s'.files = s.files ∧ Good s' ∧
        s'.pieces.map strip = s.pieces.map strip ++ Spec.pieces o fi s.last es ∧
        (SyncZero es → s'.bs.drop 3 = s.bs.drop 3) := by
  intro es
  induction es with
  | nil =>
    intro s fuel _ _ hg _
    refine ⟨s, ?_, rfl, hg, by simp [Spec.pieces], fun _ => rfl⟩
    cases fuel <;> simp [readLoop]
  | cons e es ih =>
    intro s fuel hf he hg hfi
    cases fuel with
    | zero => simp at hf
    | succ fuel =>
      have hE := he e (by simp)
      have hlt : evFile e < names.length := by
        cases e with
        | file t f a => exact hE.2.1
        | io t f d off len => exact hE.2.1
      have hgn : GoodName (names.getD (evFile e) []) := by
        apply spec_name
        apply hn
        rw [List.getD_eq_getElem?_getD, List.getElem?_eq_getElem hlt]
        simp
      have step : ∃ s1, (readLine o s (logLine names e) = .next s1 ∨
          readLine o s (logLine names e) = .queued s1) ∧ s1.files = s.files ∧ Good s1 ∧
          s1.last = evTime e ∧
          s1.pieces.map strip = s.pieces.map strip ++ Spec.pieces o fi s.last [e] ∧
          (SyncZero [e] → s1.bs.drop 3 = s.bs.drop 3) := by
        cases e with
        | file t f a =>
          obtain ⟨s1, h1, h2, h3⟩ := readLine_oc (o := o) (s := s) hv hE.1 hgn hE.2.2 (hfi f hE.2.1)
          exact ⟨s1, Or.inr h1, h2.files, h2.good hg, h2.last, h2.outs, fun _ => by rw [h3]⟩
        | io t f d off len =>
          obtain ⟨s1, h1, h2, h3⟩ := readLine_io (o := o) (s := s) hv ho hE.1 hE.2.2.1 hE.2.2.2.1
            hE.2.2.2.2 hgn (hfi f hE.2.1)
          refine ⟨s1, h1.imp And.left And.left, h2.files, h2.good hg, h2.last, ?_, fun hz => h3 ?_⟩
          · rw [h2.outs]
            simp only [Spec.pieces]
          · exact hz t f d off len (by simp)
      obtain ⟨s1, h1, hfs, hg1, hl1, hp1, hb1⟩ := step
      obtain ⟨s2, h2, hfs2, hg2, hp2, hb2⟩ := ih s1 fuel (by simp at hf; omega)
        (fun x hx => he x (by simp [hx])) hg1 (by rw [hfs]; exact hfi)
      refine ⟨s2, ?_, by rw [hfs2, hfs], hg2, ?_, ?_⟩
      · simp only [List.map_cons, List.flatten_cons]
        rw [readLoop_step hgn h1, h2]
      · rw [hp2, hp1, hl1, List.append_assoc]
        congr 1
        cases e with
        | file t f a => simp [Spec.pieces, evTime]
        | io t f d off len =>
          simp only [Spec.pieces, evTime]
          split <;> simp
      · intro hz
        rw [hb2 (fun t f d off len h => hz t f d off len (by simp [h])),
          hb1 (fun t f d off len h => hz t f d off len (by
            simp at h; subst h; simp))]

theorem getD_name {names : List (List Nat)} {k : Nat} (hk : k < names.length) :
    names.getD k [] ∈ names := by
  rw [List.getD_eq_getElem?_getD, List.getElem?_eq_getElem hk]
  simp

/-- The `add` lines without redirection. -/
theorem readLoop_adds {o : Opts} {names : List (List Nat)} {ts : List Nat} {rest : List Nat}
    (hv : o.version = 3) (hn : ∀ n ∈ names, Spec.Name n) (hts : ∀ t ∈ ts, t < 2 ^ 64)
    (hr : o.redirect = none) (hd : o.dir = []) :
    ∀ (m k : Nat) (s : R) (fuel : Nat), k + m = names.length → Good s →
      s.files = names.take k →
      ∃ s', readLoop o (m + fuel) none s
          ((((List.range' k m).map fun i => Ev.file (ts.getD i 0) i .add).map
            (logLine names)).flatten ++ rest) = readLoop o fuel none s' rest ∧
        s'.files = names ∧ Good s' ∧
        s'.last = (if m = 0 then s.last else ts.getD (names.length - 1) 0) ∧
        s'.pieces.map strip = s.pieces.map strip ++
          (List.range' k m).map (fun i => Out.special (i : Nat) .add) ∧ s'.bs = s.bs := by
  intro m
  induction m with
  | zero =>
    intro k s fuel hk hg hf
    refine ⟨s, by simp, ?_, hg, by simp, by simp, rfl⟩
    rw [hf, List.take_of_length_le (by omega)]
  | succ m ih =>
    intro k s fuel hk hg hf
    have hkl : k < names.length := by omega
    have hgn : GoodName (names.getD k []) := spec_name (hn _ (getD_name hkl))
    have ht : ts.getD k 0 < 2 ^ 64 := by
      rw [List.getD_eq_getElem?_getD]
      cases h : ts[k]? with
      | none => simp
      | some t => exact hts t (List.mem_of_getElem? h)
    obtain ⟨s1, h1, h2, h3, _, _⟩ := readLine_add (o := o) (s := s) (f := k) (names := names) hv ht hgn
      (Or.inl hr)
    have hlen : s.files.length = k := by rw [hf, List.length_take]; omega
    have hf1 : s1.files = names.take (k + 1) := by
      rw [h2.files, hf, hd, hr]
      rw [List.take_add_one, List.getElem?_eq_getElem hkl]
      simp [List.getD_eq_getElem?_getD, hkl]
    obtain ⟨s2, e2, f2, g2, l2, p2, b2⟩ := ih (k + 1) s1 fuel (by omega) (h2.good hg) hf1
    refine ⟨s2, ?_, f2, g2, ?_, ?_, by rw [b2, h3]⟩
    · rw [List.range'_succ]
      simp only [List.map_cons, List.flatten_cons, List.append_assoc]
      have : m + 1 + fuel = (m + fuel) + 1 := by omega
      rw [this, readLoop_step (e := .file (ts.getD k 0) k .add) hgn (Or.inr h1)]
      exact e2
    · rw [l2, h2.last]
      split
      · rw [if_neg (by omega)]
        congr 1; omega
      · rw [if_neg (by omega)]
    · rw [p2, h2.outs, hlen, List.range'_succ]
      simp

/-- The `add` lines with redirection, after the first. -/
theorem readLoop_readds {o : Opts} {names : List (List Nat)} {ts : List Nat} {rest rn : List Nat}
    (hv : o.version = 3) (hn : ∀ n ∈ names, Spec.Name n) (hts : ∀ t ∈ ts, t < 2 ^ 64)
    (hr : o.redirect = some rn) :
    ∀ (m k : Nat) (s : R) (fuel : Nat), k + m = names.length → Good s →
      s.files = [rn] → s.fileno = 0 → s.fact = .add →
      ∃ s', readLoop o (m + fuel) none s
          ((((List.range' k m).map fun i => Ev.file (ts.getD i 0) i .add).map
            (logLine names)).flatten ++ rest) = readLoop o fuel none s' rest ∧
        s'.files = [rn] ∧ Good s' ∧
        s'.last = (if m = 0 then s.last else ts.getD (names.length - 1) 0) ∧
        s'.pieces.map strip = s.pieces.map strip ++
          (List.range' k m).map (fun _ => Out.special 0 .add) ∧ s'.bs = s.bs := by
  intro m
  induction m with
  | zero =>
    intro k s fuel hk hg hf _ _
    exact ⟨s, by simp, hf, hg, by simp, by simp, rfl⟩
  | succ m ih =>
    intro k s fuel hk hg hf hfn hfa
    have hkl : k < names.length := by omega
    have hgn : GoodName (names.getD k []) := spec_name (hn _ (getD_name hkl))
    have ht : ts.getD k 0 < 2 ^ 64 := by
      rw [List.getD_eq_getElem?_getD]
      cases h : ts[k]? with
      | none => simp
      | some t => exact hts t (List.mem_of_getElem? h)
    obtain ⟨s1, h1, h2, h3, h4, h5⟩ := readLine_readd (o := o) (s := s) (f := k) (names := names)
      hv ht hgn (by rw [hr]; rfl) (by rw [hf, hr]; simp [getFileno])
    obtain ⟨s2, e2, f2, g2, l2, p2, b2⟩ := ih (k + 1) s1 fuel (by omega) (h2.good hg)
      (by rw [h2.files, hf]) (by rw [h4, hfn]) (by rw [h5, hfa])
    refine ⟨s2, ?_, f2, g2, ?_, ?_, by rw [b2, h3]⟩
    · rw [List.range'_succ]
      simp only [List.map_cons, List.flatten_cons, List.append_assoc]
      have : m + 1 + fuel = (m + fuel) + 1 := by omega
      rw [this, readLoop_step (e := .file (ts.getD k 0) k .add) hgn (Or.inr h1)]
      exact e2
    · rw [l2, h2.last]
      split
      · rw [if_neg (by omega)]
        congr 1; omega
      · rw [if_neg (by omega)]
    · rw [p2, h2.outs, hfn, hfa, List.range'_succ]
      simp

theorem readVersion_write (l : List Nat) : readVersion (ver3 ++ [10] ++ l) = some (3, l) := by
  have hf : fgets 255 (ver3 ++ [10] ++ l) = (ver3 ++ [10], l) :=
    fgets_line ver3 l 255 (by unfold Body; decide) (by decide)
  unfold readVersion
  simp only [hf]
  have h1 : ver3 ++ [10] ≠ [] := by simp
  have h2 : ¬ ver2 <+: ver3 ++ [10] := by decide
  have h3 : ver3 <+: ver3 ++ [10] := by decide
  rw [if_neg h1, if_neg h2, if_pos h3]

theorem pieces_adds (o : Opts) (fi : Nat → Int) (ts : List Nat) :
    ∀ (l : List Nat) (before : Nat) (es : List Ev),
      Spec.pieces o fi before ((l.map fun i => Ev.file (ts.getD i 0) i .add) ++ es) =
        l.map (fun i => Out.special (fi i) .add) ++
          Spec.pieces o fi ((l.getLast?.map fun i => ts.getD i 0).getD before) es := by
  intro l
  induction l with
  | nil => intro b es; simp
  | cons x l ih =>
    intro b es
    simp only [List.map_cons, List.cons_append, Spec.pieces]
    rw [ih]
    cases l with
    | nil => simp
    | cons y l => simp [List.getLast?_cons]

theorem pieces_version (o : Opts) (v : Nat) (fi : Nat → Int) :
    ∀ (es : List Ev) (before : Nat),
      Spec.pieces { o with version := v } fi before es = Spec.pieces o fi before es := by
  intro es
  induction es with
  | nil => intro _; rfl
  | cons e es ih =>
    intro b
    cases e with
    | file t f a => simp only [Spec.pieces, ih]
    | io t f d off len => simp only [Spec.pieces, ih]; rfl

theorem getLast_range' : ∀ (m k : Nat), (List.range' k (m + 1)).getLast? = some (k + m) := by
  intro m
  induction m with
  | zero => intro k; simp
  | succ m ih =>
    intro k
    rw [List.range'_succ]
    have := ih (k + 1)
    rw [List.range'_succ] at this ⊢
    rw [List.getLast?_cons_cons, this]
    congr 1; omega

theorem pieces_hasIo (o : Opts) (fi : Nat → Int) :
    ∀ (es : List Ev) (before : Nat),
      (∃ x ∈ Spec.pieces o fi before es, (∃ d f off len dl, x = Out.io d f off len dl ∧
        (d = .read ∨ d = .write ∨ d = .trim)) ∨ ∃ n, x = Out.wait n) ↔ Spec.HasIo o es := by
  intro es
  induction es with
  | nil => intro b; simp [Spec.pieces, Spec.HasIo]
  | cons e es ih =>
    intro b
    cases e with
    | file t f a =>
      have := ih t
      constructor
      · rintro ⟨x, hx, h⟩
        simp only [Spec.pieces, List.mem_cons] at hx
        rcases hx with rfl | hx
        · simp at h
        · obtain ⟨t', f', d, off, len, hm, hk, hd⟩ := this.mp ⟨x, hx, h⟩
          exact ⟨t', f', d, off, len, by simp [hm], hk, hd⟩
      · rintro ⟨t', f', d, off, len, hm, hk, hd⟩
        simp at hm
        obtain ⟨x, hx, h⟩ := this.mpr ⟨t', f', d, off, len, hm, hk, hd⟩
        exact ⟨x, by simp [Spec.pieces, hx], h⟩
    | io t f d off len =>
      have := ih t
      constructor
      · rintro ⟨x, hx, h⟩
        simp only [Spec.pieces] at hx
        split at hx
        · rename_i hk
          rw [List.mem_cons] at hx
          rcases hx with rfl | hx
          · rcases h with ⟨d', f', off', len', dl', he, hd⟩ | ⟨n, h⟩
            · simp only [Out.io.injEq] at he
              obtain ⟨rfl, _⟩ := he
              exact ⟨t, f, d, off, len, by simp, hk, hd⟩
            · cases h
          · obtain ⟨t', f', d', off', len', hm, hk, hd⟩ := this.mp ⟨x, hx, h⟩
            exact ⟨t', f', d', off', len', by simp [hm], hk, hd⟩
        · obtain ⟨t', f', d', off', len', hm, hk, hd⟩ := this.mp ⟨x, hx, h⟩
          exact ⟨t', f', d', off', len', by simp [hm], hk, hd⟩
      · rintro ⟨t', f', d', off', len', hm, hk, hd⟩
        rw [List.mem_cons] at hm
        rcases hm with hm | hm
        · simp only [Ev.io.injEq] at hm
          obtain ⟨rfl, rfl, rfl, rfl, rfl⟩ := hm
          refine ⟨_, by simp only [Spec.pieces]; rw [if_pos hk]; exact List.mem_cons_self, ?_⟩
          exact Or.inl ⟨_, _, _, _, _, rfl, hd⟩
        · obtain ⟨x, hx, h⟩ := this.mpr ⟨t', f', d', off', len', hm, hk, hd⟩
          refine ⟨x, ?_, h⟩
          simp only [Spec.pieces]
          split
          · simp [hx]
          · exact hx

theorem hasIo_adds {o : Opts} {names : List (List Nat)} {ts : List Nat} {es : List Ev} :
    Spec.HasIo o (addEvs names ts ++ es) ↔ Spec.HasIo o es := by
  constructor
  · rintro ⟨t, f, d, off, len, hm, hk, hd⟩
    rw [List.mem_append] at hm
    rcases hm with hm | hm
    · simp [addEvs] at hm
    · exact ⟨t, f, d, off, len, hm, hk, hd⟩
  · rintro ⟨t, f, d, off, len, hm, hk, hd⟩
    exact ⟨t, f, d, off, len, by simp [hm], hk, hd⟩

theorem strip_rw (p : Piece) :
    (p.ddir = .read ∨ p.ddir = .write ∨ p.ddir = .trim ∨ p.ddir = .wait) ↔
      ((∃ d f off len dl, strip p = Out.io d f off len dl ∧
        (d = .read ∨ d = .write ∨ d = .trim)) ∨ ∃ n, strip p = Out.wait n) := by
  unfold strip
  cases h : p.ddir <;> simp

theorem accepted_iff {s : R} {o : Opts} {fi : Nat → Int} {b : Nat} {es : List Ev} (hg : Good s)
    (hp : s.pieces.map strip = Spec.pieces o fi b es) :
    ((!(s.reads == 0 && s.writes == 0 && s.waits == 0 && s.trims == 0)) = true) ↔
      Spec.HasIo o es := by
  rw [← pieces_hasIo o fi es b, ← hp]
  have h1 : ((!(s.reads == 0 && s.writes == 0 && s.waits == 0 && s.trims == 0)) = true) ↔
      0 < s.reads + s.writes + s.trims + s.waits := by
    simp; omega
  rw [h1, hg.cnt]
  constructor
  · rintro ⟨p, hm, hd⟩
    exact ⟨strip p, List.mem_map_of_mem hm, (strip_rw p).mp hd⟩
  · rintro ⟨x, hm, hd⟩
    obtain ⟨p, hpm, rfl⟩ := List.mem_map.mp hm
    exact ⟨p, hpm, (strip_rw p).mpr hd⟩

theorem getFileno_nodup {names : List (List Nat)} (hnd : names.Nodup) {f : Nat}
    (hf : f < names.length) : getFileno names (names.getD f []) = (f : Nat) := by
  unfold getFileno
  have hg : names.getD f [] = names[f] := by
    rw [List.getD_eq_getElem?_getD, List.getElem?_eq_getElem hf]; rfl
  rw [hg]
  have : names.findIdx? (fun x => x == names[f]) = some f := by
    rw [List.findIdx?_eq_some_iff_getElem]
    refine ⟨hf, by simp, ?_⟩
    intro j hj hc
    have hc' : names[j] = names[f] := by simpa using hc
    have hjl : j < names.length := by omega
    have := (List.getElem_inj (h₀ := hjl) (h₁ := hf) hnd).mp hc'
    omega
  rw [this]

end Fio.Replay
