import Verif.Dedupe.Lemmas

namespace Fio.Dedupe

open Rand Spec

/-- Seed number `k` of a generator in the state `s`. -/
def seedAt (s : FRand) (k : Nat) : Nat := (nextSeed (skip k s)).1

theorem nextSeed_lt (s : FRand) : (nextSeed s).1 < 2 ^ 64 := Nat.mod_lt _ (by decide)

theorem skip_add (a b : Nat) : ∀ s : FRand, skip (a + b) s = skip b (skip a s) := by
  induction a with
  | zero => intro s; rw [Nat.zero_add]; rfl
  | succ a ih => intro s; rw [Nat.succ_add, skip, ih, skip]

theorem seedAt_skip (s : FRand) (a k : Nat) : seedAt (skip a s) k = seedAt s (a + k) := by
  unfold seedAt; rw [skip_add]

theorem bufByte_skip (nb perc : Nat) (pattern : List Byte) (s : FRand) (a w n pos j : Nat) :
    bufByte nb perc pattern (seedAt (skip a s)) w n pos j =
      bufByte nb perc pattern (seedAt s) w n (a + pos) j := by
  unfold bufByte; rw [seedAt_skip, Nat.add_assoc]

theorem buffer_skip (nb perc : Nat) (pattern : List Byte) (s : FRand) (a w n pos : Nat) :
    buffer nb perc pattern (seedAt (skip a s)) w n pos = buffer nb perc pattern (seedAt s) w n (a + pos) := by
  unfold buffer
  apply List.map_congr_left
  intro j _
  exact bufByte_skip ..

theorem buffer_length (nb perc : Nat) (pattern : List Byte) (S : Nat → Nat) (w n pos : Nat) :
    (buffer nb perc pattern S w n pos).length = n := by simp [buffer]

theorem pieces_step {w n : Nat} (hw : 0 < w) (h : w < n) : pieces w n = 1 + pieces w (n - w) := by
  unfold pieces
  rw [show n + w - 1 = (n - w + w - 1) + w by omega, Nat.add_div_right _ hw]; omega

theorem pieces_last {w n : Nat} (h : n ≤ w) (hn : 0 < n) : pieces w n = 1 := by
  unfold pieces
  rw [show n + w - 1 = (n - 1) + w by omega, Nat.add_div_right _ (by omega), Nat.div_eq_of_lt (by omega)]

theorem buffer_last (nb perc : Nat) (pattern : List Byte) (S : Nat → Nat) {w n : Nat} (pos : Nat) (h : n ≤ w)
    (b : List Byte) (hl : b.length = n) (hb : ∀ i < n, b[i]? = some (pieceByte nb perc pattern n (S pos) i)) :
    b = buffer nb perc pattern S w n pos := by
  apply List.ext_getElem?
  intro j
  by_cases hj : j < n
  · rw [hb j hj]
    unfold buffer
    rw [List.getElem?_map, List.getElem?_range hj]
    unfold bufByte
    simp only [Option.map_some, Nat.div_eq_of_lt (show j < w by omega), Nat.mod_eq_of_lt (show j < w by omega),
      Nat.zero_mul, Nat.sub_zero, Nat.add_zero, Nat.min_eq_right h]
  · rw [List.getElem?_eq_none (by omega), List.getElem?_eq_none (by rw [buffer_length]; omega)]

theorem buffer_step (nb perc : Nat) (pattern : List Byte) (S : Nat → Nat) {w n : Nat} (pos : Nat) (hw : 0 < w)
    (h : w < n) (b : List Byte) (hl : b.length = w)
    (hb : ∀ i < w, b[i]? = some (pieceByte nb perc pattern w (S pos) i)) :
    b ++ buffer nb perc pattern S w (n - w) (pos + 1) = buffer nb perc pattern S w n pos := by
  apply List.ext_getElem?
  intro j
  by_cases hj : j < w
  · rw [List.getElem?_append_left (by omega), hb j hj]
    unfold buffer
    rw [List.getElem?_map, List.getElem?_range (by omega)]
    unfold bufByte
    simp only [Option.map_some, Nat.div_eq_of_lt hj, Nat.mod_eq_of_lt hj,
      Nat.zero_mul, Nat.sub_zero, Nat.add_zero, Nat.min_eq_left (Nat.le_of_lt h)]
  · rw [List.getElem?_append_right (by omega), hl]
    by_cases hn : j < n
    · unfold buffer
      rw [List.getElem?_map, List.getElem?_range (by omega), List.getElem?_map, List.getElem?_range hn]
      unfold bufByte
      have e1 : j / w = (j - w) / w + 1 := by
        conv_lhs => rw [show j = j - w + w by omega]
        rw [Nat.add_div_right _ hw]
      have e2 : j % w = (j - w) % w := by
        conv_lhs => rw [show j = j - w + w by omega]
        rw [Nat.add_mod_right]
      simp only [Option.map_some]
      rw [e1, e2, show n - ((j - w) / w + 1) * w = n - w - (j - w) / w * w by rw [Nat.add_mul]; omega,
        show pos + 1 + (j - w) / w = pos + ((j - w) / w + 1) by omega]
    · rw [List.getElem?_eq_none (by rw [buffer_length]; omega),
        List.getElem?_eq_none (by rw [buffer_length]; omega)]

/-- Options of a real job: the number of buckets is in range and the percentages are percentages. -/
def Ok (c : Cfg) : Prop := 0 < c.nb ∧ c.nb ≤ 16 ∧ c.compress ≤ 100

theorem minNotZero_eq {m chunk : Nat} (h : 0 < m) : minNotZero m chunk = pieceSize m chunk := by
  unfold minNotZero pieceSize; split
  · omega
  · rfl

/-- The state after a buffer was made. -/
def after (s : St) (w : Which) (x : FRand) : St :=
  match w with
  | .buf => { s with buf := x, prev := x }
  | .ret => { s with ret := x }

theorem after_get (s : St) (w : Which) (x : FRand) : (after s w x).get w = x := by cases w <;> rfl
theorem after_after (s : St) (w : Which) (x y : FRand) : after (after s w x) w y = after s w y := by
  cases w <;> rfl

theorem save_eq {c : Cfg} (h : c.dedupe ≠ 100) (s : St) (w : Which) (x : FRand) :
    saveBufState c (s.set w x) w = after s w x := by
  unfold saveBufState
  rw [if_neg h]
  cases w <;> rfl

theorem wrap_sub {a b : Nat} (h : b ≤ a) (ha : a < 2 ^ 32) : (a + (2 ^ 64 - b)) % 2 ^ 64 = a - b := by
  omega

theorem chunkLoop_eq {c : Cfg} (hc : Ok c) (hd : c.dedupe ≠ 100) (w : Which) {w0 : Nat} (hw : 0 < w0) :
    ∀ (fuel m left : Nat) (s : St), 0 < left → left ≤ fuel → left < 2 ^ 32 → 0 < m →
      (∀ x ≤ left, min (pieceSize m c.chunk) x = min w0 x) →
      chunkLoop c w fuel m left s = some (after s w (skip (pieces w0 left) (s.get w)),
        buffer c.nb c.compress c.pattern (seedAt (s.get w)) w0 left 0) := by
  intro fuel
  induction fuel with
  | zero => intro m left s h1 h2; omega
  | succ fuel ih =>
    intro m left s h1 h2 h3 h4 h5
    rw [chunkLoop]
    dsimp only
    have hm : 0 < min m left := by omega
    have hp : pieceSize (min m left) c.chunk = min w0 left := by
      have := h5 left (Nat.le_refl _)
      rw [← this]
      unfold pieceSize; split <;> omega
    rw [minNotZero_eq hm, hp]
    obtain ⟨b, e, hl, hb⟩ := fillPercent_some c.nb (nextSeed (s.get w)).1 c.compress (min w0 left) c.pattern
      hc.1 hc.2.1 (nextSeed_lt _) hc.2.2 (by omega)
    rw [e]
    dsimp only
    rw [save_eq hd]
    by_cases hlast : left ≤ w0
    · have e2 : min w0 left = left := by omega
      rw [e2, wrap_sub (Nat.le_refl _) h3, if_pos (Nat.sub_self _)]
      rw [pieces_last hlast h1]
      rw [e2] at hl hb
      congr 2
      exact buffer_last _ _ _ _ 0 hlast b hl hb
    · have e2 : min w0 left = w0 := by omega
      rw [e2, wrap_sub (show w0 ≤ left by omega) h3, if_neg (show ¬ left - w0 = 0 by omega)]
      rw [ih (min m left) (left - w0) (after s w (nextSeed (s.get w)).2) (show 0 < left - w0 by omega)
        (show left - w0 ≤ fuel by omega) (show left - w0 < 2 ^ 32 by omega) hm (by
        intro x _
        rw [hp, e2])]
      rw [e2] at hl hb
      rw [Option.map_some, after_get, after_after, pieces_step hw (show w0 < left by omega), Nat.add_comm 1, skip]
      congr 2
      rw [show (nextSeed (s.get w)).2 = skip 1 (s.get w) from rfl, buffer_skip]
      exact buffer_step _ _ _ _ 0 hw (show w0 < left by omega) b hl hb

theorem pieceSize_pos {m chunk : Nat} (h : 0 < m) : 0 < pieceSize m chunk := by
  unfold pieceSize; split <;> omega

theorem pieceSize_hyp {m chunk left : Nat} : ∀ x ≤ left, min (pieceSize m chunk) x = min (pieceSize m chunk) x :=
  fun _ _ => rfl

theorem draw_iff {p r : Nat} (hr : r < 2 ^ 32) : draw100 r ≤ p ↔ repeats p r := by
  unfold draw100 scaleInt32 repeats
  rw [round53_small (by omega)]
  dsimp only
  rw [if_pos (by omega), Option.getD_some]
  omega

/-- The state chosen for one buffer and what remains. -/
theorem fillIo_eq {c : Cfg} (hc : Ok c) (hon : c.compress ≠ 0 ∨ c.dedupe ≠ 0) (hd : c.dedupe ≠ 100)
    {minBs n : Nat} (hm : 0 < minBs) (hn : 0 < n) (hn2 : n < 2 ^ 32) (s : St) (r i : Nat) {s1 : St} {w : Which}
    (hg : getBufState c s r i = some (s1, w)) :
    fillIo c minBs n s r i = some (after s1 w (skip (pieces (pieceSize minBs c.chunk) n) (s1.get w)),
      buffer c.nb c.compress c.pattern (seedAt (s1.get w)) (pieceSize minBs c.chunk) n 0) := by
  unfold fillIo
  rw [if_pos hon, hg, Option.bind_some]
  exact chunkLoop_eq hc hd w (pieceSize_pos hm) n minBs n s1 hn (Nat.le_refl _) hn2 hm pieceSize_hyp

/-- What a page is, and what the working set must hold for it. -/
def PageOk (c : Cfg) (bufs : List FRand) (page : Option (Nat → Nat × Nat)) (ws : List FRand) (i : Nat) : Prop :=
  match page with
  | none => c.workSet = false
  | some f => c.workSet = true ∧ ∃ b, bufs[(f i).1]? = some b ∧ ws[i]? = some (skip (f i).2 b)

/-- Seed `k` of the job `t`. -/
def jobSeed (bufs : List FRand) (t k : Nat) : Nat :=
  match bufs[t]? with
  | some b => seedAt b k
  | none => 0

theorem fills_eq {c : Cfg} (hc : Ok c) (hon : c.compress ≠ 0 ∨ c.dedupe ≠ 0) (hd : c.dedupe < 100)
    {minBs : Nat} (hm : 0 < minBs) (bufs : List FRand) (page : Option (Nat → Nat × Nat)) {t : Nat} {b : FRand}
    (hb : bufs[t]? = some b) :
    ∀ (l : List (Nat × Nat × Nat)) (s : St) (u : Nat), s.buf = skip u b → s.prev = skip u b →
      (∀ x ∈ l, 0 < x.1 ∧ x.1 < 2 ^ 32 ∧ x.2.1 < 2 ^ 32 ∧ PageOk c bufs page s.ws x.2.2) →
      fills c minBs s l = some (List.zipWith (fun x q =>
          buffer c.nb c.compress c.pattern (jobSeed bufs q.1) (pieceSize minBs c.chunk) x.1 q.2) l
        (sources c.dedupe page (pieceSize minBs c.chunk) t u l)) := by
  intro l
  induction l with
  | nil => intro s u _ _ _; rfl
  | cons x l ih =>
    intro s u h1 h2 hl
    obtain ⟨n, r, i⟩ := x
    obtain ⟨hn, hn2, hr, hp⟩ := hl (n, r, i) (by simp)
    dsimp only at hn hn2 hr hp
    have hl' := fun x hx => hl x (List.mem_cons_of_mem _ hx)
    rw [fills, sources]
    have hfun : ∀ t b, bufs[t]? = some b → jobSeed bufs t = seedAt b := by
      intro t b h; funext k; unfold jobSeed; rw [h]
    by_cases hrep : repeats c.dedupe r
    · have hdr : draw100 r ≤ c.dedupe := (draw_iff hr).2 hrep
      have hd0 : c.dedupe ≠ 0 := by
        intro h; rw [h] at hrep; unfold repeats at hrep; omega
      rw [if_pos hrep]
      cases page with
      | none =>
        have hws : c.workSet = false := hp
        have hg : getBufState c s r i = some ({ s with ret := s.prev }, .ret) := by
          unfold getBufState
          rw [if_neg hd0, if_neg (by omega), if_pos hdr, hws]; simp
        rw [fillIo_eq hc hon (by omega) hm hn hn2 s r i hg, Option.bind_some]
        dsimp only
        have hih := fun x => ih (after { s with ret := s.prev } .ret x) u h1 h2 hl'
        rw [hih]
        rw [Option.map_some, List.zipWith_cons_cons]
        congr 2
        dsimp only
        rw [show repeated none t u i = (t, u) from rfl, hfun t b hb, show ({ s with ret := s.prev } : St).get .ret = skip u b from h2, buffer_skip]; rfl
      | some f =>
        obtain ⟨hws, b', hb', hi⟩ := hp
        have hg : getBufState c s r i = some ({ s with ret := skip (f i).2 b' }, .ret) := by
          unfold getBufState
          rw [if_neg hd0, if_neg (by omega), if_pos hdr, hws, if_pos rfl, hi]
        rw [fillIo_eq hc hon (by omega) hm hn hn2 s r i hg, Option.bind_some]
        dsimp only
        have hih := fun x => ih (after { s with ret := skip (f i).2 b' } .ret x) u h1 h2 hl'
        rw [hih]
        rw [Option.map_some, List.zipWith_cons_cons]
        congr 2
        dsimp only
        rw [show repeated (some f) t u i = f i from rfl, hfun _ b' hb', show ({ s with ret := skip (f i).2 b' } : St).get .ret = skip (f i).2 b' from rfl,
          buffer_skip]; rfl
    · rw [if_neg hrep]
      have hg : getBufState c s r i = some (s, .buf) := by
        unfold getBufState
        rw [if_neg (show ¬ c.dedupe = 100 by omega), if_neg (show ¬ draw100 r ≤ c.dedupe by
          rw [draw_iff hr]; exact hrep)]
        simp
      rw [fillIo_eq hc hon (by omega) hm hn hn2 s r i hg, Option.bind_some]
      dsimp only
      rw [ih (after s .buf _) (u + pieces (pieceSize minBs c.chunk) n)
        (by rw [skip_add, ← h1]; rfl) (by rw [skip_add, ← h1]; rfl) hl']
      rw [Option.map_some, List.zipWith_cons_cons]
      congr 2
      dsimp only
      rw [hfun t b hb, show s.get .buf = skip u b from h1, buffer_skip]; rfl

/-- C78: with compression and dedupe_mode=repeat, each buffer has the compressible part asked for in each
piece, and a repeated buffer has the content of the next one that is not repeated. -/
theorem C78_repeat {c : Cfg} (hc : Ok c) (hon : c.compress ≠ 0 ∨ c.dedupe ≠ 0) (hd : c.dedupe < 100)
    (hws : c.workSet = false) {minBs : Nat} (hm : 0 < minBs) (s : St) (hp : s.prev = s.buf)
    (l : List (Nat × Nat × Nat)) (hl : ∀ x ∈ l, 0 < x.1 ∧ x.1 < 2 ^ 32 ∧ x.2.1 < 2 ^ 32) :
    fills c minBs s l = some (List.zipWith (fun x q =>
        buffer c.nb c.compress c.pattern (seedAt s.buf) (pieceSize minBs c.chunk) x.1 q.2) l
      (sources c.dedupe none (pieceSize minBs c.chunk) 0 0 l)) := by
  rw [fills_eq hc hon hd hm [s.buf] none (t := 0) (b := s.buf) rfl l s 0 rfl hp
    (fun x hx => ⟨(hl x hx).1, (hl x hx).2.1, (hl x hx).2.2, hws⟩)]
  have key : ∀ (l : List (Nat × Nat × Nat)) (u : Nat),
      List.zipWith (fun x q => buffer c.nb c.compress c.pattern (jobSeed [s.buf] q.1)
          (pieceSize minBs c.chunk) x.1 q.2) l (sources c.dedupe none (pieceSize minBs c.chunk) 0 u l) =
      List.zipWith (fun x q => buffer c.nb c.compress c.pattern (seedAt s.buf) (pieceSize minBs c.chunk) x.1 q.2)
        l (sources c.dedupe none (pieceSize minBs c.chunk) 0 u l) := by
    intro l
    induction l with
    | nil => intro u; rfl
    | cons x l ih =>
      intro u
      obtain ⟨n, r, i⟩ := x
      rw [sources]
      split
      · rw [List.zipWith_cons_cons, List.zipWith_cons_cons, ih]; rfl
      · rw [List.zipWith_cons_cons, List.zipWith_cons_cons, ih]; rfl
  rw [key l 0]

end Fio.Dedupe
