import Verif.Setup.Lemmas

/-! C68: regions of files; C69: clones of a job; C70: laying out a file. -/

namespace Fio.Setup

/-- What setup_files consists of when it succeeds. -/
theorem setup_loop {o : Opts} {fs : List File} {d : Done} (h : setupFiles o fs = .ok d) :
    ∃ gs t, loop o (perFile o fs.length).1 (perFile o fs.length).2 0 fs = .ok (gs, t) ∧ d.files = gs.map extended ∧
      d.size = (if o.size = 0 ∨ (t ≠ 0 ∧ o.size > t) then t else o.size) ∧ ¬ d.size < o.minBs ∧
      d.totalIo = (if o.ioSize ≠ 0 then w (o.ioSize * o.loops) else w (d.size * o.loops)) := by
  unfold setupFiles at h
  split at h
  · cases h
  · split at h
    · cases h
    · split at h
      · cases h
      · cases h
      · rename_i gs t hl
        dsimp only at h
        generalize hz : (if o.size = 0 ∨ (t ≠ 0 ∧ o.size > t) then t else o.size) = z at h
        by_cases hs : z < o.minBs
        · rw [if_pos hs] at h; cases h
        · rw [if_neg hs] at h
          injection h with h
          subst h
          exact ⟨gs, t, hl, rfl, hz.symm, hs, rfl⟩

/-- Each file of the result is that of the loop. -/
theorem setup_file {o : Opts} {fs : List File} {gs : List Out} {t : Nat}
    (hl : loop o (perFile o fs.length).1 (perFile o fs.length).2 0 fs = .ok (gs, t)) {i : Nat} {f : File} {g : Out}
    (hf : fs[i]? = some f) (hg : gs[i]? = some g) :
    fileSetup o (if o.fileLow = 0 then o.size / fs.length else 0)
      (decide (o.fileLow = 0 ∧ i < o.size % fs.length / o.minBs)) f = .ok g := by
  have hn : fs.length ≠ 0 := by
    intro h; rw [List.length_eq_zero_iff] at h; subst h; simp at hf
  rw [perFile_eq hn] at hl
  have h := (loop_get hl).2 i f g hf hg
  rw [← h]
  congr 1
  apply decide_eq_decide.2
  by_cases h0 : o.fileLow = 0
  · simp [h0]
  · simp [h0]

/-- **C68** If setup_files succeeds, each file has the region the options ask for: the offset, the share of `size=`,
the size of the file, the percentage; and a regular file is extended so that the region lies inside, not more.
Partial: sizes that do not wrap around, the offset inside a file of given size (`Tame`). -/
theorem C68_regions_partial {o : Opts} {fs : List File} {d : Done} (ht : ∀ f ∈ fs, Tame o f)
    (h : setupFiles o fs = .ok d) :
    d.files.length = fs.length ∧ ∀ i f g, fs[i]? = some f → d.files[i]? = some g →
      ∃ b, WantOffset o f g.off ∧ WantBase o fs.length i f g.off b ∧ WantSize o g.off b g.io ∧
        (f.regular = true → o.diskless = false → g.real = max f.real (g.off + g.io)) ∧
        (f.regular = false → g.real = f.real) := by
  obtain ⟨gs, t, hl, hd, _⟩ := setup_loop h
  rw [hd]
  refine ⟨by rw [List.length_map]; exact (loop_get hl).1, ?_⟩
  intro i f g hf hg
  rw [List.getElem?_map] at hg
  obtain ⟨g', hg', rfl⟩ := Option.map_eq_some_iff.1 hg
  obtain ⟨b, h1, h2, h3, _, _, _, ho, hi, h4, h5⟩ := fileSetup_ok (ht f (List.mem_of_getElem? hf)) (setup_file hl hf hg')
  rw [ho, hi]
  exact ⟨b, h1, h2, h3, h4, h5⟩

/-- **C68** The region of a regular file lies inside the file. -/
theorem C68_inside_partial {o : Opts} {fs : List File} {d : Done} (ht : ∀ f ∈ fs, Tame o f)
    (h : setupFiles o fs = .ok d) {i : Nat} {f : File} {g : Out} (hf : fs[i]? = some f) (hg : d.files[i]? = some g)
    (hr : f.regular = true) (hd : o.diskless = false) : g.off + g.io ≤ g.real ∧ f.real ≤ g.real := by
  obtain ⟨b, _, _, _, h4, _⟩ := (C68_regions_partial ht h).2 i f g hf hg
  rw [h4 hr hd]; omega

/-- total_size is the sum of the parts. -/
theorem loop_total {o : Opts} {sz : Nat} {p : Nat → Nat} : ∀ {fs : List File} {e t : Nat} {gs : List Out} {t' : Nat},
    loop o sz e t fs = .ok (gs, t') → (∀ (i : Nat) (g : Out), gs[i]? = some g → g.part = some g.io) →
    t + (gs.map (·.io)).sum < 18446744073709551616 → t' = t + (gs.map (·.io)).sum
  | [], e, t, gs, t', h, _, _ => by
    simp only [loop, Res.ok.injEq, Prod.mk.injEq] at h
    obtain ⟨rfl, rfl⟩ := h
    simp
  | f :: r, e, t, gs, t', h, hp, hs => by
    unfold loop at h
    split at h
    · cases h
    · cases h
    · rename_i g hg
      dsimp only at h
      split at h
      · cases h
      · cases h
      · rename_i gs' t2 hrec
        injection h with h
        obtain ⟨rfl, rfl⟩ := Prod.mk.inj h
        have hg0 := hp 0 g rfl
        rw [hg0] at hrec
        dsimp only at hrec
        simp only [List.map_cons, List.sum_cons] at hs ⊢
        rw [w_small (by omega)] at hrec
        rw [loop_total (p := p) hrec (fun i g' h => hp (i + 1) g' h) (by omega)]
        omega

theorem share_sum {q k b : Nat} : ∀ n, ((List.range n).map (fun i => q + if i < k then b else 0)).sum
    = n * q + min n k * b
  | 0 => by simp
  | n + 1 => by
    rw [List.range_succ, List.map_append, List.sum_append, share_sum n]
    simp only [List.map_cons, List.map_nil, List.sum_cons, List.sum_nil]
    by_cases h : n < k
    · rw [if_pos h, Nat.min_eq_left (by omega), Nat.min_eq_left (by omega), Nat.add_mul, Nat.add_mul]; omega
    · rw [if_neg h, Nat.min_eq_right (by omega), Nat.min_eq_right (by omega), Nat.add_mul]; omega

/-- The shares add up. -/
theorem shares_sum (o : Opts) {n : Nat} (hn : 0 < n) (hb : 0 < o.minBs) :
    ((List.range n).map (share o n)).sum ≤ o.size ∧ o.size < ((List.range n).map (share o n)).sum + o.minBs := by
  have h : ((List.range n).map (share o n)).sum = n * (o.size / n) + min n (o.size % n / o.minBs) * o.minBs :=
    share_sum n
  rw [h]
  have h1 := Nat.div_add_mod o.size n
  have h2 := Nat.mod_lt o.size hn
  have h3 : o.size % n / o.minBs ≤ o.size % n := Nat.div_le_self _ _
  rw [Nat.min_eq_right (by omega)]
  have h4 := Nat.div_add_mod (o.size % n) o.minBs
  have h5 := Nat.mod_lt (o.size % n) hb
  rw [Nat.mul_comm (o.size % n / o.minBs)]
  generalize o.minBs * (o.size % n / o.minBs) = z at *
  generalize n * (o.size / n) = y at *
  omega

theorem list_ext_range {α β : Type} {l : List α} {F : α → β} {G : Nat → β} {n : Nat} (hl : l.length = n)
    (h : ∀ i x, l[i]? = some x → F x = G i) : l.map F = (List.range n).map G := by
  apply List.ext_getElem?
  intro i
  rw [List.getElem?_map, List.getElem?_map]
  by_cases hi : i < n
  · rw [List.getElem?_range hi]
    have hx : l[i]? = some (l[i]'(by omega)) := List.getElem?_eq_getElem (by omega)
    rw [hx]
    simp only [Option.map_some]
    rw [h i _ hx]
  · rw [List.getElem?_eq_none (by omega), List.getElem?_eq_none (by simp; omega)]
    rfl

/-- **C68** With `size=` and no `filesize=` the files together get what was asked for, but for less than a block, and
this is what the job counts as its size; the amount of I/O is this, or `io_size=`, times the number of loops. -/
theorem C68_sum_partial {o : Opts} {fs : List File} {d : Done} (ht : ∀ f ∈ fs, Tame o f)
    (h : setupFiles o fs = .ok d) (hf0 : o.fileLow = 0) (hp : o.sizePct = 0 ∨ o.sizePct = 100)
    (hi : o.ioSizePct = 0 ∨ o.ioSizePct = 100) (hn : fs ≠ []) (hs : fs.length ≤ o.size) :
    (d.files.map (·.io)).sum ≤ o.size ∧ o.size < (d.files.map (·.io)).sum + o.minBs ∧
    d.size = (d.files.map (·.io)).sum ∧
    d.totalIo = w ((if o.ioSize ≠ 0 then o.ioSize else d.size) * o.loops) := by
  obtain ⟨gs, t, hl, hd, hsz, hge, htot⟩ := setup_loop h
  have hlen := (loop_get hl).1
  have hpos : 0 < fs.length := List.length_pos_iff.2 hn
  have hq : 0 < o.size / fs.length := Nat.div_pos hs hpos
  have hall : ∀ i g, gs[i]? = some g → g.io = share o fs.length i ∧ g.part = some g.io ∧ (extended g).io = g.io := by
    intro i g hg
    have hi' : i < gs.length := by
      rcases Nat.lt_or_ge i gs.length with h | h
      · exact h
      · rw [List.getElem?_eq_none h] at hg; cases hg
    have hf : fs[i]? = some (fs[i]'(by omega)) := List.getElem?_eq_getElem (by omega)
    obtain ⟨b, _, h2, h3, _, _, h6, _, h7, _⟩ := fileSetup_ok (ht _ (List.mem_of_getElem? hf)) (setup_file hl hf hg)
    unfold WantBase at h2
    rw [if_pos hf0, if_neg (by unfold share; omega)] at h2
    unfold WantSize at h3
    rw [if_neg (by omega)] at h3
    refine ⟨by rw [h3, h2], ?_, h7⟩
    rw [h6]; unfold totalPart; rw [if_neg (by omega)]
  have hio : gs.map (·.io) = (List.range fs.length).map (share o fs.length) :=
    list_ext_range hlen (fun i g hg => (hall i g hg).1)
  have hio2 : d.files.map (·.io) = gs.map (·.io) := by
    rw [hd, List.map_map]
    apply List.map_congr_left
    intro g hg
    obtain ⟨i, hi⟩ := List.mem_iff_getElem?.1 hg
    exact (hall i g hi).2.2
  have hf : fs[0]? = some (fs[0]'hpos) := List.getElem?_eq_getElem hpos
  have ht0 := ht _ (List.mem_of_getElem? hf)
  have hb := ht0.bs
  have hss := ht0.size
  have hsum := shares_sum o hpos hb.1
  rw [hio2, hio]
  have hT := loop_total (p := fun _ => 0) hl (fun i g hg => (hall i g hg).2.1) (by rw [hio]; omega)
  rw [hio] at hT
  have hone : 0 < ((List.range fs.length).map (share o fs.length)).sum := by
    have : ((List.range fs.length).map (share o fs.length)).sum
        = fs.length * (o.size / fs.length) + min fs.length (o.size % fs.length / o.minBs) * o.minBs := share_sum _
    rw [this]
    have := Nat.mul_pos hpos hq
    omega
  refine ⟨hsum.1, hsum.2, ?_, ?_⟩
  · rw [hsz, hT]; split <;> omega
  · rw [htot]; split <;> rfl

/-- The loop succeeds if each file does. -/
theorem loop_some {o : Opts} {sz : Nat} : ∀ {fs : List File} {e t : Nat},
    (∀ i f, fs[i]? = some f → ∃ g, fileSetup o sz (decide (if o.fileLow = 0 then i < e else e ≠ 0)) f = .ok g) →
    ∃ gs t', loop o sz e t fs = .ok (gs, t')
  | [], e, t, _ => ⟨_, _, rfl⟩
  | f :: r, e, t, h => by
    obtain ⟨g, hg⟩ := h 0 f rfl
    have he : decide (if o.fileLow = 0 then 0 < e else e ≠ 0) = decide (e ≠ 0) := by
      apply decide_eq_decide.2; split <;> omega
    rw [he] at hg
    have hrec : ∀ t, ∃ gs t', loop o sz (if o.fileLow = 0 then e - 1 else e) t r = .ok (gs, t') := by
      intro t
      apply loop_some
      intro i f' hf
      obtain ⟨g', hg'⟩ := h (i + 1) f' (by simpa using hf)
      refine ⟨g', ?_⟩
      rw [← hg']; congr 1
      apply decide_eq_decide.2
      by_cases h0 : o.fileLow = 0
      · simp only [h0, if_true]; omega
      · simp only [h0, if_false]
    unfold loop
    rw [hg]
    dsimp only
    cases g.part with
    | none =>
      obtain ⟨gs, t', h2⟩ := hrec unknown
      dsimp only
      rw [h2]
      exact ⟨_, _, rfl⟩
    | some p =>
      obtain ⟨gs, t', h2⟩ := hrec (w (t + p))
      dsimp only
      rw [h2]
      exact ⟨_, _, rfl⟩

/-- A file is set up if its base size can be computed. -/
theorem fileSetup_some {o : Opts} {f : File} {n i : Nat} (ht : Tame o f)
    (hin : ∀ y, WantOffset o f y → (o.fileLow = 0 → share o n i = 0 → y ≤ f.real) ∧
      (o.fileLow ≠ 0 → ¬ (o.fileLow ≤ f.real ∧ f.real ≤ o.fileHigh) → y ≤ o.fileLow)) :
    ∃ g, fileSetup o (if o.fileLow = 0 then o.size / n else 0) (decide (o.fileLow = 0 ∧ i < o.size % n / o.minBs)) f
      = .ok g := by
  obtain ⟨off, ho, hw, hlt⟩ := startOffset_eq ht
  have hs := ht.size
  have hb := ht.bs
  have hd := Nat.div_le_self o.size n
  have hbase : ∃ b, baseSize o (if o.fileLow = 0 then o.size / n else 0)
      (decide (o.fileLow = 0 ∧ i < o.size % n / o.minBs)) f off = .ok b := by
    unfold baseSize
    by_cases h0 : o.fileLow = 0
    · rw [if_pos h0, if_pos h0]
      have he : (if decide (o.fileLow = 0 ∧ i < o.size % n / o.minBs) = true then w (o.size / n + o.minBs)
          else o.size / n) = share o n i := by
        unfold share
        by_cases hi : i < o.size % n / o.minBs
        · rw [if_pos (by simp [h0, hi]), if_pos hi, w_small (by omega)]
        · rw [if_neg (by simp [h0]; omega), if_neg hi]; omega
      dsimp only
      rw [he]
      split
      · rename_i hz
        rw [if_neg (by have := (hin off hw).1 h0 hz; omega)]
        exact ⟨_, rfl⟩
      · exact ⟨_, rfl⟩
    · rw [if_neg h0]
      split
      · rename_i hr
        rw [if_neg (by have := (hin off hw).2 h0 (by omega); omega)]
        split <;> exact ⟨_, rfl⟩
      · exact ⟨_, rfl⟩
  obtain ⟨b, hb⟩ := hbase
  unfold fileSetup
  rw [ho]
  dsimp only
  rw [hb]
  dsimp only
  repeat' split
  all_goals exact ⟨_, rfl⟩

/-- The loop of setup_files succeeds. -/
theorem setup_loop_some {o : Opts} {fs : List File} (ht : ∀ f ∈ fs, Tame o f) (hn : fs ≠ [])
    (hin : ∀ i f, fs[i]? = some f → ∀ y, WantOffset o f y →
      (o.fileLow = 0 → share o fs.length i = 0 → y ≤ f.real) ∧
      (o.fileLow ≠ 0 → ¬ (o.fileLow ≤ f.real ∧ f.real ≤ o.fileHigh) → y ≤ o.fileLow)) :
    ∃ gs t, loop o (perFile o fs.length).1 (perFile o fs.length).2 0 fs = .ok (gs, t) := by
  rw [perFile_eq (by simpa using hn)]
  apply loop_some
  intro i f hf
  obtain ⟨g, hg⟩ := fileSetup_some (n := fs.length) (i := i) (ht f (List.mem_of_getElem? hf)) (hin i f hf)
  refine ⟨g, ?_⟩
  rw [← hg]; congr 1
  apply decide_eq_decide.2
  by_cases h0 : o.fileLow = 0 <;> simp [h0]

/-- **C68** Files of a given total size of at least one block each are set up. -/
theorem C68_size_accepted_partial {o : Opts} {fs : List File} (ht : ∀ f ∈ fs, Tame o f) (hn : fs ≠ [])
    (hf0 : o.fileLow = 0) (hp : o.sizePct = 0 ∨ o.sizePct = 100) (hi : o.ioSizePct = 0 ∨ o.ioSizePct = 100)
    (hs : fs.length * o.minBs ≤ o.size) : ∃ d, setupFiles o fs = .ok d := by
  have hpos : 0 < fs.length := List.length_pos_iff.2 hn
  have hf : fs[0]? = some (fs[0]'hpos) := List.getElem?_eq_getElem hpos
  have ht0 := ht _ (List.mem_of_getElem? hf)
  have hb := ht0.bs
  have hss := ht0.size
  have hle : fs.length * 1 ≤ fs.length * o.minBs := Nat.mul_le_mul_left _ hb.1
  have hle2 : 1 * o.minBs ≤ fs.length * o.minBs := Nat.mul_le_mul_right _ hpos
  have hq : 0 < o.size / fs.length := Nat.div_pos (by omega) hpos
  obtain ⟨gs, t, hl⟩ := setup_loop_some ht hn (fun i f _ y _ =>
    ⟨fun _ h => by unfold share at h; omega, fun h => absurd hf0 h⟩)
  have hlen := (loop_get hl).1
  have hall : ∀ i g, gs[i]? = some g → g.io = share o fs.length i ∧ g.part = some g.io := by
    intro i g hg
    have hi' : i < gs.length := by
      rcases Nat.lt_or_ge i gs.length with h | h
      · exact h
      · rw [List.getElem?_eq_none h] at hg; cases hg
    have hf : fs[i]? = some (fs[i]'(by omega)) := List.getElem?_eq_getElem (by omega)
    obtain ⟨b, _, h2, h3, _, _, h6, _⟩ := fileSetup_ok (ht _ (List.mem_of_getElem? hf)) (setup_file hl hf hg)
    unfold WantBase at h2
    rw [if_pos hf0, if_neg (by unfold share; omega)] at h2
    unfold WantSize at h3
    rw [if_neg (by omega)] at h3
    refine ⟨by rw [h3, h2], ?_⟩
    rw [h6]; unfold totalPart; rw [if_neg (by omega)]
  have hio : gs.map (·.io) = (List.range fs.length).map (share o fs.length) :=
    list_ext_range hlen (fun i g hg => (hall i g hg).1)
  have hsum := shares_sum o hpos hb.1
  have hT := loop_total (p := fun _ => 0) hl (fun i g hg => (hall i g hg).2) (by rw [hio]; omega)
  rw [hio] at hT
  have hone : o.minBs ≤ ((List.range fs.length).map (share o fs.length)).sum := by
    have : ((List.range fs.length).map (share o fs.length)).sum
        = fs.length * (o.size / fs.length) + min fs.length (o.size % fs.length / o.minBs) * o.minBs := share_sum _
    rw [this]
    have : o.minBs ≤ o.size / fs.length := by
      rw [Nat.le_div_iff_mul_le hpos, Nat.mul_comm]; exact hs
    have := Nat.mul_le_mul hpos this
    omega
  unfold setupFiles
  rw [if_neg (by omega), if_neg (by omega), hl]
  dsimp only
  rw [if_neg (by rw [hT]; split <;> omega)]
  exact ⟨_, rfl⟩

/-- **C68** Without any size given, existing files are used from the offset to their end. -/
theorem C68_existing_partial {o : Opts} {fs : List File} {d : Done} (ht : ∀ f ∈ fs, Tame o f)
    (h : setupFiles o fs = .ok d) (hs : o.size = 0) (hf0 : o.fileLow = 0) (hp : o.sizePct = 0 ∨ o.sizePct = 100)
    {i : Nat} {f : File} {g : Out} (hf : fs[i]? = some f) (hg : d.files[i]? = some g) :
    WantOffset o f g.off ∧ g.off + g.io = f.real := by
  obtain ⟨b, h1, h2, h3, _⟩ := (C68_regions_partial ht h).2 i f g hf hg
  refine ⟨h1, ?_⟩
  unfold WantBase at h2
  rw [if_pos hf0, if_pos (by unfold share; rw [hs]; simp)] at h2
  unfold WantSize at h3
  rw [if_neg (by omega)] at h3
  omega

/-- **C69** Clones of a job whose region is at most the increment do not share a byte. -/
theorem C69_clones_partial {o : Opts} {fs : List File} {j k : Nat} {d e : Done}
    (htj : ∀ f ∈ fs, Tame (o.clone j) f) (htk : ∀ f ∈ fs, Tame (o.clone k) f)
    (hd : setupFiles (o.clone j) fs = .ok d) (he : setupFiles (o.clone k) fs = .ok e)
    (hjk : j < k) (happ : o.append = false) (hb : ¬ ByPercent o)
    {i : Nat} {f : File} {g1 g2 : Out} (hf : fs[i]? = some f) (h1 : d.files[i]? = some g1) (h2 : e.files[i]? = some g2)
    (hio : g1.io ≤ o.inc) (x : Nat) : ¬ (g1.region x ∧ g2.region x) := by
  obtain ⟨_, w1, _⟩ := (C68_regions_partial htj hd).2 i f g1 hf h1
  obtain ⟨_, w2, _⟩ := (C68_regions_partial htk he).2 i f g2 hf h2
  have q1 := w1.2.2 (by simp [Opts.clone, happ]) hb
  have q2 := w2.2.2 (by simp [Opts.clone, happ]) hb
  unfold ByPercent at hb
  have hi : o.incPct = 0 := by omega
  have hst : o.startPct = 0 := by omega
  simp only [wantOffset, wantInc, Opts.clone, hi, hst, ne_eq, not_true, if_false] at q1 q2
  rintro ⟨⟨_, r2⟩, ⟨r3, _⟩⟩
  have := Nat.mul_le_mul_right o.inc (Nat.succ_le_of_lt hjk)
  rw [Nat.succ_mul] at this
  omega

theorem mult_le {a u v : Nat} (hu : a ∣ u) (hv : a ∣ v) (h : u < v + a) : u ≤ v := by
  obtain ⟨p, rfl⟩ := hu
  obtain ⟨q, rfl⟩ := hv
  have : a * p < a * (q + 1) := by rw [Nat.mul_succ]; exact h
  have := Nat.lt_of_mul_lt_mul_left this
  exact Nat.mul_le_mul_left _ (by omega)

/-- **C69** The same with percentages, for a file that is there: `size=` not more than `offset_increment=`, no
`offset_align`. -/
theorem C69_clones_percent_partial {o : Opts} {fs : List File} {j k : Nat} {d e : Done}
    (htj : ∀ f ∈ fs, Tame (o.clone j) f) (htk : ∀ f ∈ fs, Tame (o.clone k) f)
    (hd : setupFiles (o.clone j) fs = .ok d) (he : setupFiles (o.clone k) fs = .ok e)
    (hjk : j < k) (happ : o.append = false) (hs : o.size = 0) (hf0 : o.fileLow = 0) (hal : o.align = none)
    (hp : 0 < o.sizePct ∧ o.sizePct < 100 ∧ o.sizePct ≤ o.incPct)
    {i : Nat} {f : File} {g1 g2 : Out} (hf : fs[i]? = some f) (h1 : d.files[i]? = some g1) (h2 : e.files[i]? = some g2)
    (x : Nat) : ¬ (g1.region x ∧ g2.region x) := by
  obtain ⟨b, w1, _, z1, _⟩ := (C68_regions_partial htj hd).2 i f g1 hf h1
  obtain ⟨b2, w2, _⟩ := (C68_regions_partial htk he).2 i f g2 hf h2
  obtain ⟨_, _, y1, _⟩ := (C68_regions_partial htj hd).2 i f g1 hf h1
  have hbase : g1.off + b = f.real := by
    obtain ⟨b', _, y1, y2, _⟩ := (C68_regions_partial htj hd).2 i f g1 hf h1
    have : WantBase (o.clone j) fs.length i f g1.off b := by assumption
    unfold WantBase at this
    rw [if_pos (show (o.clone j).fileLow = 0 from hf0), if_pos (by
      simp [share, Opts.clone, hs])] at this
    exact this
  have q1 := w1.2.1 (by simp [Opts.clone, happ]) (Or.inl (show (o.clone j).incPct ≠ 0 by simp [Opts.clone]; omega))
  have q2 := w2.2.1 (by simp [Opts.clone, happ]) (Or.inl (show (o.clone k).incPct ≠ 0 by simp [Opts.clone]; omega))
  unfold WantSize at z1
  rw [if_pos (show (o.clone j).sizePct ≠ 0 ∧ (o.clone j).sizePct ≠ 100 by simp [Opts.clone]; omega), hbase] at z1
  have hinc : o.incPct ≠ 0 := by omega
  simp only [wantOffset, wantInc, wantAlign, Opts.clone, hal, Option.getD_none, hinc, ne_eq, not_false_eq_true,
    if_true] at q1 q2 z1
  have hx : o.sizePct * f.real / 100 ≤ o.incPct * f.real / 100 :=
    Nat.div_le_div_right (Nat.mul_le_mul_right _ hp.2.2)
  have hjk' := Nat.mul_le_mul_right (o.incPct * f.real / 100) (Nat.succ_le_of_lt hjk)
  rw [Nat.succ_mul] at hjk'
  have hm := Nat.min_le_left (o.sizePct * f.real / 100) b
  have key : g1.off + g1.io ≤ g2.off := by
    apply mult_le (Nat.dvd_add q1.1 z1.1) q2.1
    have a1 := q1.2.2
    have a2 := q2.2.1
    have a3 := z1.2.1
    generalize (if ¬ o.startPct = 0 then o.startPct * f.real / 100 else o.startOffset) = s at *
    generalize j * (o.incPct * f.real / 100) = mj at *
    generalize k * (o.incPct * f.real / 100) = mk at *
    generalize o.incPct * f.real / 100 = c at *
    generalize o.sizePct * f.real / 100 = c' at *
    omega
  rintro ⟨⟨_, r2⟩, ⟨r3, _⟩⟩
  omega

end Fio.Setup
