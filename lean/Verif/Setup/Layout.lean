import Verif.Setup.Props

/-! C70: laying out a file; examples and counterexamples for C68, C69, C70. -/

namespace Fio.Setup

theorem writeLoop_ok {fill : Bool} : ∀ (ws : List (Bool × Wr)) (left bs pos : Nat),
    Legal (writeLoop fill left bs pos ws).2.2 ws →
    (writeLoop fill left bs pos ws).2.1 ≤ pos + left ∧
    ((∀ (i : Nat) (t : Bool) (r : Wr), ws[i]? = some (t, r) → t = false ∧ ¬ (fill = true ∧ r = .noSpace)) →
      (writeLoop fill left bs pos ws).1 = .ok → (writeLoop fill left bs pos ws).2.1 = pos + left)
  | ws, 0, bs, pos, _ => by unfold writeLoop; simp
  | [], left + 1, bs, pos, _ => by unfold writeLoop; simp
  | (term, wr) :: r, left + 1, bs, pos, h => by
    unfold writeLoop at h ⊢
    cases term with
    | true =>
      rw [if_pos rfl] at h ⊢
      refine ⟨by simp, fun hc _ => ?_⟩
      have := (hc 0 true wr rfl).1
      cases this
    | false =>
      rw [if_neg (by simp)] at h ⊢
      dsimp only at h ⊢
      generalize hbs : (if bs > left + 1 then left + 1 else bs) = b at h ⊢
      have hb : b ≤ left + 1 := by rw [← hbs]; split <;> omega
      cases wr with
      | wrote k =>
        dsimp only at h ⊢
        by_cases hk : k > 0
        · rw [if_pos hk] at h ⊢
          dsimp only at h ⊢
          have hle : k ≤ b := h 0 b false k rfl rfl
          have ih := writeLoop_ok (fill := fill) r (left + 1 - k) b (pos + k) (by
            intro i b' t k' h1 h2
            exact h (i + 1) b' t k' (by simpa using h1) (by simpa using h2))
          refine ⟨by omega, fun hc he => ?_⟩
          rw [ih.2 (fun i t r' h1 => hc (i + 1) t r' (by simpa using h1)) he]
          omega
        · rw [if_neg hk]
          simp
      | noSpace =>
        dsimp only
        split
        · rename_i hf
          refine ⟨by simp, fun hc _ => ?_⟩
          exact absurd ⟨hf, rfl⟩ (hc 0 false .noSpace rfl).2
        · simp
      | fail => dsimp only; simp

/-- **C70** A file laid out successfully, without having been terminated, has exactly the size asked for, and all of it
was written; at no time does it get larger.  (With `fill_device` it gets as large as it can.) -/
theorem C70_layout {o : Opts} {maxBs real : Nat} {trunc efbig : Bool} {ws : List (Bool × Wr)}
    (hf : o.fillDevice = false)
    (hl : Legal (writeLoop o.fillDevice real (if maxBs > real then real else maxBs) 0 ws).2.2 ws) :
    (layout o maxBs real trunc efbig ws).2.1 ≤ real ∧
    ((∀ (i : Nat) (t : Bool) (r : Wr), ws[i]? = some (t, r) → t = false) →
      (layout o maxBs real trunc efbig ws).1 = .ok →
      (layout o maxBs real trunc efbig ws).2.1 = real ∧ (layout o maxBs real trunc efbig ws).2.2 = real) := by
  have h := writeLoop_ok ws real (if maxBs > real then real else maxBs) 0 hl
  unfold layout
  simp only [hf, Bool.false_eq_true, if_false, true_and] at h ⊢
  generalize writeLoop false real (if maxBs > real then real else maxBs) 0 ws = q at *
  have hs : (if trunc = true then real else 0) ≤ real := by split <;> omega
  split
  · refine ⟨by simp, fun _ h => by cases h⟩
  · dsimp only
    refine ⟨by omega, fun hc he => ?_⟩
    have := h.2 (fun i t r h => ⟨hc i t r h, by simp⟩) he
    omega

/-- **C70** Laying out ends: there are at most as many calls of `write` as the file has bytes, and each of them asks
for at least one byte and not more than what is missing. -/
theorem C70_ends {fill : Bool} : ∀ (ws : List (Bool × Wr)) (left bs pos : Nat), 0 < bs →
    (writeLoop fill left bs pos ws).2.2.length ≤ left ∧
    (left ≤ ws.length → (writeLoop fill left bs pos ws).1 ≠ .more) ∧
    ∀ b ∈ (writeLoop fill left bs pos ws).2.2, 0 < b ∧ b ≤ left ∧ b ≤ bs
  | ws, 0, bs, pos, _ => by unfold writeLoop; simp
  | [], left + 1, bs, pos, _ => by unfold writeLoop; simp
  | (term, wr) :: r, left + 1, bs, pos, h => by
    unfold writeLoop
    cases term with
    | true => rw [if_pos rfl]; simp
    | false =>
      rw [if_neg (by simp)]
      dsimp only
      generalize hbs : (if bs > left + 1 then left + 1 else bs) = b
      have hb : 0 < b ∧ b ≤ left + 1 ∧ b ≤ bs := by rw [← hbs]; split <;> omega
      cases wr with
      | wrote k =>
        dsimp only
        by_cases hk : k > 0
        · rw [if_pos hk]
          dsimp only
          obtain ⟨h1, h2, h3⟩ := C70_ends (fill := fill) r (left + 1 - k) b (pos + k) hb.1
          refine ⟨by simp only [List.length_cons]; omega, fun hl => h2 (by simp only [List.length_cons] at hl; omega), ?_⟩
          intro x hx
          rcases List.mem_cons.1 hx with rfl | hx
          · exact hb
          · have := h3 x hx; omega
        · rw [if_neg hk]
          refine ⟨by simp, by simp, ?_⟩
          intro x hx
          rw [List.mem_singleton] at hx
          rw [hx]; exact hb
      | noSpace =>
        dsimp only
        split
        · refine ⟨by simp, by simp, ?_⟩
          intro x hx
          rw [List.mem_singleton] at hx
          rw [hx]; exact hb
        · refine ⟨by simp, by simp, ?_⟩
          intro x hx
          rw [List.mem_singleton] at hx
          rw [hx]; exact hb
      | fail =>
        refine ⟨by simp, by simp, ?_⟩
        intro x hx
        dsimp only at hx
        rw [List.mem_singleton] at hx
        rw [hx]; exact hb

/-- **C70** If `write` always writes something, the file gets laid out. -/
theorem C70_succeeds {fill : Bool} : ∀ (ws : List (Bool × Wr)) (left bs pos : Nat),
    (∀ x ∈ ws, ∃ k, 0 < k ∧ x = (false, .wrote k)) → left ≤ ws.length → (writeLoop fill left bs pos ws).1 = .ok
  | ws, 0, bs, pos, _, _ => by unfold writeLoop; rfl
  | [], left + 1, bs, pos, _, h => by simp at h
  | x :: r, left + 1, bs, pos, h, hl => by
    obtain ⟨k, hk, rfl⟩ := h x (List.mem_cons_self ..)
    unfold writeLoop
    rw [if_neg (by simp)]
    dsimp only
    rw [if_pos hk]
    exact C70_succeeds r _ _ _ (fun x hx => h x (List.mem_cons_of_mem _ hx))
      (by simp only [List.length_cons] at hl; omega)

/-- A layout: 10 bytes in blocks of 4, with a short write. -/
example : writeLoop false 10 4 0 [(false, .wrote 4), (false, .wrote 1), (false, .wrote 4), (false, .wrote 1)]
    = (.ok, 10, [4, 4, 4, 1]) := by decide
example : Legal [4, 4, 4, 1] [(false, .wrote 4), (false, .wrote 1), (false, .wrote 4), (false, .wrote 1)] := by
  intro i b t k h1 h2
  match i with
  | 0 => simp at h1 h2; omega
  | 1 => simp at h1 h2; omega
  | 2 => simp at h1 h2; omega
  | 3 => simp at h1 h2; omega
  | i + 4 => simp at h1

/-- Options for the examples: block size 4096. -/
def exOpts : Opts :=
  { size := 0, fileLow := 0, fileHigh := 0, minBs := 4096, rwMinBs := 4096, sizePct := 0, ioSizePct := 0, ioSize := 0,
    loops := 1, startOffset := 0, startPct := 0, inc := 0, incPct := 0, align := none, subjob := 0, append := false,
    diskless := false, fakeio := false, noio := false, fillDevice := false, createOnOpen := false, use64 := false }

/-- `size=1m`, three files, one of them there. -/
example : setupFiles { exOpts with size := 1048576 } [⟨true, 0, 0⟩, ⟨true, 400000, 0⟩, ⟨true, 0, 0⟩] =
    .ok { files := [⟨0, 349525, 349525, true, some 349525⟩, ⟨0, 349525, 400000, false, some 349525⟩,
                    ⟨0, 349525, 349525, true, some 349525⟩], size := 1048575, totalIo := 1048575 } := by
  decide +kernel

theorem tame_ex {o : Opts} {f : File} (h0 : o.fileLow = 0) (h1 : o.size < 2 ^ 55) (h2 : 0 < o.minBs ∧ o.minBs < 2 ^ 54)
    (h3 : 0 < o.rwMinBs) (h4 : f.real < 2 ^ 55) (h5 : o.fileHigh = 0) (h6 : f.rnd = 0)
    (h7 : o.sizePct ≤ 100 ∧ o.startPct ≤ 100 ∧ o.incPct ≤ 100) (h8 : wantOffset o f.real < 2 ^ 54)
    (h9 : o.align = none) (h10 : o.incPct = 0 ∨ o.inc = 0) : Tame o f where
  size := h1
  bs := by omega
  rwbs := h3
  real := h4
  high := by omega
  low := by omega
  rnd := by rw [h6]; exact Nat.pow_pos (by omega)
  pct := h7
  off := h8
  align := by unfold wantAlign; rw [h9]; exact h2
  inc := h10
  inside := fun _ _ h => absurd h0 h

/-- The hypotheses of `C68_regions_partial` and `C68_sum_partial` are met by this. -/
example : ∀ f ∈ [(⟨true, 0, 0⟩ : File), ⟨true, 400000, 0⟩, ⟨true, 0, 0⟩], Tame { exOpts with size := 1048576 } f := by
  intro f hf
  simp only [List.mem_cons, List.not_mem_nil, or_false] at hf
  rcases hf with rfl | rfl | rfl <;> (refine tame_ex ?_ ?_ ?_ ?_ ?_ ?_ ?_ ?_ ?_ ?_ ?_ <;> decide)

/-- Four clones with `size=25%`, `offset_increment=25%` of 10001 blocks: the third of them. -/
example : setupFiles ({ exOpts with sizePct := 25, incPct := 25 }.clone 2) [⟨false, 40964096, 0⟩] =
    .ok { files := [⟨20484096, 10240000, 40964096, false, some 10240000⟩], size := 10240000, totalIo := 10240000 } := by
  decide +kernel

/-- The hypotheses of `C69_clones_percent_partial` are met by this. -/
example (k : Nat) (hk : k < 4) : ∀ f ∈ [(⟨false, 40964096, 0⟩ : File)],
    Tame ({ exOpts with sizePct := 25, incPct := 25 }.clone k) f := by
  intro f hf
  simp only [List.mem_cons, List.not_mem_nil, or_false] at hf
  subst hf
  match k with
  | 0 | 1 | 2 | 3 => refine tame_ex ?_ ?_ ?_ ?_ ?_ ?_ ?_ ?_ ?_ ?_ ?_ <;> decide
  | k + 4 => omega

/-- A range of sizes: `filesize=10000-20000`, offset 4096; the hypotheses are met. -/
example : Tame { exOpts with fileLow := 10000, fileHigh := 20000, startOffset := 4096 } ⟨true, 0, 2147483648⟩ where
  size := by decide
  bs := by decide
  rwbs := by decide
  real := by decide
  high := by decide
  low := by decide
  rnd := by decide
  pct := by decide
  off := by decide
  align := by decide
  inc := by decide
  inside := by
    intro y hy _
    have h : y = 4096 := hy.2.2 (by decide) (by unfold ByPercent; decide)
    subst h
    decide

example : setupFiles { exOpts with fileLow := 10000, fileHigh := 20000, startOffset := 4096 } [⟨true, 0, 2147483648⟩]
    = .ok { files := [⟨4096, 8192, 12288, true, some 8192⟩], size := 8192, totalIo := 8192 } := by decide +kernel

/-- **C68** is false if the file exists, has the size given, and the offset is beyond its end (`filesize=1m offset=2m`):
the size of the region wraps around, instead of an error. -/
theorem C68_offset_counterexample : setupFiles
    { exOpts with fileLow := 1048576, fileHigh := 1048576, startOffset := 2097152 } [⟨true, 1048576, 0⟩] =
    .ok { files := [⟨2097152, 18446744073708503040, 1048576, false, some 18446744073708503040⟩],
          size := 18446744073708503040, totalIo := 18446744073708503040 } := by decide +kernel

/-- **C68** is false for a range of sizes and an offset in the last block before the smallest
(`filesize=10000-20000 offset=9000`): the random size is rounded down to a block, and may be less than the offset. -/
theorem C68_range_counterexample : setupFiles
    { exOpts with fileLow := 10000, fileHigh := 20000, startOffset := 9000 } [⟨true, 0, 429496730⟩] =
    .ok { files := [⟨9000, 18446744073709550808, 8192, true, some 18446744073709550808⟩],
          size := 18446744073709550808, totalIo := 18446744073709550808 } := by decide +kernel

/-- **C68** is false with `fill_device` (size is -1 then, init.c:863) and an offset: the file is laid out up to one byte
before the offset. -/
theorem C68_fill_counterexample : setupFiles
    { exOpts with size := unknown, fillDevice := true, startOffset := 1048576 } [⟨true, 0, 0⟩] =
    .ok { files := [⟨1048576, unknown, 1048575, true, none⟩], size := unknown, totalIo := unknown } := by decide +kernel

/-- **C68** is false if the size of one file is not known and there is another: the total is that of the others less
one byte. -/
theorem C68_unknown_counterexample : setupFiles exOpts [⟨false, unknown, 0⟩, ⟨false, 1048576, 0⟩] =
    .ok { files := [⟨0, unknown, unknown, false, none⟩, ⟨0, 1048576, 1048576, false, some 1048576⟩], size := 1048575,
          totalIo := 1048575 } := by decide +kernel

/-- **C68** is false with `offset_align=0` and an offset in percent: a division by zero. -/
theorem C68_align_counterexample :
    setupFiles { exOpts with size := 4096, startPct := 10, align := some 0 } [⟨true, 0, 0⟩] = .crash := by decide +kernel

/-- **C68** The comment at filesetup.c:1256-1259 does not hold: the size left over is a remainder modulo the number of
files, not blocks, so with `size=1m nrfiles=3` blocks of 4096 bytes 255 of 256 blocks fit into the files; and with
`size=8k nrfiles=3` none does. -/
theorem C68_blocks_counterexample :
    (∃ d, setupFiles { exOpts with size := 1048576 } [⟨true, 0, 0⟩, ⟨true, 0, 0⟩, ⟨true, 0, 0⟩] = .ok d ∧
      (d.files.map (fun g => g.io / 4096)).sum = 255 ∧ 1048576 / 4096 = 256) ∧
    (∃ d, setupFiles { exOpts with size := 8192 } [⟨true, 0, 0⟩, ⟨true, 0, 0⟩, ⟨true, 0, 0⟩] = .ok d ∧
      ∀ g ∈ d.files, g.io < 4096) :=
  ⟨⟨_, rfl, by decide +kernel⟩, ⟨_, rfl, by decide +kernel⟩⟩

/-- **C69** is false with `offset_align`: with `size=25% offset_increment=25% offset_align=1m` on a device of 6 MiB the
second and the third clone both have the bytes from 3 MiB to 3.5 MiB. -/
theorem C69_align_counterexample : ∃ d e g1 g2,
    setupFiles ({ exOpts with sizePct := 25, incPct := 25, align := some 1048576 }.clone 1) [⟨false, 6291456, 0⟩] = .ok d ∧
    setupFiles ({ exOpts with sizePct := 25, incPct := 25, align := some 1048576 }.clone 2) [⟨false, 6291456, 0⟩] = .ok e ∧
    d.files = [g1] ∧ e.files = [g2] ∧ g1.region 3145728 ∧ g2.region 3145728 :=
  ⟨_, _, _, _, rfl, rfl, rfl, rfl, ⟨by decide +kernel, by decide +kernel⟩, ⟨by decide +kernel, by decide +kernel⟩⟩

/-- **C68** The last setting counts if it is a percentage, or if none of those before is. -/
theorem C68_setting_partial (l : List Setting) (s : Setting)
    (h : (∃ p, s = .pct p) ∨ ∀ x ∈ l, ∃ v, x = .bytes v) :
    (l ++ [s]).foldl setSize (0, 0) = meaning s := by
  rw [List.foldl_append]
  cases s with
  | pct p => rfl
  | bytes v =>
    have hl : ∀ x ∈ l, ∃ v, x = Setting.bytes v := by
      rcases h with ⟨p, h⟩ | h
      · cases h
      · exact h
    have key : ∀ (l : List Setting) (q : Nat × Nat), q.2 = 0 → (∀ x ∈ l, ∃ v, x = Setting.bytes v) →
        (l.foldl setSize q).2 = 0 := by
      intro l
      induction l with
      | nil => intro q hq _; exact hq
      | cons x r ih =>
        intro q hq hx
        obtain ⟨v, rfl⟩ := hx x (List.mem_cons_self ..)
        exact ih _ hq (fun y hy => hx y (List.mem_cons_of_mem _ hy))
    show (v, (l.foldl setSize (0, 0)).2) = (v, 0)
    rw [key l _ rfl hl]

example : (∃ p, Setting.pct 50 = .pct p) ∨ ∀ x ∈ [Setting.bytes 4096], ∃ v, x = .bytes v := Or.inl ⟨_, rfl⟩

/-- **C68** is false if a percentage is followed by a size (`size=50%` in `[global]`, `size=1m` in the job): the job gets
half of what it asks for. -/
theorem C68_setting_counterexample :
    [Setting.pct 50, .bytes 1048576].foldl setSize (0, 0) = (1048576, 50) ∧
    (∃ d, setupFiles { exOpts with size := 1048576, sizePct := 50 } [⟨true, 0, 0⟩] = .ok d ∧ d.size = 524288) :=
  ⟨rfl, _, rfl, by decide +kernel⟩

end Fio.Setup
