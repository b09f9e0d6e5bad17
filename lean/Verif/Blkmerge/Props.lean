import Verif.Blkmerge.Loop
/-
C98: merging several block traces.
-/
namespace Fio.Blkmerge

theorem valsLen_pad : ∀ (l : List Int) (k : Nat), (∀ v ∈ l, v ≠ 0) →
    valsLen (l ++ List.replicate k 0) = l.length
  | [], 0, _ => rfl
  | [], k + 1, _ => by simp [List.replicate_succ, valsLen]
  | v :: l, k, h => by
    rw [List.cons_append, valsLen, if_pos (h v (by simp)), valsLen_pad l k (fun w hw => h w (by simp [hw]))]
    rfl

theorem params_none (n : Nat) (d : Int) : params (optArray []) n d = .inr fun _ => d := by
  have h : valsLen (optArray []) = 0 := valsLen_pad [] 20 (by simp)
  simp [params, h]

theorem params_given (l : List Int) (d : Int) (h : ∀ v ∈ l, v ≠ 0) :
    ∃ f, params (optArray l) l.length d = .inr f ∧ ∀ (k : Nat) (v : Int), l[k]? = some v → f k = v := by
  have hl : valsLen (optArray l) = l.length := valsLen_pad l _ h
  refine ⟨_, by rw [params]; simp only [hl]; rw [if_neg (by simp)], ?_⟩
  intro k v hk
  obtain ⟨hk', hv⟩ := List.getElem?_eq_some_iff.mp hk
  rw [if_pos (by omega), optArray, List.getD_eq_getElem?_getD, List.getElem?_append_left hk', hk]
  rfl

theorem share_sorted {i : Input} (hg : i.Good)
    (h : Sorted ((i.recs.map (·.t)).filter fun t => decide (Wanted t))) : Sorted (share i.pct i.recs) := by
  unfold share Sorted
  rw [List.pairwise_map]
  refine List.Pairwise.imp_of_mem ?_ h
  intro a b ha hb hab
  have hbound : ∀ t ∈ (i.recs.map (·.t)).filter (fun t => decide (Wanted t)), (scaled i.pct t).time.toNat = t.time.toNat * i.pct / 100 := by
    intro t ht
    obtain ⟨r, hr, rfl⟩ := List.mem_map.mp (List.mem_filter.mp ht).1
    have := hg.time r hr
    simp only [scaled, BitVec.toNat_ofNat]
    exact Nat.mod_eq_of_lt (by omega)
  rw [hbound a ha, hbound b hb]
  exact Nat.div_le_div_right (Nat.mul_le_mul_right _ hab)

theorem share_length (i : Input) : (share i.pct i.recs).length ≤ i.recs.length := by
  unfold share
  rw [List.length_map]
  exact Nat.le_trans (List.length_filter_le _ _) (by simp)

theorem sum_le : ∀ l : List Input, ((l.map fun i => share i.pct i.recs).map List.length).sum ≤
    (l.map fun i => i.recs.length).sum
  | [] => by simp
  | i :: l => by
    have := sum_le l
    have := share_length i
    simp only [List.map_cons, List.sum_cons]
    omega

/-- What the options have to be: no scales and 100 per cent, or the scale of each file; and no
iterations or one for each file. -/
structure Asked (c : Cfg) (ins : List Input) : Prop where
  files : c.files = ins.map fun i => .data (fileBytes i.big i.recs)
  scalars : (c.scalars = optArray [] ∧ ∀ i ∈ ins, i.pct = 100) ∨
    (c.scalars = optArray (ins.map fun i => (i.pct : Int)) ∧ ins.length ≤ 20)
  iters : c.iters = optArray [] ∨ (c.iters = optArray (ins.map fun _ => 1) ∧ ins.length ≤ 20)

/-- C98: when every file is read once, has a record to replay, and the memory of the cursors happens
to hold a zero as number of iterations: the merged file has the reads, writes and discards queued in
all files and nothing else, their times scaled, those of a file in the order of that file, in the byte
order of the host whatever that of the files was; it is in the order of time if each file is. The
merge ends, with any number of records.

Not there for the claim as it is meant: several iterations, a file without such a record, and cursors
with anything else in their memory (see the witnesses below). -/
theorem C98_merge_partial (ins : List Input) (hg : ∀ i ∈ ins, i.Good) (c : Cfg) (ha : Asked c ins)
    (hz : ∀ k, (c.garbage k).iter = 0) (fuel : Nat)
    (hfuel : (ins.map fun i => i.recs.length).sum < fuel) :
    ∃ out : List Trace,
      merge fuel c = some (0, some (out.flatMap (recBytes false))) ∧
      Shuffle (ins.map fun i => share i.pct i.recs) out ∧
      ((∀ i ∈ ins, Sorted ((i.recs.map (·.t)).filter fun t => decide (Wanted t))) → Sorted out) := by
  have hn : c.files.length = ins.length := by rw [ha.files]; simp
  obtain ⟨sc, hsc, hscv⟩ : ∃ sc, params c.scalars c.files.length 100 = .inr sc ∧
      ∀ (k : Nat) (i : Input), ins[k]? = some i → sc k = i.pct := by
    rcases ha.scalars with ⟨h, h100⟩ | ⟨h, _⟩
    · refine ⟨fun _ => 100, by rw [h, params_none], ?_⟩
      intro k i hk
      rw [h100 i (List.mem_of_getElem? hk)]
      rfl
    · obtain ⟨f, h1, h2⟩ := params_given (ins.map fun i => (i.pct : Int)) 100 (by
        intro v hv
        obtain ⟨i, hi, rfl⟩ := List.mem_map.mp hv
        have := (hg i hi).pct
        omega)
      refine ⟨f, by rw [h, hn]; simpa using h1, ?_⟩
      intro k i hk
      exact h2 k i.pct (by simp [hk])
  obtain ⟨it, hit, hitv⟩ : ∃ it, params c.iters c.files.length 1 = .inr it ∧
      ∀ (k : Nat) (i : Input), ins[k]? = some i → it k = 1 := by
    rcases ha.iters with h | ⟨h, _⟩
    · exact ⟨fun _ => 1, by rw [h, params_none], fun _ _ _ => rfl⟩
    · obtain ⟨f, h1, h2⟩ := params_given (ins.map fun _ => 1) 1 (by simp)
      refine ⟨f, by rw [h, hn]; simpa using h1, ?_⟩
      intro k i hk
      exact h2 k 1 (by simp [hk])
  obtain ⟨s, hs1, hs2, hs3⟩ := setup_spec ins 0
    { bcs := cursors c.garbage sc it c.files.length, nr := 0, ret := 0, out := [] } [] hg rfl
    (by simp [cursors, hn])
    (by
      intro k i hk
      have hkl : k < ins.length := (List.getElem?_eq_some_iff.mp hk).1
      refine ⟨{ c.garbage k with scalar := sc k, nrIter := it k }, ?_, hz k, hitv k i hk, hscv k i hk⟩
      simp [cursors, hn, hkl])
    ⟨rfl, by simp, by intro k L hk; simp at hk⟩
  rw [List.nil_append] at hs3
  have hsum := sum_le ins
  obtain ⟨s', out, h1, h2, h3⟩ := mergeLoop_spec fuel s _ (Nat.lt_of_le_of_lt hsum hfuel) hs3
  refine ⟨out, ?_, h3.shuffle, ?_⟩
  · unfold merge
    simp only [hsc, hit]
    rw [show setup c.files = setup (ins.map srcOf) from congrArg setup ha.files, hs1]
    simp only [h1, h2, hs2, List.nil_append]
  · intro hsorted
    apply h3.sorted
    intro l hl
    obtain ⟨i, hi, rfl⟩ := List.mem_map.mp hl
    exact share_sorted (hg i hi) (hsorted i hi)

/-- C98: a number of scales or of iterations other than the number of files is an error before
anything is opened or written. -/
theorem C98_params (c : Cfg) (l : List Int) (hl : ∀ v ∈ l, v ≠ 0) (h0 : l ≠ [])
    (_h20 : l.length ≤ 20) (hn : l.length ≠ c.files.length) (fuel : Nat)
    (h : c.scalars = optArray l ∨ (c.scalars = optArray [] ∧ c.iters = optArray l)) :
    merge fuel c = some ((l.length : Int), none) := by
  have hv : valsLen (optArray l) = l.length := valsLen_pad l _ hl
  have hp : l.length ≠ 0 := by simpa using h0
  have : ∀ d, params (optArray l) c.files.length d = .inl l.length := by
    intro d
    simp only [params, hv]
    rw [if_pos ⟨hp, hn⟩]
  rcases h with h | ⟨h, h'⟩
  · simp [merge, h, this]
  · simp [merge, h, h', params_none, this]

/-- C98: the verdict of `add_job` is the wrong way round: whenever the traces could be merged, the
job is refused. -/
theorem C98_refused_counterexample (ins : List Input) (hg : ∀ i ∈ ins, i.Good) (c : Cfg)
    (ha : Asked c ins) (hz : ∀ k, (c.garbage k).iter = 0) (fuel : Nat)
    (hfuel : (ins.map fun i => i.recs.length).sum < fuel) :
    ∃ r, merge fuel c = some r ∧ refuses r.1 = true := by
  obtain ⟨out, h, _⟩ := C98_merge_partial ins hg c ha hz fuel hfuel
  exact ⟨_, h, rfl⟩

/-- C98: and whenever the number of scales is wrong the job is taken, although nothing was merged. -/
theorem C98_accepted_counterexample (c : Cfg) (l : List Int) (hl : ∀ v ∈ l, v ≠ 0) (h0 : l ≠ [])
    (h20 : l.length ≤ 20) (hn : l.length ≠ c.files.length) (fuel : Nat) (h : c.scalars = optArray l) :
    ∃ r, merge fuel c = some r ∧ r.2 = none ∧ refuses r.1 = false := by
  refine ⟨_, C98_params c l hl h0 h20 hn fuel (.inl h), rfl, ?_⟩
  have : l.length ≠ 0 := by simpa using h0
  simp [refuses, this]

/-! ### Cases -/

/-- A record of the cases: time, action, data. -/
def mk (time action : Nat) (pdu : List Byte) (h : pdu.length < 65536 := by decide) : Rec where
  t := { magic := 0x65617407#32, sequence := 1#32, time := BitVec.ofNat 64 time, sector := 2048#64
         bytes := 4096#32, action := BitVec.ofNat 32 action, pid := 7#32, device := 0x800000#32
         cpu := 3#32, error := 0#16, pduLen := BitVec.ofNat 16 pdu.length }
  pdu := pdu
  ok := by simp [Nat.mod_eq_of_lt h]

/-- Queueing a read. -/
def qRead : Nat := 0x10001
/-- Queueing a write. -/
def qWrite : Nat := 0x20001
/-- Completion of a read. -/
def cRead : Nat := 0x10008

/-- Memory of cursors with the given `iter` and `length`. -/
def mem (iter : Int) (length : Nat) : Nat → Cursor := fun _ =>
  { f := none, pos := 0, length := BitVec.ofNat 64 length, t := (mk 77 0 []).t, swap := false
    scalar := 0, iter := iter, nrIter := 0 }

/-- Two files of different byte order, the first at half the time, with records to skip and data. -/
def twoFiles : List Input :=
  [⟨false, 50, [mk 100 qRead [1#8, 2#8], mk 150 cRead [], mk 300 qWrite []]⟩,
   ⟨true, 100, [mk 5 cRead [9#8], mk 60 qWrite [3#8], mk 140 qRead []]⟩]

/-- The job that merges them. -/
def twoCfg : Cfg where
  files := twoFiles.map fun i => .data (fileBytes i.big i.recs)
  scalars := optArray [50, 100]
  iters := optArray []
  garbage := mem 0 0

theorem twoFiles_good : ∀ i ∈ twoFiles, i.Good := by
  intro i hi
  simp only [twoFiles, List.mem_cons, List.not_mem_nil, or_false] at hi
  rcases hi with rfl | rfl
  · refine ⟨?_, ⟨mk 100 qRead [1#8, 2#8], by simp, by decide⟩, ?_, by decide⟩
    · intro r l h
      cases h
      rfl
    · intro r hr
      simp only [List.mem_cons, List.not_mem_nil, or_false] at hr
      rcases hr with rfl | rfl | rfl <;> decide
  · refine ⟨?_, ⟨mk 60 qWrite [3#8], by simp, by decide⟩, ?_, by decide⟩
    · intro r l h
      cases h
      rfl
    · intro r hr
      simp only [List.mem_cons, List.not_mem_nil, or_false] at hr
      rcases hr with rfl | rfl | rfl <;> decide

/-- What is in a merged file. -/
def traces (n : Nat) (o : List Byte) : List Trace :=
  (List.range n).map fun k => decode ((o.drop (48 * k)).take 48)

/-- C98: the two files meet the hypotheses and are merged: times 50, 60, 140, 150. -/
theorem C98_case :
    (∀ i ∈ twoFiles, i.Good) ∧ Asked twoCfg twoFiles ∧ (∀ k, (twoCfg.garbage k).iter = 0) ∧
    (∃ o, merge 10 twoCfg = some (0, some o) ∧ o.length = 4 * 48 ∧
      (traces 4 o).map (fun t => (t.time.toNat, t.action.toNat)) =
        [(50, qRead), (60, qWrite), (140, qRead), (150, qWrite)]) := by
  refine ⟨twoFiles_good, ⟨rfl, .inr ⟨rfl, by decide⟩, .inl rfl⟩, fun _ => rfl, ?_⟩
  refine ⟨((merge 10 twoCfg).getD (0, none)).2.getD [], ?_⟩
  decide +kernel

/-- C98: one scale for two files. -/
theorem C98_params_case : merge 10 { twoCfg with scalars := optArray [50] } = some (1, none) ∧
    refuses 1 = false ∧ refuses 0 = true := by
  decide +kernel

/-- One file. -/
def oneCfg (recs : List Rec) (scalar iters : List Int) (m : Nat → Cursor) : Cfg where
  files := [.data (fileBytes false recs)]
  scalars := optArray scalar
  iters := optArray iters
  garbage := m

/-- Times of the merged file. -/
def times (c : Cfg) : Option (List Nat) :=
  match merge 20 c with
  | some (_, some o) => some ((traces (o.length / 48) o).map fun t => t.time.toNat)
  | _ => none

/-- C98: the number of iterations done and the length of the trace are never set in the memory of the
cursors (blktrace.c:709-710): what was there before moves the records in time. -/
theorem C98_memory_counterexample :
    times (oneCfg [mk 100 qRead []] [] [] (mem 0 0)) = some [100] ∧
    times (oneCfg [mk 100 qRead []] [] [] (mem 1 5000)) = some [5100] := by
  decide +kernel

/-- C98: with two iterations a file of one record becomes three: at the end of the first iteration
nothing is read, so that the last record is taken again (blktrace.c:640-643). -/
theorem C98_iterations_counterexample :
    times (oneCfg [mk 100 qRead []] [] [2] (mem 0 0)) = some [100, 100, 200] := by
  decide +kernel

/-- C98: the length of a trace is the scaled time of its last record and is scaled once more in the
next iteration (blktrace.c:668-669, 690): at 50 per cent, records at 100 and 200 become 50 and 100, and
the second iteration is at 100 and 150 rather than 150 and 200. -/
theorem C98_scale_counterexample :
    times (oneCfg [mk 100 qRead [], mk 200 qRead []] [50] [2] (mem 0 0)) =
      some [50, 100, 100, 100, 150] := by
  decide +kernel

/-- C98: when the last record of the file is one to skip and has data behind it, the next iteration
starts inside of the first record: the record to skip is in the merged file and all that follows is
garbage. Here the completion at 300 comes out, and no read of the second iteration does. -/
theorem C98_seek_counterexample :
    times (oneCfg [mk 100 qRead [], mk 300 cRead [0#8, 0#8, 0#8, 0#8]] [] [2] (mem 0 0)) ≠
      some [100, 400] ∧
    (∃ l, times (oneCfg [mk 100 qRead [], mk 300 cRead [0#8, 0#8, 0#8, 0#8]] [] [2] (mem 0 0)) = some l ∧
      300 ∈ l ∧ 400 ∉ l) := by
  refine ⟨by decide +kernel, ?_⟩
  refine ⟨(times (oneCfg [mk 100 qRead [], mk 300 cRead [0#8, 0#8, 0#8, 0#8]] [] [2] (mem 0 0))).getD [], ?_⟩
  decide +kernel

/-- C98: a file without a record to replay moves the file after it by its own length: the cursor is
used again with one iteration done. -/
theorem C98_empty_counterexample :
    times { files := [.data (fileBytes false [mk 9000 cRead []]), .data (fileBytes false [mk 100 qRead []])]
            scalars := optArray [], iters := optArray [], garbage := mem 0 0 } = some [9100] := by
  decide +kernel

/-- C98: and with iterations the cursors that are counted are more than those that were set up: a file
that was never opened is read. -/
theorem C98_wild_counterexample :
    merge 20 { files := [.data (fileBytes false [mk 9000 cRead []]), .data (fileBytes false [mk 100 qRead []])]
               scalars := optArray [], iters := optArray [2, 2], garbage := mem 0 0 } = none := by
  decide +kernel

/-- C98: a file cut inside of a record: the bytes there are, over those of the record before, are one
record more. -/
theorem C98_cut_counterexample :
    times { files := [.data ((fileBytes false [mk 100 qRead [], mk 200 qWrite []]).take 64)]
            scalars := optArray [], iters := optArray [], garbage := mem 0 0 } = some [100, 200] := by
  decide +kernel

end Fio.Blkmerge
