import Verif.Replay.Run

/-!
C74: replaying an I/O log.
-/
namespace Fio.Replay
open Spec (Out strip GoodOpts)

/-- read_iolog() at its start: no files, no pieces, counters 0.  The variables
that the C code leaves uninitialised are arbitrary. -/
structure Fresh (s : R) : Prop where
  files : s.files = []
  pieces : s.pieces = []
  last : s.last = 0
  reads : s.reads = 0
  writes : s.writes = 0
  trims : s.trims = 0
  waits : s.waits = 0
  bs : s.bs.length = 6

theorem Fresh.good {s : R} (h : Fresh s) : Good s := by
  constructor
  · rw [h.reads, h.writes, h.trims, h.waits, h.pieces]; simp
  · exact h.bs
  · rw [h.pieces]; simp

/-- **C74, reading back.**  A log that fio wrote is read back completely: the
files are those of the job, with the same numbers; the pieces are the entries of
the log in their order, with direction, file, offset, length and the pause
before them; only directions that the options exclude are left out.  The log is
accepted exactly if it names a read, write or trim that is not excluded.  The
largest block size of a direction, from which the buffers are allocated, covers
every I/O.  Nothing beside max_bs is overwritten if syncs have length 0. -/
theorem C74_read_back_partial (o : Opts) (names : List (List Nat)) (ts : List Nat) (evs : List Ev)
    (s0 : R) (hr : o.redirect = none) (hd : o.dir = []) (ho : GoodOpts o)
    (hn : ∀ n ∈ names, Spec.Name n) (hnd : names.Nodup) (hts : ∀ t ∈ ts, t < 2 ^ 64)
    (hev : ∀ e ∈ evs, Spec.Entry names.length e) (hf : Fresh s0) :
    ∃ s ok, readLog o s0 (writeLog names ts evs) = some (s, ok) ∧
      s.files = names ∧
      s.pieces.map strip = Spec.pieces o (fun f => (f : Nat)) 0 (addEvs names ts ++ evs) ∧
      (ok = true ↔ Spec.HasIo o evs) ∧
      (∀ p ∈ s.pieces, (p.ddir = .read ∨ p.ddir = .write ∨ p.ddir = .trim) →
        p.len ≤ s.bs.getD p.ddir.idx 0) ∧
      ((∀ t f d off len, Ev.io t f d off len ∈ evs →
          d = .read ∨ d = .write ∨ d = .trim ∨ len = 0) → s.bs.drop 3 = s0.bs.drop 3) := by
  have hv : ({ o with version := 3 } : Opts).version = 3 := rfl
  unfold readLog writeLog
  rw [readVersion_write]
  simp only
  generalize hfu : (((addEvs names ts ++ evs).map (logLine names)).flatten.length + 1) = fuel
  have hge := flatten_length_ge names (addEvs names ts ++ evs)
  have hal : (addEvs names ts).length = names.length := by simp [addEvs]
  rw [List.length_append, hal] at hge
  obtain ⟨k, hk⟩ : ∃ k, fuel = names.length + k := ⟨fuel - names.length, by omega⟩
  have hadd : addEvs names ts = (List.range' 0 names.length).map
      fun i => Ev.file (ts.getD i 0) i .add := by
    unfold addEvs; rw [List.range_eq_range']
  obtain ⟨s1, e1, f1, g1, l1, p1, b1⟩ := readLoop_adds (o := { o with version := 3 })
    (names := names) (ts := ts) (rest := (evs.map (logLine names)).flatten) hv hn hts hr hd
    names.length 0 s0 k (by omega) hf.good (by simp [hf.files])
  obtain ⟨s2, e2, f2, g2, p2, b2⟩ := readLoop_evs (o := { o with version := 3 }) (names := names)
    (fi := fun f => (f : Nat)) hv ho hn evs s1 k (by omega) hev g1
    (fun f hfl => by
      show getFileno s1.files (o.redirect.getD _) = _
      rw [f1, hr]; exact getFileno_nodup hnd hfl)
  have hloop : readLoop { o with version := 3 } fuel none s0
      (((addEvs names ts ++ evs).map (logLine names)).flatten) = some (s2, []) := by
    rw [hk, List.map_append, List.flatten_append, hadd, e1, e2]
  have hpieces : s2.pieces.map strip
      = Spec.pieces o (fun f => (f : Nat)) 0 (addEvs names ts ++ evs) := by
    have hp2 : s2.pieces.map strip = s1.pieces.map strip ++
        Spec.pieces o (fun f => (f : Nat)) s1.last evs := by
      rw [p2, pieces_version]
    rw [hp2, p1, hf.pieces, hadd, pieces_adds, l1, hf.last]
    simp only [List.map_nil, List.nil_append]
    congr 2
    cases hlen : names.length with
    | zero => simp
    | succ m => rw [getLast_range']; simp
  rw [hloop]
  refine ⟨s2, _, rfl, by rw [f2, f1], hpieces, ?_, g2.big, ?_⟩
  · rw [accepted_iff g2 hpieces, hasIo_adds]
  · intro hz
    rw [b2, b1]
    intro t f d off len hm
    rcases hz t f d off len hm with h | h | h | h
    · left; rw [h]; decide
    · left; rw [h]; decide
    · left; rw [h]; decide
    · exact Or.inr h

/-- **C74, redirection.**  With replay_redirect every piece goes to the one file
named by the option. -/
theorem C74_redirect_partial (o : Opts) (rn : List Nat) (names : List (List Nat)) (ts : List Nat)
    (evs : List Ev) (s0 : R) (hr : o.redirect = some rn) (hd : o.dir = []) (ho : GoodOpts o)
    (hne : names ≠ [])
    (hn : ∀ n ∈ names, Spec.Name n) (hts : ∀ t ∈ ts, t < 2 ^ 64)
    (hev : ∀ e ∈ evs, Spec.Entry names.length e) (hf : Fresh s0) :
    ∃ s ok, readLog o s0 (writeLog names ts evs) = some (s, ok) ∧
      s.files = [rn] ∧
      s.pieces.map strip = Spec.pieces o (fun _ => 0) 0 (addEvs names ts ++ evs) ∧
      (ok = true ↔ Spec.HasIo o evs) ∧
      (∀ p ∈ s.pieces, (p.ddir = .read ∨ p.ddir = .write ∨ p.ddir = .trim) →
        p.len ≤ s.bs.getD p.ddir.idx 0) := by
  have hv : ({ o with version := 3 } : Opts).version = 3 := rfl
  unfold readLog writeLog
  rw [readVersion_write]
  simp only
  generalize hfu : (((addEvs names ts ++ evs).map (logLine names)).flatten.length + 1) = fuel
  have hge := flatten_length_ge names (addEvs names ts ++ evs)
  have hal : (addEvs names ts).length = names.length := by simp [addEvs]
  rw [List.length_append, hal] at hge
  obtain ⟨m, hm⟩ : ∃ m, names.length = m + 1 :=
    ⟨names.length - 1, by have := List.length_pos_iff.mpr hne; omega⟩
  obtain ⟨k, hk⟩ : ∃ k, fuel = (m + k) + 1 := ⟨fuel - m - 1, by omega⟩
  have hadd : addEvs names ts = (List.range' 0 names.length).map
      fun i => Ev.file (ts.getD i 0) i .add := by
    unfold addEvs; rw [List.range_eq_range']
  have hgn : GoodName (names.getD 0 []) := spec_name (hn _ (getD_name (by omega)))
  have ht : ts.getD 0 0 < 2 ^ 64 := by
    rw [List.getD_eq_getElem?_getD]
    cases h : ts[0]? with
    | none => simp
    | some t => exact hts t (List.mem_of_getElem? h)
  obtain ⟨s1, h1, h2, h3, h4, h5⟩ := readLine_add (o := { o with version := 3 }) (s := s0) (f := 0)
    (names := names) hv ht hgn (Or.inr (by rw [hf.files]; rfl))
  have f1 : s1.files = [rn] := by
    rw [h2.files, hf.files]
    show [o.dir ++ o.redirect.getD _] = _
    rw [hd, hr]; rfl
  have n1 : s1.fileno = 0 := by rw [h4, hf.files]; rfl
  obtain ⟨s2, e2, f2, g2, l2, p2, _⟩ := readLoop_readds (o := { o with version := 3 })
    (names := names) (ts := ts) (rest := (evs.map (logLine names)).flatten) hv hn hts hr
    m 1 s1 k (by omega) (h2.good hf.good) f1 n1 h5
  obtain ⟨s3, e3, f3, g3, p3, _⟩ := readLoop_evs (o := { o with version := 3 }) (names := names)
    (fi := fun _ => 0) hv ho hn evs s2 k (by omega) hev g2
    (fun f _ => by
      show getFileno s2.files (o.redirect.getD _) = _
      rw [f2, hr]; simp [getFileno])
  have hloop : readLoop { o with version := 3 } fuel none s0
      (((addEvs names ts ++ evs).map (logLine names)).flatten) = some (s3, []) := by
    rw [hk, List.map_append, List.flatten_append, hadd, hm, List.range'_succ]
    simp only [List.map_cons, List.flatten_cons, List.append_assoc]
    rw [readLoop_step (e := .file (ts.getD 0 0) 0 .add) hgn (Or.inr h1), e2, e3]
  have hpieces : s3.pieces.map strip
      = Spec.pieces o (fun _ => 0) 0 (addEvs names ts ++ evs) := by
    have hp3 : s3.pieces.map strip = s2.pieces.map strip ++
        Spec.pieces o (fun _ => 0) s2.last evs := by
      rw [p3, pieces_version]
    rw [hp3, p2, h2.outs, hf.pieces, hadd, pieces_adds, l2, h2.last, hm, getLast_range',
      hf.files]
    simp only [List.map_nil, List.nil_append, List.range'_succ, List.map_cons]
    congr 2
    split
    · rename_i h0; subst h0; simp
    · simp
  rw [hloop]
  refine ⟨s3, _, rfl, by rw [f3, f2], hpieces, ?_, g3.big⟩
  rw [accepted_iff g3 hpieces, hasIo_adds]

theorem inv_fresh (n : Nat) : Inv n (fun _ => false) [] (List.replicate n {}) := by
  refine ⟨by simp, by simp, ?_⟩
  intro i x hx
  have := List.mem_of_getElem? hx
  rw [List.mem_replicate] at this
  rw [this.2]
  simp [infl]

theorem history_adds {op : Nat → Bool} {es : List Ev} (ts : List Nat) (h : Spec.History op es) :
    ∀ l : List Nat, Spec.History op ((l.map fun i => Ev.file (ts.getD i 0) i .add) ++ es) := by
  intro l
  induction l with
  | nil => exact h
  | cons x l ih => simpa [Spec.History] using ih

theorem opens_adds {es : List Ev} (ts : List Nat) :
    ∀ l : List Nat, Spec.opens ((l.map fun i => Ev.file (ts.getD i 0) i .add) ++ es)
      = Spec.opens es := by
  intro l
  induction l with
  | nil => rfl
  | cons x l ih => simpa [Spec.opens] using ih

theorem ios_adds {o : Opts} {es : List Ev} (ts : List Nat) :
    ∀ l : List Nat, Spec.ios o ((l.map fun i => Ev.file (ts.getD i 0) i .add) ++ es)
      = Spec.ios o es := by
  intro l
  induction l with
  | nil => rfl
  | cons x l ih => simpa [Spec.ios] using ih

theorem range_adds {names : List (List Nat)} {ts : List Nat} {evs : List Ev}
    (hev : ∀ e ∈ evs, Spec.Entry names.length e) :
    InRange names.length (addEvs names ts ++ evs) := by
  intro e he
  rw [List.mem_append] at he
  rcases he with he | he
  · simp only [addEvs, List.mem_map, List.mem_range] at he
    obtain ⟨i, hi, rfl⟩ := he
    exact hi
  · have := hev e he
    cases e with
    | file t f a => exact this.2.1
    | io t f d off len => exact this.2.1

/-- **C74, replay.**  Written, read back and replayed one I/O at a time, a log
with a possible history of its files yields exactly the I/Os logged (those that
the options keep), in order; no assertion fails. -/
theorem C74_replay_partial (o : Opts) (names : List (List Nat)) (ts : List Nat) (evs : List Ev)
    (s0 : R) (hr : o.redirect = none) (hd : o.dir = []) (ho : GoodOpts o)
    (hn : ∀ n ∈ names, Spec.Name n) (hnd : names.Nodup) (hts : ∀ t ∈ ts, t < 2 ^ 64)
    (hev : ∀ e ∈ evs, Spec.Entry names.length e) (hf : Fresh s0)
    (hh : Spec.History (fun _ => false) evs) :
    ∃ s ok, readLog o s0 (writeLog names ts evs) = some (s, ok) ∧
      ∀ k, s.pieces.length ≤ k →
        replay o (Spec.oneByOne k) (List.replicate s.files.length {}) s.pieces []
          = some (Spec.ios o evs) := by
  obtain ⟨s, ok, h1, h2, h3, _⟩ := C74_read_back_partial o names ts evs s0 hr hd ho hn hnd hts hev hf
  refine ⟨s, ok, h1, ?_⟩
  intro k hk
  rw [replay_strip, h3, h2]
  have hl : (Spec.pieces o (fun f => (f : Nat)) 0 (addEvs names ts ++ evs)).length ≤ k := by
    rw [← h3]; simpa using hk
  have := replayOut_sync o names.length (addEvs names ts ++ evs) k 0 (fun _ => false)
    (List.replicate names.length {}) (range_adds hev) (history_adds ts hh _) (inv_fresh _) hl
  rw [this]
  exact congrArg some (ios_adds ts _)

/-- **C74, replay in any order of completion.**  If the log opens no file twice,
then with any interleaving of completions no assertion fails and the I/Os are
handed out in the order of the log; all of them if all pieces are taken. -/
theorem C74_replay_async_partial (o : Opts) (names : List (List Nat)) (ts : List Nat) (evs : List Ev)
    (s0 : R) (hr : o.redirect = none) (hd : o.dir = []) (ho : GoodOpts o)
    (hn : ∀ n ∈ names, Spec.Name n) (hnd : names.Nodup) (hts : ∀ t ∈ ts, t < 2 ^ 64)
    (hev : ∀ e ∈ evs, Spec.Entry names.length e) (hf : Fresh s0)
    (hh : Spec.History (fun _ => false) evs) (hone : (Spec.opens evs).Nodup) :
    ∃ s ok, readLog o s0 (writeLog names ts evs) = some (s, ok) ∧
      ∀ w : List Bool, ∃ r,
        replay o w (List.replicate s.files.length {}) s.pieces [] = some r ∧
        r <+: Spec.ios o evs ∧ (s.pieces.length ≤ w.count true → r = Spec.ios o evs) := by
  obtain ⟨s, ok, h1, h2, h3, _⟩ := C74_read_back_partial o names ts evs s0 hr hd ho hn hnd hts hev hf
  refine ⟨s, ok, h1, ?_⟩
  intro w
  rw [replay_strip, h3, h2]
  have he : Spec.opens (addEvs names ts ++ evs) = Spec.opens evs := opens_adds ts _
  obtain ⟨r, hr1, hr2, hr3⟩ := replayOut_once o names.length w (addEvs names ts ++ evs) 0
    (fun _ => false) [] (List.replicate names.length {}) (range_adds hev) (history_adds ts hh _)
    (by rw [he]; exact hone) (fun f _ => ⟨rfl, rfl⟩) (inv_fresh _)
  have hi : Spec.ios o (addEvs names ts ++ evs) = Spec.ios o evs := ios_adds ts _
  rw [hi] at hr2 hr3
  refine ⟨r, hr1, hr2, ?_⟩
  intro hc
  apply hr3
  rw [← h3]; simpa using hc

/-! ### Where replaying goes wrong -/

/-- A fresh state; the uninitialised variables hold 7. -/
def fresh0 : R := { offset := 7, bytes := 7, junk := 7 }

/-- The I/Os of a replay one by one. -/
def replayed (o : Opts) (s0 : R) (l : List Nat) : Option (List Io) :=
  match readLog o s0 l with
  | none => none
  | some (s, _) =>
    replay o (Spec.oneByOne s.pieces.length) (List.replicate s.files.length {}) s.pieces []

/-- A non-trivial log meets the hypotheses: two files, I/O in all directions. -/
def exNames : List (List Nat) := [str "a.0", str "b.0"]
def exEvs : List Ev :=
  [.file 5 0 .open, .io 10 0 .write 0 4096, .file 12 1 .open, .io 20 1 .read 8192 512,
   .io 25 0 .sync 0 0, .file 30 0 .close, .io 40 1 .trim 4096 4096, .io 41 1 .datasync 0 0,
   .file 50 1 .close]

example : (∀ n ∈ exNames, Spec.Name n) ∧ exNames.Nodup ∧
    (∀ e ∈ exEvs, Spec.Entry exNames.length e) ∧ Fresh fresh0 ∧
    Spec.History (fun _ => false) exEvs ∧ (Spec.opens exEvs).Nodup ∧ GoodOpts {} ∧
    Spec.HasIo {} exEvs := by
  refine ⟨?_, by decide, ?_, ⟨rfl, rfl, rfl, rfl, rfl, rfl, rfl, rfl⟩, ?_, by decide, Or.inl rfl, ?_⟩
  · unfold Spec.Name; decide
  · simp [exEvs, exNames, Spec.Entry]
  · simp [exEvs, Spec.History]
  · exact ⟨10, 0, .write, 0, 4096, by decide, rfl, Or.inr (Or.inl rfl)⟩

example : replayed {} fresh0 (writeLog exNames [0, 0] exEvs) =
    some [⟨.write, 0, 0, 4096⟩, ⟨.read, 1, 8192, 512⟩, ⟨.sync, 0, 0, 0⟩, ⟨.trim, 1, 4096, 4096⟩,
      ⟨.datasync, 1, 0, 0⟩] := by decide +kernel

example : (readLog { redirect := some (str "/dev/x"), replayScale := 2, replayAlign := 4096 } fresh0
    (writeLog exNames [0, 0] exEvs)).map (fun p => (p.1.files, p.1.pieces.map strip)) =
    some ([str "/dev/x"], [.special 0 .add, .special 0 .add, .special 0 .open,
      .io .write 0 0 4096 5, .special 0 .open, .io .read 0 4096 512 8, .io .sync 0 0 0 5,
      .special 0 .close, .io .trim 0 0 4096 10, .io .datasync 0 0 0 1, .special 0 .close]) := by
  decide +kernel

/-- io_ddir_name() writes syncfs and sync_file_range, read_iolog() does not know
them: these entries are lost. -/
theorem C74_syncfs_counterexample :
    replayed {} fresh0 (writeLog [str "f"] [] [.file 0 0 .open, .io 1 0 .syncfs 0 0,
      .io 2 0 .syncFileRange 0 0, .io 3 0 .read 0 512]) = some [⟨.read, 0, 0, 512⟩] := by
  decide +kernel

/-- A file name with a space cannot be read back: no line is understood, the log
is refused. -/
theorem C74_space_counterexample :
    (readLog {} fresh0 (writeLog [str "a b"] [] [.file 0 0 .open, .io 1 0 .read 0 512])).map
      (fun p => (p.1.pieces, p.2)) = some ([], false) := by
  decide +kernel

/-- The length is read into 32 bits: a trim of 4 GiB + 512 becomes one of 512. -/
theorem C74_length_counterexample :
    replayed {} fresh0 (writeLog [str "f"] [] [.file 0 0 .open,
      .io 1 0 .trim 0 (2 ^ 32 + 512)]) = some [⟨.trim, 0, 0, 512⟩] := by
  decide +kernel

/-- `bytes` is used for lines that do not set it (iolog.c:611-618): the size of
the job counts the uninitialised variable for `add` and `open` and the last
length again for `close`.  Here one I/O of 512 bytes gives a size of
2·7 + 512 + 512. -/
theorem C74_size_counterexample :
    (readLog {} fresh0 (writeLog [str "f"] [] [.file 0 0 .open, .io 1 0 .read 0 512,
      .file 2 0 .close])).map (fun p => (p.1.size, p.1.total)) = some (1038, 1038) := by
  decide +kernel

/-- With `directory` set the name that `add` stores is not the name the other
lines ask for: `td->files[-1]` is read. -/
theorem C74_directory_counterexample :
    replayed { dir := str "/d/" } fresh0 (writeLog [str "f"] [] [.file 0 0 .open,
      .io 1 0 .read 0 512]) = none := by
  decide +kernel

/-- A sync with a length (fio itself writes 0) is compared with `max_bs[3]`,
which lies outside the array, and stored there: the bssplit pointer of reads. -/
theorem C74_sync_length_counterexample :
    (readLog {} fresh0 (writeLog [str "f"] [] [.file 0 0 .open, .io 1 0 .sync 0 4096,
      .io 2 0 .read 0 512])).map (fun p => p.1.bs) = some [512, 0, 0, 4096, 0, 0] := by
  decide +kernel

/-- Pauses are measured from the line before even if it is left out: without the
write, the second read comes after 100 µs instead of 1000 µs. -/
theorem C74_skip_pause_counterexample :
    (readLog { skip := 2 } fresh0 (writeLog [str "f"] [] [.file 0 0 .open, .io 100 0 .read 0 512,
      .io 1000 0 .write 0 512, .io 1100 0 .read 512 512])).map (fun p => p.1.pieces.map strip) =
    some [.special 0 .add, .special 0 .open, .io .read 0 0 512 0, .io .read 0 512 512 100] := by
  decide +kernel

/-- With replay_redirect and two files, closing the first closes the one file
there is: the next I/O of the second fails an assertion.  The log is one that
fio writes. -/
theorem C74_redirect_close_counterexample :
    Spec.History (fun _ => false) [.file 1 0 .open, .file 2 1 .open, .io 3 0 .read 0 512,
      .file 4 0 .close, .io 5 1 .read 0 512] ∧
    replayed { redirect := some (str "r") } fresh0 (writeLog [str "a", str "b"] []
      [.file 1 0 .open, .file 2 1 .open, .io 3 0 .read 0 512, .file 4 0 .close,
       .io 5 1 .read 0 512]) = none := by
  constructor
  · simp [Spec.History]
  · decide +kernel

/-- A log that opens a file again: if the I/O before the close is still in flight
in the replay, opening fails an assertion (one by one it works). -/
theorem C74_reopen_counterexample :
    ((readLog {} fresh0 (writeLog [str "f"] [] [.file 1 0 .open, .io 2 0 .read 0 512,
      .file 3 0 .close, .file 4 0 .open, .io 5 0 .read 512 512])).map fun p =>
      (replay {} [true, true, true, true, true, true] [{}] p.1.pieces [],
       replay {} (Spec.oneByOne 6) [{}] p.1.pieces [])) =
    some (none, some [⟨.read, 0, 0, 512⟩, ⟨.read, 0, 512, 512⟩]) := by
  decide +kernel

/-- A line too short for an action as the first line of a log: `act` is compared
although it was never written. -/
theorem C74_short_line_counterexample :
    readLog {} fresh0 (ver3 ++ [10] ++ str "x" ++ [10]) = none := by
  decide +kernel

end Fio.Replay
