import Verif.Files.Lemmas

/-
C63: references to files.
-/
namespace Fio.Files

/-- The environment and the callers keep to the rules in state s: no file is found to be unusable after the engine
has opened it; draws are files; the bounds for the loops are no bounds; a replayed log opens files that are not open
or about to be closed, and closes files that are open and not about to be closed. -/
def Fair (c : Cfg) (s : St) : Act → Prop
  | .io m n env => (∀ k, GoodEnv c (env k)) ∧ (c.service = .rr ∨ c.service = .seq → c.nr ≤ n ∧ c.nr < m)
  | .put _ => True
  | .verify _ o => o ≠ .later
  | .closeAll => True
  | .logOpen i o => ((s.files i).opn = false ∨ (s.files i).closing = true) ∧ o ≠ .later
  | .logClose i => (s.files i).opn = true ∧ (s.files i).closing = false

/-- All of the actions of a run are fair. -/
def FairRun (c : Cfg) : St → List Act → Prop
  | _, [] => True
  | s, a :: as => Fair c s a ∧ ∀ t, step c s a = some t → FairRun c t as

theorem init_inv {c : Cfg} (h : 0 < c.nr) : Inv c init init.holds := by
  refine ⟨?_, ?_, ?_, h⟩
  · intro i; exact ⟨rfl, (by intro h; cases h), fun _ => ⟨rfl, rfl, rfl⟩⟩
  · intro i _; rfl
  · show 0 = cnt c.nr (fun _ => false)
    generalize c.nr = n
    clear h
    induction n with
    | zero => rfl
    | succ n ih => simp [cnt, ← ih]

theorem reopen_inv {c : Cfg} {s : St} {h : Nat → Nat} (hi : Inv c s h) {i : Nat}
    (hc : (s.files i).closing = true) (o : Outcome) :
    ∃ t, openFile s i o = some (false, t) ∧ Inv c t h ∧ t.nrOpen = s.nrOpen ∧ t.holds = s.holds := by
  obtain ⟨h1, h2, h3⟩ := hi.file i
  have ho : (s.files i).opn = true := by
    cases ho : (s.files i).opn with
    | true => rfl
    | false => have := (h3 ho).1; rw [hc] at this; cases this
  obtain ⟨h4, h5⟩ := h2 ho
  rw [hc] at h4
  simp at h4
  refine ⟨setFile s i { s.files i with closing := false, refs := (s.files i).refs + 1 }, ?_, ?_, rfl, rfl⟩
  · simp [openFile, hc, getFile, setFile, ho]
    funext j
    split <;> rfl
  · have := inv_keep hi (i := i) (n := h i) (f := { s.files i with closing := false, refs := (s.files i).refs + 1 })
      ⟨h1, by intro _; simp only; simp; omega, by intro hn; rw [ho] at hn; cases hn⟩ rfl
    rwa [upd_self] at this

/-- A step keeps the invariant; without verification and replay, it keeps the limit for open files.  If it fails, it
is because a loop of the random choice does not end. -/
theorem step_inv {c : Cfg} {s : St} (hi : Inv c s s.holds) {a : Act} (hf : Fair c s a) :
    (∀ t, step c s a = some t → Inv c t t.holds) ∧
    (step c s a = none → ∃ m n env, a = .io m n env ∧ (setLoop c n env m 0 s).1 = .spin ∧
      (c.service = .random ∨ c.service = .uneven)) := by
  cases a with
  | io m n env =>
    have h := set_inv hf.1 (fun h => (hf.2 h).1) m 0 s hi (n := n)
    simp only [step]
    generalize hq : setLoop c n env m 0 s = q at h
    obtain ⟨p, u⟩ := q
    obtain ⟨h1, h2, _, h3, _, _⟩ := h
    cases p with
    | abort => exact absurd rfl h2
    | spin =>
      refine ⟨by simp, fun _ => ⟨m, n, env, rfl, by rw [hq], ?_⟩⟩
      cases hs : c.service with
      | rr =>
        have h4 := (hf.2 (.inl hs)).2
        rcases h3 (.inl hs) (by omega) with h | h
        · exact absurd rfl h
        · omega
      | seq =>
        have h4 := (hf.2 (.inr hs)).2
        rcases h3 (.inr hs) (by omega) with h | h
        · exact absurd rfl h
        · omega
      | random => simp
      | uneven => simp
    | file i => exact ⟨fun t ht => by injection ht with ht; subst ht; exact h1, by simp⟩
    | null => exact ⟨fun t ht => by injection ht with ht; subst ht; exact h1, by simp⟩
    | busy => exact ⟨fun t ht => by injection ht with ht; subst ht; exact h1, by simp⟩
  | put i =>
    simp only [step]
    split
    · exact ⟨fun t ht => by injection ht with ht; subst ht; exact hi, by simp⟩
    · next hz =>
      have hi' : Inv c (setHolds s i (s.holds i - 1)) s.holds := ⟨hi.file, hi.out, hi.cnt, hi.next⟩
      obtain ⟨u, h1, h2⟩ := put_inv hi' (i := i) (by omega)
      have e : u.holds = upd s.holds i (s.holds i - 1) := (put_frame h1).holds
      rw [h1]
      exact ⟨fun t ht => by injection ht with ht; subst ht; rw [e]; exact h2, by simp⟩
  | verify i o =>
    have key : ∀ u, Inv c u u.holds → (u.files i).opn = true →
        ∃ v, (getFile u i).map (fun s => setHolds s i (s.holds i + 1)) = some v ∧ Inv c v v.holds := by
      intro u hu ho
      obtain ⟨v, h1, h2, _⟩ := get_inv hu ho
      refine ⟨setHolds v i (v.holds i + 1), by rw [h1]; rfl, ?_⟩
      have e : (setHolds v i (v.holds i + 1)).holds = upd u.holds i (u.holds i + 1) := by
        show upd v.holds i (v.holds i + 1) = _
        rw [(get_frame h1).holds]
      rw [e]
      exact ⟨h2.file, h2.out, h2.cnt, h2.next⟩
    simp only [step]
    split
    · exact ⟨fun t ht => by injection ht with ht; subst ht; exact hi, by simp⟩
    · next hlt =>
      split
      · next ho =>
        obtain ⟨v, h1, h2⟩ := key s hi ho
        rw [h1]
        exact ⟨fun t ht => by injection ht with ht; subst ht; exact h2, by simp⟩
      · next ho =>
        rcases open_inv (i := i) hi (by omega) (by simpa using ho) hf with ⟨_, h1⟩ | ⟨_, u, h1, h2, h3⟩
        · rw [h1]
          exact ⟨fun t ht => by injection ht with ht; subst ht; exact hi, by simp⟩
        · rw [h1]
          have eh : u.holds = s.holds := (open_frame h1).holds
          obtain ⟨v, h4, h5⟩ := key u (by rw [eh]; exact h2) (by rw [h3]; simp [setFile])
          simp only
          rw [h4]
          exact ⟨fun t ht => by injection ht with ht; subst ht; exact h5, by simp⟩
  | closeAll =>
    simp only [step]
    split
    · next hz =>
      simp at hz
      obtain ⟨u, h1, h2, h3⟩ := closeFiles_inv c.nr s hi hz
      rw [h1]
      refine ⟨fun t ht => ?_, by simp⟩
      injection ht with ht; subst ht
      exact ⟨h2.file, h2.out, h2.cnt, h2.next⟩
    · exact ⟨fun t ht => by injection ht with ht; subst ht; exact hi, by simp⟩
  | logOpen i o =>
    simp only [step]
    split
    · exact ⟨fun t ht => by injection ht with ht; subst ht; exact hi, by simp⟩
    · next hlt =>
      cases hc : (s.files i).closing with
      | true =>
        obtain ⟨u, h1, h2, h3, h4⟩ := reopen_inv hi hc o
        rw [h1]
        exact ⟨fun t ht => by injection ht with ht; subst ht; rw [h4]; exact h2, by simp⟩
      | false =>
        have ho : (s.files i).opn = false := by
          rcases hf.1 with h | h
          · exact h
          · rw [hc] at h; cases h
        rcases open_inv hi (by omega) ho hf.2 with ⟨_, h1⟩ | ⟨_, u, h1, h2, h3⟩
        · rw [h1]
          exact ⟨fun t ht => by injection ht with ht; subst ht; exact hi, by simp⟩
        · rw [h1]
          have eh : u.holds = s.holds := (open_frame h1).holds
          exact ⟨fun t ht => by injection ht with ht; subst ht; rw [eh]; exact h2, by simp⟩
  | logClose i =>
    simp only [step]
    split
    · exact ⟨fun t ht => by injection ht with ht; subst ht; exact hi, by simp⟩
    · obtain ⟨u, h1, h2⟩ := close_inv hi hf.1 hf.2
      rw [h1]
      exact ⟨fun t ht => by injection ht with ht; subst ht; rw [(close_frame h1).holds]; exact h2, by simp⟩

theorem run_inv {c : Cfg} : ∀ (as : List Act) (s t : St), Inv c s s.holds → FairRun c s as → run c s as = some t →
    Inv c t t.holds := by
  intro as
  induction as with
  | nil => intro s t hi _ h; injection h with h; subst h; exact hi
  | cons a as ih =>
    intro s t hi hf h
    simp only [run] at h
    split at h
    · cases h
    · next u hu => exact ih u t ((step_inv hi hf.1).1 u hu) (hf.2 u hu) h

/-- C63: an I/O has its file open.  For every fair run, whatever the order of I/Os, completions, verification, starting
over, and replayed opens and closes, and whether or not files can be opened: a file that an I/O unit belongs to is
open in the engine. -/
theorem C63_in_flight_open_partial {c : Cfg} (hn : 0 < c.nr) {as : List Act} (hf : FairRun c init as) {s : St}
    (h : run c init as = some s) {i : Nat} (hu : 0 < s.holds i) :
    (s.files i).fd = true := by
  obtain ⟨h1, _, h3⟩ := (run_inv as _ _ (init_inv hn) hf h).file i
  cases ho : (s.files i).opn with
  | true => rw [h1, ho]
  | false => have := h3 ho; omega

/-- C63: a file is closed as soon as it can be: one that is about to be closed is in use. -/
theorem C63_closes_partial {c : Cfg} (hn : 0 < c.nr) {as : List Act} (hf : FairRun c init as) {s : St}
    (h : run c init as = some s) {i : Nat} (hc : (s.files i).closing = true) :
    0 < s.holds i := by
  obtain ⟨h1, h2, h3⟩ := (run_inv as _ _ (init_inv hn) hf h).file i
  cases ho : (s.files i).opn with
  | true =>
    obtain ⟨h4, h5⟩ := h2 ho
    rw [hc] at h4
    simp at h4; omega
  | false => have := (h3 ho).1; rw [hc] at this; cases this

/-- C63: the references of a file are those of the I/O units, and one for being open and to stay so. -/
theorem C63_references_partial {c : Cfg} (hn : 0 < c.nr) {as : List Act} (hf : FairRun c init as) {s : St}
    (h : run c init as = some s) (i : Nat) :
    (s.files i).refs = s.holds i + (if (s.files i).fd ∧ ¬ (s.files i).closing then 1 else 0) := by
  obtain ⟨h1, h2, h3⟩ := (run_inv as _ _ (init_inv hn) hf h).file i
  cases ho : (s.files i).opn with
  | true =>
    rw [(h2 ho).1, h1, ho]
    cases (s.files i).closing <;> simp
  | false =>
    obtain ⟨h4, h5, h6⟩ := h3 ho
    rw [h1, ho, h5, h6]; simp

/-- C63: nr_open_files is the number of files the engine has open. -/
theorem C63_count_partial {c : Cfg} (hn : 0 < c.nr) {as : List Act} (hf : FairRun c init as) {s : St}
    (h : run c init as = some s) :
    s.nrOpen = cnt c.nr (fun i => (s.files i).fd) := by
  have hi := run_inv as _ _ (init_inv hn) hf h
  rw [hi.cnt]
  exact cnt_congr (fun i _ => (hi.file i).1.symm)

/-- C63: no assertion about files fails, and with round robin and sequential service, all loops end: a fair run goes
on until its end. -/
theorem C63_goes_on_partial {c : Cfg} (hn : 0 < c.nr) (hs : c.service = .rr ∨ c.service = .seq) {as : List Act}
    (hf : FairRun c init as) : (run c init as).isSome := by
  have key : ∀ (as : List Act) (s : St), Inv c s s.holds → FairRun c s as → (run c s as).isSome := by
    intro as
    induction as with
    | nil => intro s _ _; rfl
    | cons a as ih =>
      intro s hi hf
      have h := step_inv hi hf.1
      simp only [run]
      cases hq : step c s a with
      | none =>
        obtain ⟨_, _, _, _, _, h'⟩ := h.2 hq
        rcases hs with hs | hs <;> simp [hs] at h'
      | some u => exact ih u (h.1 u hq) (hf.2 u hq)
  exact key as _ (init_inv hn) hf

/-- C63: with a random choice, no assertion fails either: a step that fails is one in which the choice does not end
within the given number of turns. -/
theorem C63_no_abort_partial {c : Cfg} (hn : 0 < c.nr) {as : List Act} (hf : FairRun c init as) {s : St}
    (h : run c init as = some s) {m n : Nat} {env : Nat → Env} (he : ∀ k, GoodEnv c (env k))
    (hrr : c.service = .rr ∨ c.service = .seq → c.nr ≤ n) :
    (setLoop c n env m 0 s).1 ≠ .abort :=
  (set_inv he hrr m 0 s (run_inv as _ _ (init_inv hn) hf h)).2.1

/-- C63: without verification and replay, no more files are open than openfiles says. -/
theorem C63_limit_partial {c : Cfg} (hn : 0 < c.nr) {as : List Act} (hf : FairRun c init as)
    (ha : ∀ a ∈ as, (∃ m n env, a = .io m n env) ∨ (∃ i, a = .put i) ∨ a = .closeAll) {s : St}
    (h : run c init as = some s) :
    cnt c.nr (fun i => (s.files i).fd) ≤ c.openFiles := by
  rw [← C63_count_partial hn hf h]
  have key : ∀ (as : List Act) (s t : St), Inv c s s.holds → FairRun c s as →
      (∀ a ∈ as, (∃ m n env, a = .io m n env) ∨ (∃ i, a = .put i) ∨ a = .closeAll) →
      s.nrOpen ≤ c.openFiles → run c s as = some t → t.nrOpen ≤ c.openFiles := by
    intro as
    induction as with
    | nil => intro s t _ _ _ hl h; injection h with h; subst h; exact hl
    | cons a as ih =>
      intro s t hi hf ha hl h
      simp only [run] at h
      split at h
      · cases h
      · next u hu =>
        refine ih u t ((step_inv hi hf.1).1 u hu) (hf.2 u hu) (fun b hb => ha b (by simp [hb])) ?_ h
        rcases ha a (by simp) with ⟨m, n, env, e⟩ | ⟨i, e⟩ | e
        · subst e
          have h1 := (set_inv hf.1.1 (fun h => (hf.1.2 h).1) m 0 s hi (n := n)).2.2.1 hl
          simp only [step] at hu
          split at hu
          · cases hu
          · cases hu
          · next p v hv => injection hu with hu; subst hu; rw [hv] at h1; exact h1
        · subst e
          simp only [step] at hu
          split at hu
          · injection hu with hu; subst hu; exact hl
          · have := put_nrOpen hu
            exact Nat.le_trans this hl
        · subst e
          simp only [step] at hu
          split at hu
          · next hz =>
            simp at hz
            obtain ⟨v, h1, h2, h3, _⟩ := closeFiles_inv c.nr s hi hz
            rw [h1] at hu
            injection hu with hu; subst hu
            exact Nat.le_trans h3 hl
          · injection hu with hu; subst hu; exact hl
  exact key as _ _ (init_inv hn) hf ha (Nat.zero_le _) h

/-! ### Examples and counterexamples -/

/-- Every file can be opened, and fill_io_u says `f`. -/
def easy (f : Fill) : Env := ⟨fun _ => .ok, fun _ => (0, .ok), fun _ => f⟩

theorem easy_good {c : Cfg} (hn : 0 < c.nr) (f : Fill) : GoodEnv c (easy f) :=
  ⟨by simp [easy], by simp [easy, hn]⟩

/-- Two files, both may be open, round robin. -/
def two : Cfg := ⟨2, 2, .rr, 1⟩

/-- Two I/Os; for the third, the first file has no more to do, so that it is closed with an I/O in flight, and the
second one gets it. -/
def sample : List Act :=
  [.io 3 2 (fun _ => easy .ok), .io 3 2 (fun _ => easy .ok),
   .io 3 2 (fun k => if k = 0 then easy .fail else easy .ok)]

theorem sample_fair : FairRun two init sample := by
  have h : ∀ f : Nat → Env, (∀ k, GoodEnv two (f k)) → ∀ s, Fair two s (.io 3 2 f) := by
    intro f hf s; exact ⟨hf, by simp [two]⟩
  refine ⟨h _ (fun _ => easy_good (by decide) _) _, fun t _ => ⟨h _ (fun _ => easy_good (by decide) _) _, fun u _ =>
    ⟨h _ (fun k => ?_) _, fun v _ => trivial⟩⟩⟩
  show GoodEnv two (if k = 0 then easy .fail else easy .ok)
  split <;> exact easy_good (by decide) _

/-- The first file is about to be closed, with the I/O in flight; when that has ended, it is closed. -/
example : (run two init sample).map (fun s => (s.files 0, s.files 1, s.nrOpen, s.holds 0, s.holds 1)) =
    some (⟨true, true, true, true, 1⟩, ⟨true, false, false, true, 3⟩, 2, 1, 2) ∧
    (run two init (sample ++ [.put 0])).map (fun s => (s.files 0, s.nrOpen, s.holds 0)) =
    some (⟨false, false, true, false, 0⟩, 1, 0) := by decide

/-- C63 fails if a file can be opened but a later step of td_io_open_file does not succeed: the file is closed but
stays marked as open, with a reference, and counts as open.  The next time round robin comes to it, it is chosen,
and the I/O goes to file descriptor -1. -/
theorem C63_later_counterexample :
    ∃ env s, run ⟨1, 1, .rr, 1⟩ init [.io 2 1 env] = some s ∧ s.nrOpen = 1 ∧ (s.files 0).fd = false ∧
      ∃ env' t, (∀ k, GoodEnv ⟨1, 1, .rr, 1⟩ (env' k)) ∧ run ⟨1, 1, .rr, 1⟩ s [.io 2 1 env'] = some t ∧
        t.holds 0 = 1 ∧ (t.files 0).fd = false := by
  refine ⟨fun _ => { easy .ok with opens := fun _ => .later }, _, rfl, by decide, by decide, fun _ => easy .ok, _,
    fun _ => easy_good (by decide) _, rfl, by decide, by decide⟩

/-- C63: get_next_verify opens files without regard to openfiles: with openfiles=1 and verify_backlog, two files are
open. -/
theorem C63_limit_counterexample :
    ∃ as s, FairRun ⟨2, 1, .rr, 1⟩ init as ∧ run ⟨2, 1, .rr, 1⟩ init as = some s ∧ s.nrOpen = 2 := by
  refine ⟨[.io 3 2 (fun _ => easy .ok), .verify 1 .ok], _, ?_, rfl, by decide⟩
  exact ⟨⟨fun _ => easy_good (by decide) _, by simp⟩, fun _ _ => ⟨by simp [Fair], fun _ _ => trivial⟩⟩

/-- C63: a replayed log that closes a file twice takes the file from an I/O in flight.  The log is one of open, an I/O
(the reference is taken by read_iolog_get like by get_next_verify), close, close. -/
theorem C63_close_twice_counterexample :
    ∃ s, run ⟨1, 1, .rr, 1⟩ init [.logOpen 0 .ok, .verify 0 .ok, .logClose 0, .logClose 0] = some s ∧
      s.holds 0 = 1 ∧ (s.files 0).fd = false := by
  refine ⟨_, rfl, by decide, by decide⟩

/-- C63: a replayed log that closes a file that is not open and then opens it fails an assertion: td_io_close_file
marks the file as one about to be closed, put_file does nothing, and td_io_open_file takes the file for one that is
still open. -/
theorem C63_close_open_counterexample :
    run ⟨1, 1, .rr, 1⟩ init [.logOpen 0 .ok, .logClose 0, .logClose 0, .logOpen 0 .ok] = none ∧
    (run ⟨1, 1, .rr, 1⟩ init [.logOpen 0 .ok, .logClose 0, .logClose 0]).isSome := by decide

end Fio.Files
