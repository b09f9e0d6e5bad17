import Verif.AllClients.Spec
/-!
# C105: the summary of all servers
-/

namespace Fio.AllClients

open Fio.Report (Rs upd total largest least)

/-! ## Sums -/

theorem sumDdir_keep (e : Entry) (s : Sum) (l : Nat) :
    (sumDdir e s l).members = s.members ∧ (sumDdir e s l).rs = s.rs ∧ (sumDdir e s l).mixed = s.mixed := ⟨rfl, rfl, rfl⟩

theorem upd_max (f : Nat → Nat) (k v : Nat) : (if f k < v then upd f k v else f) = upd f k (max (f k) v) := by
  funext d
  by_cases h : f k < v
  · rw [if_pos h]
    simp only [upd]
    split <;> omega
  · rw [if_neg h]
    by_cases hd : d = k
    · subst hd; simp only [upd, if_true]; omega
    · simp only [upd, if_neg hd]

theorem upd_min (f : Nat → Nat) (k v : Nat) : (if f k ≠ 0 ∧ f k > v then upd f k v else f) = upd f k (min (f k) v) := by
  funext d
  by_cases h : f k ≠ 0 ∧ f k > v
  · rw [if_pos h]
    simp only [upd]
    split <;> omega
  · rw [if_neg h]
    by_cases hd : d = k
    · subst hd; simp only [upd, if_true]; omega
    · simp only [upd, if_neg hd]

theorem sumGroup_eq (dst src : Rs) (d : Nat) (hd : d < 3) :
    (sumGroup dst src).iobytes d = (dst.iobytes d + src.iobytes d) % 2 ^ 64 ∧ (sumGroup dst src).agg d = (dst.agg d + src.agg d) % 2 ^ 64 ∧
    (sumGroup dst src).maxRun d = max (dst.maxRun d) (src.maxRun d) ∧ (sumGroup dst src).minRun d = min (dst.minRun d) (src.minRun d) ∧
    (sumGroup dst src).maxBw d = max (dst.maxBw d) (src.maxBw d) ∧ (sumGroup dst src).minBw d = min (dst.minBw d) (src.minBw d) := by
  have : d = 0 ∨ d = 1 ∨ d = 2 := by omega
  simp only [sumGroup, List.foldl_cons, List.foldl_nil, sumGroupDdir, upd_max, upd_min]
  rcases this with rfl | rfl | rfl <;> simp [upd]

theorem addEntry_eq (m : Bool) (s : Sum) (e : Entry) (hs : s.mixed = true → m = true)
    (hz : m = true → ∀ d, 0 < d → e.bytes d = 0 ∧ e.runtime d = 0) (hb : ∀ d, d < 3 → s.bytes d < 2 ^ 64) (d : Nat) (hd : d < 3) :
    (addEntry s e).bytes d = (s.bytes d + e.bytes d) % 2 ^ 64 ∧ (addEntry s e).runtime d = max (s.runtime d) (e.runtime d) := by
  have h3 : d = 0 ∨ d = 1 ∨ d = 2 := by omega
  simp only [addEntry, List.foldl_cons, List.foldl_nil, sumDdir]
  cases hm : s.mixed with
  | false =>
    simp only [upd_max, Bool.false_eq_true, if_false]
    rcases h3 with rfl | rfl | rfl <;> simp [upd]
  | true =>
    have hmt := hs hm
    obtain ⟨z1, z2⟩ := hz hmt 1 (by omega)
    obtain ⟨z3, z4⟩ := hz hmt 2 (by omega)
    have b1 := hb 1 (by omega)
    have b2 := hb 2 (by omega)
    simp only [upd_max, if_true, z1, z2, z3, z4]
    rcases h3 with rfl | rfl | rfl
    · simp [upd]
    · simp [upd, z1, z2, Nat.mod_eq_of_lt b1]
    · simp [upd, z3, z4, Nat.mod_eq_of_lt b2]

theorem largest_snoc (l : List Nat) (x : Nat) : largest (l ++ [x]) = max (largest l) x := by
  induction l with
  | nil => simp [largest]
  | cons y l ih => simp only [List.cons_append, largest, ih]; omega

theorem least_snoc (l : List Nat) (x : Nat) : least (l ++ [x]) = min (least l) x := by
  induction l with
  | nil => simp only [List.nil_append, least]; omega
  | cons y l ih => simp only [List.cons_append, least, ih]; omega

theorem total_snoc (l : List Nat) (x : Nat) : total (l ++ [x]) = total l + x := by
  induction l with
  | nil => simp [total]
  | cons y l ih => simp only [List.cons_append, total, ih]; omega

theorem addEntry_sum (m : Bool) (es : List Entry) (s : Sum) (e : Entry) (h : IsSum es s) (hs : s.mixed = true → m = true)
    (hz : m = true → ∀ d, 0 < d → e.bytes d = 0 ∧ e.runtime d = 0) : IsSum (es ++ [e]) (addEntry s e) := by
  have hb : ∀ d, d < 3 → s.bytes d < 2 ^ 64 := fun d hd => by rw [h.bytes d hd]; exact Nat.mod_lt _ (by decide)
  refine ⟨?_, ?_, ?_, ?_⟩
  · simp only [addEntry, List.foldl_cons, List.foldl_nil, List.length_append, List.length_cons, List.length_nil]
    have := h.members
    simp only [sumDdir]
    omega
  · intro d hd
    rw [(addEntry_eq m s e hs hz hb d hd).1, h.bytes d hd, List.map_append, List.map_cons, List.map_nil, total_snoc]
    omega
  · intro d hd
    rw [(addEntry_eq m s e hs hz hb d hd).2, h.runtime d hd, List.map_append, List.map_cons, List.map_nil, largest_snoc]
  · intro d hd
    obtain ⟨g1, g2, g3, g4, g5, g6⟩ := sumGroup_eq s.rs e.rs d hd
    obtain ⟨i1, i2, i3, i4, i5, i6⟩ := h.groups d hd
    have hrs : (addEntry s e).rs = sumGroup s.rs e.rs := rfl
    rw [hrs, g1, g2, g3, g4, g5, g6, i1, i2, i3, i4, i5, i6]
    simp only [List.map_append, List.map_cons, List.map_nil, total_snoc, largest_snoc, least_snoc]
    refine ⟨by omega, by omega, ?_⟩
    simp

theorem fold_sum (m : Bool) (es es0 : List Entry) (s : Sum) (h : IsSum es0 s) (hs : s.mixed = true → m = true) (ha : Alike m es) :
    IsSum (es0 ++ es) (es.foldl addEntry s) := by
  induction es generalizing es0 s with
  | nil => simpa using h
  | cons e es ih =>
    obtain ⟨h1, h2⟩ := ha e (by simp)
    have := ih (es0 ++ [e]) (addEntry s e) (addEntry_sum m es0 s e h hs h2) (fun hx => by rw [← h1]; exact hx)
      (fun x hx => ha x (List.mem_cons_of_mem _ hx))
    simpa using this

theorem init_sum : IsSum [] Sum.init :=
  ⟨rfl, fun _ _ => rfl, fun _ _ => rfl, fun _ _ => ⟨rfl, rfl, rfl, rfl, rfl, rfl⟩⟩

/-! ## When it is shown -/

theorem run_starts (a : List Ev) (st : St) (h : ∀ ev ∈ a, ∃ c n, ev = .start c n) : a.foldl step st = { st with expect := st.expect + promised a } := by
  induction a generalizing st with
  | nil => simp [promised]
  | cons ev a ih =>
    obtain ⟨c, n, rfl⟩ := h ev (by simp)
    rw [List.foldl_cons, ih _ (fun ev hev => h ev (List.mem_cons_of_mem _ hev))]
    simp only [step, promised]
    congr 1
    omega

/-- The summary for the entries still to come. -/
def last (s : Sum) : List Entry → List Sum
  | [] => []
  | e :: es => [(e :: es).foldl addEntry s]

theorem run_rest (b : List Ev) (st : St) (hn : ∀ ev ∈ b, ∀ c n, ev ≠ .start c n)
    (hg : ∀ pre c post, b = pre ++ .gone c :: post → st.did c = true ∨ ∃ e, Ev.ts c e ∈ pre) (h2 : 2 ≤ st.expect)
    (hc : (st.nr + (entries b).length : Int) = st.expect) :
    (b.foldl step st).shown = st.shown ++ last st.sum (entries b) := by
  induction b generalizing st with
  | nil => simp [entries, last]
  | cons ev b ih =>
    rw [List.foldl_cons]
    cases ev with
    | start c n => exact absurd rfl (hn _ (by simp) c n)
    | gone c =>
      have hd : st.did c = true := by
        rcases hg [] c b rfl with h | ⟨e, h⟩
        · exact h
        · cases h
      have e1 : step st (.gone c) = st := by simp [step, hd]
      rw [e1]
      simp only [entries] at hc ⊢
      apply ih st (fun ev hev => hn ev (List.mem_cons_of_mem _ hev)) _ h2 hc
      intro pre c' post hb
      rcases hg (.gone c :: pre) c' post (by rw [hb]; rfl) with h | ⟨e, h⟩
      · exact Or.inl h
      · rcases List.mem_cons.1 h with h | h
        · cases h
        · exact Or.inr ⟨e, h⟩
    | ts c e =>
      have hx : ¬ st.expect ≤ 1 := by omega
      have e1 : step st (.ts c e) =
          { did := fun x => if x = c then true else st.did x, expect := st.expect, nr := st.nr + 1, sum := addEntry st.sum e,
            shown := if (st.nr + 1 : Int) = st.expect then st.shown ++ [addEntry st.sum e] else st.shown } := by
        simp [step, hx]
      rw [e1]
      simp only [entries, List.length_cons] at hc ⊢
      refine (ih _ (fun ev hev => hn ev (List.mem_cons_of_mem _ hev)) ?_ ?_ ?_).trans ?_
      · intro pre c' post hb
        rcases hg (.ts c e :: pre) c' post (by rw [hb]; rfl) with h | ⟨e', h⟩
        · exact Or.inl (by simp only; split <;> simp [h])
        · rcases List.mem_cons.1 h with h | h
          · cases h; exact Or.inl (by simp)
          · exact Or.inr ⟨e', h⟩
      · exact h2
      · push_cast at hc ⊢; omega
      · cases hl : entries b with
        | nil =>
          rw [hl] at hc
          simp only [last, List.append_nil, List.foldl_cons, List.foldl_nil]
          rw [if_pos (by simpa using hc)]
        | cons x r =>
          rw [hl] at hc
          simp only [last, List.foldl_cons]
          rw [if_neg (by simp only [List.length_cons] at hc; omega)]

/-- All servers start before the first entry comes, none leaves without having sent one, and they send as many as they said: then, if there
are at least two, the summary is shown once and is the sum of all. -/
theorem C105_summary_partial (a b : List Ev) (h : Calm a b) (m : Bool) (ha : Alike m (entries b)) (h2 : 2 ≤ promised a)
    (hp : (entries b).length = promised a) : ∃ s, (run (a ++ b)).shown = [s] ∧ IsSum (entries b) s := by
  refine ⟨(entries b).foldl addEntry Sum.init, ?_, by simpa using fold_sum m (entries b) [] Sum.init init_sum (by simp [Sum.init]) ha⟩
  rw [run, List.foldl_append, run_starts a _ h.starts,
    run_rest b _ h.nostart (fun pre c post hb => Or.inr (h.gone pre c post hb)) (by simp only [St.init]; omega)
      (by simp only [St.init]; push_cast; omega)]
  have : entries b ≠ [] := by
    intro he
    rw [he] at hp
    simp at hp
    omega
  cases hl : entries b with
  | nil => exact absurd hl this
  | cons x r => rfl

theorem run_few (b : List Ev) (st : St) (hn : ∀ ev ∈ b, ∀ c n, ev ≠ .start c n) (h1 : st.expect ≤ 1) : (b.foldl step st).shown = st.shown := by
  induction b generalizing st with
  | nil => rfl
  | cons ev b ih =>
    rw [List.foldl_cons]
    cases ev with
    | start c n => exact absurd rfl (hn _ (by simp) c n)
    | gone c =>
      rw [ih _ (fun ev hev => hn ev (List.mem_cons_of_mem _ hev)) (by simp only [step]; split <;> (try simp only) <;> omega)]
      simp only [step]
      split <;> rfl
    | ts c e =>
      have e1 : step st (.ts c e) = { st with did := fun x => if x = c then true else st.did x } := by simp [step, h1]
      rw [e1]
      exact ih _ (fun ev hev => hn ev (List.mem_cons_of_mem _ hev)) h1

/-- For one entry there is no summary. -/
theorem C105_single (a b : List Ev) (ha : ∀ ev ∈ a, ∃ c n, ev = .start c n) (hb : ∀ ev ∈ b, ∀ c n, ev ≠ .start c n) (h1 : promised a ≤ 1) :
    (run (a ++ b)).shown = [] := by
  rw [run, List.foldl_append, run_starts a _ ha, run_few b _ hb (by simp only [St.init]; omega)]
  rfl

/-! ## What the servers announce -/

theorem clones (k : Nat) (g : Bool) (n : Nat) :
    (List.replicate k ()).foldl (fun n _ => if g = false then n + 1 else n) n = if g then n else n + k := by
  induction k generalizing n with
  | zero => simp
  | succ k ih => rw [List.replicate_succ, List.foldl_cons, ih]; cases g <;> simp <;> omega

/-- Entries of a section: one if it has `group_reporting`, one for each job otherwise. -/
def due (s : Section) : Nat := if s.grp then 1 else s.numjobs

theorem announced_eq (ss : List Section) (h : ∀ s ∈ ss, 1 ≤ s.numjobs) : announced ss = total (ss.map due) := by
  have : ∀ (n : Nat), ss.foldl (fun n s => (List.replicate (s.numjobs - 1) ()).foldl (fun n _ => if s.grp = false then n + 1 else n) (n + 1)) n =
      n + total (ss.map due) := by
    induction ss with
    | nil => simp [total]
    | cons s ss ih =>
      intro n
      rw [List.foldl_cons, ih (fun x hx => h x (List.mem_cons_of_mem _ hx)), clones]
      have := h s (by simp)
      simp only [List.map_cons, total, due]
      split <;> omega
  simpa [announced] using this 0

theorem count_same (k : Nat) (td : Report.Td) (hg : td.grp = true) (n : Nat) : (List.replicate k td).foldl Report.countStep (n, some td.gid) = (n, some td.gid) := by
  induction k with
  | zero => rfl
  | succ k ih => rw [List.replicate_succ, List.foldl_cons]; simpa [Report.countStep, hg] using ih

theorem count_each (k : Nat) (td : Report.Td) (hg : td.grp = false) (n : Nat) (l : Option Nat) :
    (List.replicate k td).foldl Report.countStep (n, l) = (n + k, l) := by
  induction k generalizing n with
  | zero => rfl
  | succ k ih =>
    rw [List.replicate_succ, List.foldl_cons]
    have : Report.countStep (n, l) td = (n + 1, l) := by simp [Report.countStep, hg]
    rw [this, ih]
    congr 1
    omega

theorem count_sections (ss : List Section) (h : ∀ s ∈ ss, 1 ≤ s.numjobs) (hd : ss.Pairwise fun a b => a.gid ≠ b.gid) (n : Nat) (l : Option Nat)
    (hl : ∀ s ∈ ss, l ≠ some s.gid) : ((jobs ss).foldl Report.countStep (n, l)).1 = n + total (ss.map due) := by
  induction ss generalizing n l with
  | nil => simp [jobs, total]
  | cons s ss ih =>
    rw [List.pairwise_cons] at hd
    have h1 := h s (by simp)
    obtain ⟨k, hk⟩ : ∃ k, s.numjobs = k + 1 := ⟨s.numjobs - 1, by omega⟩
    simp only [jobs, List.flatMap_cons, List.foldl_append]
    simp only [List.map_cons, total, due]
    cases hg : s.grp with
    | false =>
      rw [count_each _ _ rfl]
      have := ih (fun x hx => h x (List.mem_cons_of_mem _ hx)) hd.2 (n + s.numjobs) l (fun x hx => hl x (List.mem_cons_of_mem _ hx))
      simp only [jobs] at this
      rw [this]
      simp
      omega
    | true =>
      rw [hk, List.replicate_succ, List.foldl_cons]
      have e1 : Report.countStep (n, l) { stats := true, grp := true, gid := s.gid, mixed := false, bytes := fun _ => 0, runtime := fun _ => 0 } =
          (n + 1, some s.gid) := by
        simp [Report.countStep, hl s (by simp)]
      rw [e1]
      have e2 := count_same k { stats := true, grp := true, gid := s.gid, mixed := false, bytes := fun _ => 0, runtime := fun _ => 0 } rfl (n + 1)
      simp only at e2
      rw [e2]
      have := ih (fun x hx => h x (List.mem_cons_of_mem _ hx)) hd.2 (n + 1) (some s.gid)
        (fun x hx => by simpa using hd.1 x hx)
      simp only [jobs] at this
      rw [this]
      simp
      omega

/-- A server announces as many entries as its report has, if every section of the job file is a group of its own. -/
theorem C105_announced_partial (ss : List Section) (h : ∀ s ∈ ss, 1 ≤ s.numjobs) (hd : ss.Pairwise fun a b => a.gid ≠ b.gid) :
    announced ss = Report.nrTs (jobs ss) := by
  rw [announced_eq ss h, Report.nrTs, count_sections ss h hd 0 none (by simp)]
  omega

/-! ## Examples and counterexamples -/

/-- An entry with so many bytes read in a second, the only one of its group. -/
def entry (n : Nat) : Entry :=
  { bytes := fun d => if d = 0 then n else 0, runtime := fun d => if d = 0 then 1000 else 0, mixed := false,
    rs := { maxRun := fun d => if d = 0 then 1000 else 0, minRun := fun _ => 1000, maxBw := fun _ => n, minBw := fun _ => n,
            iobytes := fun d => if d = 0 then n else 0, agg := fun d => if d = 0 then n else 0 } }

/-- Bytes read, entries, bytes of groups in each summary. -/
def seen (st : St) : List (Nat × Nat × Nat) := st.shown.map fun s => (s.bytes 0, s.members, s.rs.iobytes 0)

def exA : List Ev := [.start 0 1, .start 1 2]

def exB : List Ev := [.ts 0 (entry 10), .gone 0, .ts 1 (entry 20), .ts 1 (entry 30), .gone 1]

/-- The hypotheses are met. -/
theorem ex_calm : Calm exA exB ∧ Alike false (entries exB) ∧ 2 ≤ promised exA ∧ (entries exB).length = promised exA := by
  refine ⟨⟨by simp [exA], by simp [exB], ?_⟩, ?_, by decide, rfl⟩
  · intro pre c post h
    match pre with
    | [] => simp [exB] at h
    | [a] =>
      simp only [exB, List.cons_append, List.nil_append, List.cons.injEq] at h
      obtain ⟨rfl, h, -⟩ := h
      cases h
      exact ⟨_, by simp; rfl⟩
    | [a, b] => simp [exB] at h
    | [a, b, x] => simp [exB] at h
    | [a, b, x, y] =>
      simp only [exB, List.cons_append, List.nil_append, List.cons.injEq] at h
      obtain ⟨rfl, rfl, rfl, rfl, h, -⟩ := h
      cases h
      exact ⟨entry 20, by simp⟩
    | a :: b :: x :: y :: z :: r => simp [exB] at h
  · intro e he
    simp only [exB, entries, List.mem_cons, List.not_mem_nil, or_false] at he
    rcases he with rfl | rfl | rfl <;> exact ⟨rfl, by simp⟩

theorem C105_example : seen (run (exA ++ exB)) = [(60, 3, 60)] := by decide +kernel

example : announced [⟨3, true, 0⟩, ⟨2, false, 1⟩] = 3 ∧ Report.nrTs (jobs [⟨3, true, 0⟩, ⟨2, false, 1⟩]) = 3 := by decide +kernel

/-- A server leaves before it starts (its job file was refused): of the other three only two are in the summary. -/
theorem C105_refused_counterexample :
    seen (run [.start 0 1, .start 1 1, .start 2 1, .gone 3, .ts 0 (entry 10), .ts 1 (entry 20), .ts 2 (entry 30)]) = [(30, 2, 30)] := by
  decide +kernel

/-- ... and of two there is none. -/
theorem C105_refused_none_counterexample :
    seen (run [.start 0 1, .start 1 1, .gone 3, .ts 0 (entry 10), .ts 1 (entry 20)]) = [] := by decide +kernel

/-- A server is lost with its two entries: the summary of the other two is not shown. -/
theorem C105_lost_counterexample :
    seen (run [.start 0 1, .start 1 1, .start 2 2, .gone 2, .ts 0 (entry 10), .ts 1 (entry 20)]) = [] := by decide +kernel

/-- ... nor is it if the server with one entry is lost behind the last entry of the others. -/
theorem C105_late_counterexample :
    seen (run [.start 0 1, .start 1 1, .start 2 1, .ts 0 (entry 10), .ts 1 (entry 20), .gone 2]) = [] := by decide +kernel

/-- A server starts when another has finished: two summaries, the first without it. -/
theorem C105_start_counterexample :
    seen (run [.start 0 2, .ts 0 (entry 10), .ts 0 (entry 20), .start 1 1, .ts 1 (entry 30)]) = [(30, 2, 30), (60, 3, 60)] := by decide +kernel

/-- Two sections with `group_reporting` in a group: the server announces two entries and its report has one; with two such servers the
summary is not shown. -/
theorem C105_announced_counterexample :
    let ss : List Section := [⟨1, true, 0⟩, ⟨1, true, 0⟩]
    announced ss = 2 ∧ Report.nrTs (jobs ss) = 1 ∧
    seen (run [.start 0 (announced ss), .start 1 (announced ss), .ts 0 (entry 10), .ts 1 (entry 20), .gone 0, .gone 1]) = [] := by
  decide +kernel

/-- What a server sends for a line of its report. -/
def sent (x : Report.Ts × Rs) : Entry := { bytes := x.1.bytes, runtime := x.1.runtime, mixed := x.1.mixed, rs := x.2 }

/-- A job with so many bytes read in a second, in the first group. -/
def rjob (n : Nat) : Report.Td :=
  { stats := true, grp := false, gid := 0, mixed := false, bytes := fun d => if d = 0 then n else 0, runtime := fun d => if d = 0 then 1000 else 0 }

/-- Two entries of one group: each comes with the sums of the group, and the summary of the groups has them twice. -/
theorem C105_groups_counterexample :
    ((Report.report 0 [rjob 10, rjob 20]).map fun r => seen (run ([.start 0 2] ++ r.map fun x => .ts 0 (sent x)))) = some [(30, 2, 60)] := by
  decide +kernel

/-- An entry without `unified_rw_reporting` before one with it: the summary is called mixed and its first direction has only part of the
bytes. -/
theorem C105_mixed_counterexample :
    let w : Entry := { entry 0 with bytes := fun d => if d = 1 then 50 else 0 }
    (run [.start 0 1, .start 1 1, .ts 0 w, .ts 1 { entry 10 with mixed := true }]).shown.map (fun s => (s.mixed, s.bytes 0, s.bytes 1)) =
      [(true, 10, 50)] := by decide +kernel

end Fio.AllClients
