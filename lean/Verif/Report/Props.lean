import Verif.Report.Lemmas
/-!
# C103: the report counts every job once and where it belongs
-/

namespace Fio.Report

/-- Nothing is written outside the entries and the groups, whichever jobs are reported together. -/
theorem C103_room (groups : Nat) (tds : List Td) (h : Ordered groups tds) :
    ∃ tss rss, groupsOf groups tds = some (tss, rss) ∧ tss.length = nrTs tds ∧ rss.length = groups + 1 := by
  have hr := room0 tds h.1
  have hs := sameGid0 tds
  have ho := once tds ([], none)
  rw [groupsOf, fill_eq tds hr]
  revert hr hs ho
  generalize tds.foldl gstep ([], none) = s
  intro hr hs ho
  have hgid : ∀ ts ∈ (conc (nrTs tds) s).tss, ∀ g, ts.gid = some g → g < (List.replicate (groups + 1) Rs.init).length := by
    intro ts hts g hg
    rw [List.length_replicate]
    simp only [conc, List.mem_append, List.mem_map, List.mem_reverse, List.mem_replicate] at hts
    rcases hts with ⟨e, he, rfl⟩ | ⟨-, rfl⟩
    · obtain ⟨td, e', rfl⟩ := List.exists_cons_of_ne_nil (hs e he).1
      rw [mk_gid, Option.some.injEq] at hg
      have : td ∈ tds.filter (·.stats) := by
        rw [show tds.filter (·.stats) = s.1.reverse.flatten by simpa using ho.symm]
        exact List.mem_flatten.2 ⟨_, List.mem_reverse.2 he, by simp⟩
      have := h.2 td (List.mem_filter.1 this).1
      omega
    · cases hg
  obtain ⟨rss, a, b, -⟩ := rs_fold _ _ hgid
  refine ⟨_, _, by simp only [Option.bind_eq_bind, Option.bind_some, a]; rfl, ?_, ?_⟩
  · simp only [conc, List.length_append, List.length_map, List.length_reverse, List.length_replicate]; omega
  · simp [b]

/-- Every job with `stats` is counted in one entry, once and in the order of the jobs; jobs in an entry are of one group, that of the
entry. -/
theorem C103_once (groups : Nat) (tds : List Td) (h : Ordered groups tds) :
    ∃ tss rss, groupsOf groups tds = some (tss, rss) ∧ (tss.map (·.members)).flatten = tds.filter (·.stats) ∧
      ∀ ts ∈ tss, ∀ td ∈ ts.members, ts.gid = some td.gid := by
  obtain ⟨tss, rss, e, -, -⟩ := C103_room groups tds h
  refine ⟨tss, rss, e, ?_⟩
  have hr := room0 tds h.1
  have hs := sameGid0 tds
  have ho := once tds ([], none)
  rw [groupsOf, fill_eq tds hr] at e
  revert hr hs ho e
  generalize tds.foldl gstep ([], none) = s
  intro e hr hs ho
  have htss : tss = (conc (nrTs tds) s).tss := by
    simp only [Option.bind_eq_bind, Option.bind_some] at e
    cases hf : (conc (nrTs tds) s).tss.foldlM rsStep (List.replicate (groups + 1) Rs.init) with
    | none => rw [hf] at e; cases e
    | some r => rw [hf] at e; simp only [Option.bind_some, Option.some.injEq, Prod.mk.injEq] at e; exact e.1.symm
  subst htss
  constructor
  · have hi : ∀ n, ((List.replicate n Ts.init).map (·.members)).flatten = [] := by
      intro n; simp [Ts.init]
    simp only [conc, List.map_append, List.flatten_append, hi, List.append_nil, List.map_map]
    rw [show ((fun x : Ts => x.members) ∘ mk) = id from funext mk_members]
    simpa using ho
  · intro ts hts td htd
    simp only [conc, List.mem_append, List.mem_map, List.mem_reverse, List.mem_replicate] at hts
    rcases hts with ⟨e, he, rfl⟩ | ⟨-, rfl⟩
    · rw [mk_members] at htd
      obtain ⟨t, e', rfl⟩ := List.exists_cons_of_ne_nil (hs e he).1
      rw [mk_gid, (hs _ he).2 t (by simp) td htd]
    · cases htd

theorem mapM_some {α β : Type} (f : α → Option β) (l : List α) (h : ∀ a ∈ l, ∃ b, f a = some b) : ∃ r, l.mapM f = some r := by
  induction l with
  | nil => exact ⟨[], rfl⟩
  | cons a l ih =>
    obtain ⟨b, hb⟩ := h a (by simp)
    obtain ⟨r, hr⟩ := ih (fun x hx => h x (List.mem_cons_of_mem _ hx))
    exact ⟨b :: r, by simp [List.mapM_cons, hb, hr]⟩

theorem mapM_fst (rss : List Rs) (l : List Ts) (r : List (Ts × Rs)) (h : l.mapM (show1 rss) = some r) : r.map (·.1) = l := by
  induction l generalizing r with
  | nil => simp only [List.mapM_nil, Option.pure_def, Option.some.injEq] at h; subst h; rfl
  | cons a l ih =>
    rw [List.mapM_cons] at h
    cases h1 : show1 rss a with
    | none => rw [h1] at h; cases h
    | some b =>
      rw [h1] at h
      cases h2 : l.mapM (show1 rss) with
      | none => rw [h2] at h; cases h
      | some r' =>
        rw [h2] at h
        simp only [Option.bind_eq_bind, Option.bind_some, Option.pure_def, Option.some.injEq] at h
        subst h
        rw [List.map_cons, ih r' h2]
        unfold show1 at h1
        split at h1
        · cases h1
        · rename_i g hg
          cases hx : rss[g]? with
          | none => rw [hx] at h1; cases h1
          | some x => rw [hx, Option.map_some, Option.some.injEq] at h1; rw [← h1]

/-- Jobs of which a group has `group_reporting` or has not, and that have `stats` if not: the report is made, and its entries are how the jobs
are to be reported. -/
theorem C103_grouped_partial (groups : Nat) (tds : List Td) (h : Ordered groups tds) (ht : Tidy tds) :
    ∃ r, report groups tds = some r ∧ Grouped tds (r.map (·.1.members)) := by
  obtain ⟨tss, rss, e, hlen, hrl⟩ := C103_room groups tds h
  obtain ⟨tss', rss', e', honce, hgid⟩ := C103_once groups tds h
  rw [e, Option.some.injEq, Prod.mk.injEq] at e'
  obtain ⟨rfl, rfl⟩ := e'
  have hr := room0 tds h.1
  have hs := sameGid0 tds
  have hi := tinv0 tds ht h.1
  have hlen' : (tds.foldl gstep ([], none)).1.length = nrTs tds := hi.len
  have htss : tss = (tds.foldl gstep ([], none)).1.reverse.map mk := by
    rw [groupsOf, fill_eq tds hr] at e
    simp only [Option.bind_eq_bind, Option.bind_some] at e
    cases hf : (conc (nrTs tds) (tds.foldl gstep ([], none))).tss.foldlM rsStep (List.replicate (groups + 1) Rs.init) with
    | none => rw [hf] at e; cases e
    | some r =>
      rw [hf] at e
      simp only [Option.bind_some, Option.some.injEq, Prod.mk.injEq] at e
      rw [← e.1]
      simp [conc, hlen']
  have hmem : tss.map (·.members) = (tds.foldl gstep ([], none)).1.reverse := by
    rw [htss, List.map_map, show ((fun x : Ts => x.members) ∘ mk) = id from funext mk_members, List.map_id]
  obtain ⟨r, hr'⟩ : ∃ r, tss.mapM (show1 rss) = some r := by
    apply mapM_some
    intro ts hts
    have hts' := hts
    rw [htss, List.mem_map] at hts'
    obtain ⟨e1, he1, rfl⟩ := hts'
    rw [List.mem_reverse] at he1
    obtain ⟨td, e2, rfl⟩ := List.exists_cons_of_ne_nil (hs e1 he1).1
    have hin : td ∈ tds := by
      have : td ∈ tds.filter (·.stats) := by
        rw [← honce, hmem]
        exact List.mem_flatten.2 ⟨_, List.mem_reverse.2 he1, by simp⟩
      exact (List.mem_filter.1 this).1
    have hlt : td.gid < rss.length := by have := h.2 td hin; omega
    exact ⟨_, by simp only [show1, mk_gid, List.getElem?_eq_getElem hlt, Option.map_some]; rfl⟩
  refine ⟨r, by simp only [report, e, Option.bind_eq_bind, Option.bind_some, hr'], ?_⟩
  have hm : r.map (·.1.members) = (tds.foldl gstep ([], none)).1.reverse := by
    rw [← hmem, ← mapM_fst rss tss r hr', List.map_map]; rfl
  rw [hm]
  refine ⟨by rw [← hmem]; exact honce, fun e he => (hs e (List.mem_reverse.1 he)).1, fun e he => hi.together e (List.mem_reverse.1 he), ?_⟩
  rw [List.pairwise_reverse]
  exact hi.apart

/-- What is shown for an entry without `unified_rw_reporting=mixed`: the bytes of its jobs added up, and the longest of their runtimes. -/
theorem C103_entry (groups : Nat) (tds : List Td) (h : Ordered groups tds) (tss : List Ts) (rss : List Rs)
    (e : groupsOf groups tds = some (tss, rss)) (ts : Ts) (hts : ts ∈ tss) (d : Nat) (hd : d < 3) (hm : ∀ td ∈ ts.members, td.mixed = false) :
    ts.bytes d = total (ts.members.map (·.bytes d)) % 2 ^ 64 ∧ ts.runtime d = largest (ts.members.map (·.runtime d)) := by
  have hr := room0 tds h.1
  have hs := sameGid0 tds
  rw [groupsOf, fill_eq tds hr] at e
  simp only [Option.bind_eq_bind, Option.bind_some] at e
  cases hf : (conc (nrTs tds) (tds.foldl gstep ([], none))).tss.foldlM rsStep (List.replicate (groups + 1) Rs.init) with
  | none => rw [hf] at e; cases e
  | some r =>
    rw [hf] at e
    simp only [Option.bind_some, Option.some.injEq, Prod.mk.injEq] at e
    rw [← e.1] at hts
    simp only [conc, List.mem_append, List.mem_map, List.mem_reverse, List.mem_replicate] at hts
    rcases hts with ⟨e1, he1, rfl⟩ | ⟨-, rfl⟩
    · rw [mk_members] at hm ⊢
      exact (mk_plain e1 (hs e1 he1).1 hm d hd).2
    · exact ⟨rfl, rfl⟩

/-- With it, all bytes are shown as those of the first direction. -/
theorem C103_mixed (groups : Nat) (tds : List Td) (h : Ordered groups tds) (tss : List Ts) (rss : List Rs)
    (e : groupsOf groups tds = some (tss, rss)) (ts : Ts) (hts : ts ∈ tss) (hm : ∀ td ∈ ts.members, td.mixed = true) :
    ts.bytes 0 = total (ts.members.map fun td => td.bytes 0 + td.bytes 1 + td.bytes 2) % 2 ^ 64 := by
  have hr := room0 tds h.1
  have hs := sameGid0 tds
  rw [groupsOf, fill_eq tds hr] at e
  simp only [Option.bind_eq_bind, Option.bind_some] at e
  cases hf : (conc (nrTs tds) (tds.foldl gstep ([], none))).tss.foldlM rsStep (List.replicate (groups + 1) Rs.init) with
  | none => rw [hf] at e; cases e
  | some r =>
    rw [hf] at e
    simp only [Option.bind_some, Option.some.injEq, Prod.mk.injEq] at e
    rw [← e.1] at hts
    simp only [conc, List.mem_append, List.mem_map, List.mem_reverse, List.mem_replicate] at hts
    rcases hts with ⟨e1, he1, rfl⟩ | ⟨-, rfl⟩
    · rw [mk_members] at hm ⊢
      obtain ⟨td, e2, rfl⟩ := List.exists_cons_of_ne_nil (hs e1 he1).1
      exact mk_mixed td e2 (hm td (by simp))
    · rfl

/-- The lines of the groups: the bytes of all jobs of the group with `stats`, the longest runtime and the bandwidth of the two. -/
theorem C103_groups (groups : Nat) (tds : List Td) (h : Ordered groups tds) (tss : List Ts) (rss : List Rs)
    (e : groupsOf groups tds = some (tss, rss)) (hm : ∀ td ∈ tds, td.mixed = false) (d : Nat) (hd : d < 3)
    (hz : ∀ td ∈ tds, td.runtime d = 0 → td.bytes d = 0) (g : Nat) (hg : g ≤ groups) :
    ∃ rs, rss[g]? = some rs ∧
      rs.iobytes d = total ((tds.filter fun td => td.stats ∧ td.gid = g).map (·.bytes d)) % 2 ^ 64 ∧
      rs.maxRun d = largest ((tds.filter fun td => td.stats ∧ td.gid = g).map (·.runtime d)) ∧
      (rs.maxRun d ≠ 0 → rs.agg d = rs.iobytes d * 1000 % 2 ^ 64 / rs.maxRun d) := by
  have hr := room0 tds h.1
  have hs := sameGid0 tds
  have ho := once tds ([], none)
  rw [groupsOf, fill_eq tds hr] at e
  revert hr hs ho e
  generalize tds.foldl gstep ([], none) = s
  intro e hr hs ho
  simp only [List.reverse_nil, List.flatten_nil, List.nil_append] at ho
  have hin : ∀ e ∈ s.1, ∀ td ∈ e, td ∈ tds := by
    intro e he td htd
    have : td ∈ tds.filter (·.stats) := by
      rw [← ho]; exact List.mem_flatten.2 ⟨_, List.mem_reverse.2 he, htd⟩
    exact (List.mem_filter.1 this).1
  have hgid : ∀ ts ∈ (conc (nrTs tds) s).tss, ∀ g, ts.gid = some g → g < (List.replicate (groups + 1) Rs.init).length := by
    intro ts hts g hg
    rw [List.length_replicate]
    simp only [conc, List.mem_append, List.mem_map, List.mem_reverse, List.mem_replicate] at hts
    rcases hts with ⟨e, he, rfl⟩ | ⟨-, rfl⟩
    · obtain ⟨td, e', rfl⟩ := List.exists_cons_of_ne_nil (hs e he).1
      rw [mk_gid, Option.some.injEq] at hg
      have := h.2 td (hin _ he td (by simp))
      omega
    · cases hg
  obtain ⟨r, a, b, c⟩ := rs_fold _ _ hgid
  simp only [Option.bind_eq_bind, Option.bind_some, a, Option.some.injEq, Prod.mk.injEq] at e
  have hglt : g < (List.replicate (groups + 1) Rs.init).length := by rw [List.length_replicate]; omega
  have hc := c g hglt
  rw [List.getElem?_replicate, if_pos (by omega), Option.map_some] at hc
  have hfil : (conc (nrTs tds) s).tss.filter (fun ts => ts.gid = some g) = (s.1.reverse.map mk).filter (fun ts => ts.gid = some g) := by
    simp [conc, List.filter_append, Ts.init]
  rw [hfil] at hc
  have hes : ∀ e ∈ s.1.reverse, e ≠ [] ∧ ∀ a ∈ e, ∀ b ∈ e, a.gid = b.gid := fun e he => hs e (List.mem_reverse.1 he)
  obtain ⟨s1, s2⟩ := sum_entries s.1.reverse hes g d hd (fun e he td htd => hm td (hin e (List.mem_reverse.1 he) td htd))
  have hz' : ∀ ts ∈ (s.1.reverse.map mk).filter (fun ts => ts.gid = some g), ts.runtime d = 0 → ts.bytes d = 0 := by
    intro ts hts h0
    obtain ⟨e1, he1, rfl⟩ := List.mem_map.1 (List.mem_filter.1 hts).1
    have he1' := List.mem_reverse.1 he1
    obtain ⟨-, p1, p2⟩ := mk_plain e1 (hs e1 he1').1 (fun td htd => hm td (hin e1 he1' td htd)) d hd
    rw [p2] at h0
    rw [p1, total_zero]
    intro x hx
    obtain ⟨td, htd, rfl⟩ := List.mem_map.1 hx
    apply hz td (hin e1 he1' td htd)
    have := le_largest (e1.map (·.runtime d)) (td.runtime d) (List.mem_map.2 ⟨td, htd, rfl⟩)
    omega
  obtain ⟨f1, f2⟩ := rsFold_eq _ Rs.init d hd hz' (by simp [Rs.init])
  have hfl : s.1.reverse.flatten.filter (fun td => td.gid = g) = tds.filter (fun td => td.stats ∧ td.gid = g) := by
    rw [ho, List.filter_filter]
    congr 1
    funext td
    simp [Bool.and_comm]
  rw [hfl] at s1 s2
  refine ⟨rsAgg _, by rw [← e.2, List.getElem?_map, hc]; rfl, ?_, ?_, ?_⟩
  · simp only [rsAgg]
    rw [f1, ← s1]; simp [Rs.init]
  · simp only [rsAgg]
    rw [f2, ← s2]; simp [Rs.init]
  · intro hne
    simp only [rsAgg] at hne ⊢
    rw [if_pos ⟨hd, hne⟩]

/-- The extremes of the groups: shortest runtime, smallest and largest bandwidth of the entries of the group that ran in that direction. -/
theorem C103_extremes (groups : Nat) (tds : List Td) (tss : List Ts) (rss : List Rs) (e : groupsOf groups tds = some (tss, rss)) (d : Nat)
    (hd : d < 3) (g : Nat) (hg : g ≤ groups) :
    ∃ rs, rss[g]? = some rs ∧ rs.minRun d = least ((tss.filter fun ts => ts.gid = some g ∧ ts.runtime d ≠ 0).map (·.runtime d)) ∧
      rs.minBw d = least ((tss.filter fun ts => ts.gid = some g ∧ ts.runtime d ≠ 0).map fun ts => ts.bytes d * 1000 % 2 ^ 64 / ts.runtime d) ∧
      rs.maxBw d = largest ((tss.filter fun ts => ts.gid = some g ∧ ts.runtime d ≠ 0).map fun ts => ts.bytes d * 1000 % 2 ^ 64 / ts.runtime d) := by
  have hle : ∀ l : List Nat, least l ≤ 2 ^ 64 - 1 := by
    intro l
    induction l with
    | nil => simp [least]
    | cons x l ih => simp only [least]; omega
  unfold groupsOf at e
  cases hf : fill tds with
  | none => rw [hf] at e; cases e
  | some f =>
    rw [hf] at e
    simp only [Option.bind_eq_bind, Option.bind_some] at e
    cases hr : f.tss.foldlM rsStep (List.replicate (groups + 1) Rs.init) with
    | none => rw [hr] at e; cases e
    | some r =>
      rw [hr] at e
      simp only [Option.bind_some, Option.some.injEq, Prod.mk.injEq] at e
      obtain ⟨rfl, rfl⟩ := e
      obtain ⟨r', a, -, c⟩ := rs_fold _ _ (rs_within _ _ _ hr)
      rw [hr, Option.some.injEq] at a
      subst a
      have hc := c g (by rw [List.length_replicate]; omega)
      rw [List.getElem?_replicate, if_pos (by omega), Option.map_some] at hc
      obtain ⟨i1, i2, i3⟩ := rsFold_ext (f.tss.filter fun ts => ts.gid = some g) Rs.init d hd (by simp [Rs.init]) (by simp [Rs.init])
        (by simp [Rs.init])
      have hfil : (f.tss.filter fun ts => ts.gid = some g).filter (fun ts => ts.runtime d ≠ 0) =
          f.tss.filter (fun ts => ts.gid = some g ∧ ts.runtime d ≠ 0) := by
        rw [List.filter_filter]
        congr 1
        funext ts
        simp [Bool.and_comm]
      rw [hfil] at i1 i2 i3
      refine ⟨rsAgg _, by rw [List.getElem?_map, hc]; rfl, ?_, ?_, ?_⟩
      · simp only [rsAgg]
        rw [i1]; exact Nat.min_eq_right (hle _)
      · simp only [rsAgg]
        rw [i2]; exact Nat.min_eq_right (hle _)
      · simp only [rsAgg]
        rw [i3]; exact Nat.max_eq_right (Nat.zero_le _)

/-! ## Examples and counterexamples -/

/-- A job with so many bytes read in a second. -/
def job (stats grp : Bool) (gid n : Nat) : Td :=
  { stats := stats, grp := grp, gid := gid, mixed := false, bytes := fun d => if d = 0 then n else 0, runtime := fun d => if d = 0 then 1000 else 0 }

def exTds : List Td := [job true true 0 10, job false true 0 5, job true true 0 20, job true false 1 30, job true false 1 40, job true true 2 50]

/-- The hypotheses are met. -/
example : Ordered 2 exTds ∧ Tidy exTds ∧ (∀ td ∈ exTds, td.mixed = false) ∧ ∀ td ∈ exTds, ∀ d, td.runtime d = 0 → td.bytes d = 0 := by
  refine ⟨⟨by simp [exTds, job], by simp [exTds, job]⟩, ⟨by simp [exTds, job], by simp [exTds, job]⟩, by simp [exTds, job], ?_⟩
  intro td htd d
  simp only [exTds, job, List.mem_cons, List.not_mem_nil, or_false] at htd
  rcases htd with rfl | rfl | rfl | rfl | rfl | rfl <;> by_cases hd : d = 0 <;> simp [hd]

/-- The groups of these jobs: shortest and longest runtime, smallest and largest bandwidth. -/
theorem C103_extremes_example : (groupsOf 2 exTds).map (fun r => r.2.map fun rs => [rs.minRun 0, rs.maxRun 0, rs.minBw 0, rs.maxBw 0]) =
    some [[1000, 1000, 30, 30], [1000, 1000, 30, 40], [1000, 1000, 50, 50]] := by decide +kernel

/-- The report of these jobs: bytes of the entries, and of their groups. -/
theorem C103_example : (report 2 exTds).map (fun r => r.map fun x => (x.1.bytes 0, x.1.members.length, x.2.iobytes 0, x.2.maxRun 0, x.2.agg 0)) =
    some [(30, 2, 30, 1000, 30), (30, 1, 70, 1000, 70), (40, 1, 70, 1000, 70), (50, 1, 50, 1000, 50)] := by decide +kernel

/-- A job with `group_reporting` behind one without it, of the same group: it is counted in the entry of the other, and the entry that was
counted for it has no group, so that the report reads in front of the groups. -/
theorem C103_mix_counterexample :
    let tds := [job true false 0 10, job true true 0 20]
    Ordered 0 tds ∧ (∃ tss rss, groupsOf 0 tds = some (tss, rss) ∧ tss.map (fun ts => (ts.bytes 0, ts.members.map (·.grp))) =
      [(30, [false, true]), (0, [])]) ∧ report 0 tds = none := by
  refine ⟨⟨by simp [job], by simp [job]⟩, ?_, ?_⟩
  · obtain ⟨tss, rss, e, -, -⟩ := C103_room 0 [job true false 0 10, job true true 0 20] ⟨by simp [job], by simp [job]⟩
    refine ⟨tss, rss, e, ?_⟩
    have h1 : (groupsOf 0 [job true false 0 10, job true true 0 20]).map (fun x => x.1.map (fun ts => (ts.bytes 0, ts.members.map (·.grp)))) =
      some [(30, [false, true]), (0, [])] := by decide +kernel
    rw [e] at h1
    simpa using h1
  · have h1 : (report 0 [job true false 0 10, job true true 0 20]).isNone = true := by decide +kernel
    simpa using h1

/-- Three jobs of a group, the second without `group_reporting`: the third is not reported with the first but with the second. -/
theorem C103_between_counterexample :
    let tds := [job true true 0 10, job true false 0 20, job true true 0 40]
    (report 0 tds).map (fun r => r.map fun x => x.1.bytes 0) = some [10, 60] := by decide +kernel

/-- A job without `group_reporting` and without `stats`: an entry is counted for it and nothing put into it. -/
theorem C103_stats_counterexample :
    let tds := [job true false 0 10, job false false 0 20]
    Ordered 0 tds ∧ nrTs tds = 2 ∧ (report 0 tds).isNone = true := by
  refine ⟨⟨by simp [job], by simp [job]⟩, by decide +kernel, by decide +kernel⟩

/-- A direction of which the runtime is 0 is left out of the bytes of its group. -/
theorem C103_runtime_counterexample :
    let td := { job true false 0 10 with runtime := fun _ => 0 }
    (report 0 [td]).map (fun r => r.map fun x => (x.1.bytes 0, x.2.iobytes 0)) = some [(10, 0)] := by decide +kernel

/-- Bytes times 1000 in 64 bits: with 18447 TB or more the bandwidth of a group is nonsense. -/
theorem C103_agg_counterexample :
    let td := job true false 0 (2 ^ 64 / 1000 + 1)
    (report 0 [td]).map (fun r => r.map fun x => (x.2.iobytes 0, x.2.agg 0)) = some [(18446744073709552, 0)] := by decide +kernel

end Fio.Report
