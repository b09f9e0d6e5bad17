import Verif.Flow.Model
import Mathlib.Tactic.Linarith
import Mathlib.Tactic.FieldSimp
import Mathlib.Tactic.Positivity
/-
C30: flow groups keep their jobs in proportion and clean up.
-/
namespace Fio.Flow

/-- Sum over all jobs. -/
def total (f : Job → Nat) (jobs : List Job) : Nat := (jobs.map f).sum

theorem total_set (f : Job → Nat) : ∀ (jobs : List Job) (j : Nat) (t t' : Job), jobs[j]? = some t →
    total f (jobs.set j t') + f t = total f jobs + f t'
  | [], j, t, t', h => by simp at h
  | x :: xs, 0, t, t', h => by
    simp only [List.getElem?_cons_zero, Option.some.injEq] at h
    subst h
    simp [total]; omega
  | x :: xs, j + 1, t, t', h => by
    simp only [List.getElem?_cons_succ] at h
    have := total_set f xs j t t' h
    simp only [total, List.set_cons_succ, List.map_cons, List.sum_cons] at *
    omega

theorem le_total (f : Job → Nat) : ∀ (jobs : List Job) (j : Nat) (t : Job), jobs[j]? = some t →
    f t ≤ total f jobs
  | [], j, t, h => by simp at h
  | x :: xs, 0, t, h => by
    simp only [List.getElem?_cons_zero, Option.some.injEq] at h
    subst h
    simp [total]
  | x :: xs, j + 1, t, h => by
    simp only [List.getElem?_cons_succ] at h
    have := le_total f xs j t h
    simp only [total, List.map_cons, List.sum_cons] at *
    omega

theorem total_zero {f : Job → Nat} : ∀ {jobs : List Job}, (∀ t ∈ jobs, f t = 0) → total f jobs = 0
  | [], _ => rfl
  | x :: xs, h => by
    have := total_zero (f := f) (jobs := xs) (fun t ht => h t (by simp [ht]))
    simp only [total, List.map_cons, List.sum_cons] at *
    rw [h x (by simp)]; omega

theorem exists_of_total_pos {f : Job → Nat} {jobs : List Job} (h : 0 < total f jobs) :
    ∃ t ∈ jobs, 0 < f t := by
  apply Classical.byContradiction
  intro hn
  have := total_zero (f := f) (jobs := jobs) (fun t ht => by
    apply Classical.byContradiction
    intro h0; exact hn ⟨t, ht, by omega⟩)
  omega

/-- Is the job a member of the group at `p`? -/
def member (p : Nat) (t : Job) : Nat := if t.flow = some p then 1 else 0

/-- Operations of the job counted in the group at `p`. -/
def ops (p : Nat) (t : Job) : Nat :=
  if t.flow = some p then
    match t.pc with
    | .gotFlow => 0
    | .added => t.cnt + 1
    | _ => t.cnt
  else 0

/-- Weight the job has contributed to the group at `p`. -/
def share (p : Nat) (t : Job) : Nat :=
  if t.flow = some p then (if t.pc = .gotFlow then 0 else t.weight) else 0

/-- The invariant of all interleavings. -/
structure Inv (s : St) : Prop where
  nodup : s.list.Nodup
  live : ∀ p, p ∈ s.list ↔ ∃ g, s.heap p = some g
  oneId : ∀ p q g g', s.heap p = some g → s.heap q = some g' → g.id = g'.id → p = q
  ptr : ∀ t ∈ s.jobs, ∀ p, t.flow = some p → ∃ g, s.heap p = some g ∧ g.id = t.id
  out : ∀ t ∈ s.jobs, t.flow = none → t.pc = .idle
  acct : ∀ p g, s.heap p = some g → 0 < g.refs ∧ g.refs = total (member p) s.jobs ∧
    g.counter = 1 + total (ops p) s.jobs ∧ g.weight = total (share p) s.jobs

theorem mem_of_get? {t : Job} {jobs : List Job} {j : Nat} (h : jobs[j]? = some t) : t ∈ jobs :=
  List.mem_of_getElem? h

theorem mem_set {t t' : Job} {jobs : List Job} {j : Nat} (h : t ∈ jobs.set j t') : t ∈ jobs ∨ t = t' :=
  List.mem_or_eq_of_mem_set h

/-- A step that changes only a job of the group at `p` (or a job joining it), and that group. -/
theorem inv_update {s : St} (hi : Inv s) {j : Nat} {t t' : Job} (hj : s.jobs[j]? = some t) {p : Nat}
    {g g' : Group} (hg : s.heap p = some g) (hid : g'.id = g.id) (htid : t'.id = t.id)
    (hf : t.flow = none ∨ t.flow = some p)
    (hf' : t'.flow = none ∨ (t'.flow = some p ∧ g.id = t.id)) (hout : t'.flow = none → t'.pc = .idle)
    (hrefs : 0 < g'.refs) (hr : g'.refs + member p t = g.refs + member p t')
    (hc : g'.counter + ops p t = g.counter + ops p t')
    (hw : g'.weight + share p t = g.weight + share p t') :
    Inv { s with heap := setHeap s.heap p (some g'), jobs := s.jobs.set j t' } where
  nodup := hi.nodup
  live := by
    intro q
    simp only [setHeap]
    by_cases hq : q = p
    · subst hq; simp only [if_true]; exact ⟨fun _ => ⟨_, rfl⟩, fun _ => (hi.live q).2 ⟨g, hg⟩⟩
    · simp only [if_neg hq]; exact hi.live q
  oneId := by
    intro a b ga gb ha hb hab
    simp only [setHeap] at ha hb
    split at ha <;> split at hb
    · omega
    · rename_i h1 h2
      simp only [Option.some.injEq] at ha
      subst h1
      exact hi.oneId a b g gb hg hb (by rw [← hid, ha]; exact hab)
    · rename_i h1 h2
      simp only [Option.some.injEq] at hb
      subst h2
      exact hi.oneId a b ga g ha hg (by rw [hab, ← hb, hid])
    · exact hi.oneId a b ga gb ha hb hab
  ptr := by
    intro u hu q hq
    simp only [setHeap]
    rcases mem_set hu with hu | hu
    · obtain ⟨gu, h1, h2⟩ := hi.ptr u hu q hq
      by_cases hqp : q = p
      · subst hqp
        rw [hg] at h1
        simp only [Option.some.injEq] at h1
        exact ⟨g', by simp, by rw [hid, h1, h2]⟩
      · exact ⟨gu, by rw [if_neg hqp]; exact h1, h2⟩
    · subst hu
      rcases hf' with h | ⟨h, h'⟩
      · rw [h] at hq; cases hq
      · rw [h] at hq
        simp only [Option.some.injEq] at hq
        exact ⟨g', by simp [hq], by rw [hid, h', htid]⟩
  out := by
    intro u hu
    rcases mem_set hu with hu | hu
    · exact hi.out u hu
    · subst hu; exact hout
  acct := by
    intro q gq hq
    simp only [setHeap] at hq
    have e1 := total_set (member q) s.jobs j t t' hj
    have e2 := total_set (ops q) s.jobs j t t' hj
    have e3 := total_set (share q) s.jobs j t t' hj
    by_cases hqp : q = p
    · subst hqp
      simp only [if_true, Option.some.injEq] at hq
      subst hq
      obtain ⟨a1, a2, a3, a4⟩ := hi.acct q g hg
      dsimp only
      refine ⟨hrefs, ?_, ?_, ?_⟩ <;> omega
    · rw [if_neg hqp] at hq
      obtain ⟨a1, a2, a3, a4⟩ := hi.acct q gq hq
      have n1 : ∀ u : Job, (u.flow = none ∨ u.flow = some p) → member q u = 0 ∧ ops q u = 0 ∧ share q u = 0 := by
        intro u hu
        have : u.flow ≠ some q := by
          rcases hu with h | h <;> rw [h] <;> simp; omega
        simp [member, ops, share, this]
      obtain ⟨b1, b2, b3⟩ := n1 t hf
      obtain ⟨c1, c2, c3⟩ := n1 t' (hf'.imp id And.left)
      dsimp only
      refine ⟨a1, ?_, ?_, ?_⟩ <;> omega

theorem setHeap_same {h : Nat → Option Group} {p : Nat} {g : Group} (hg : h p = some g) :
    setHeap h p (some g) = h := by
  funext q
  unfold setHeap
  split
  · rename_i h'; rw [h', hg]
  · rfl

/-- A step that changes only the position of a member job. -/
theorem inv_pc {s : St} (hi : Inv s) {j : Nat} {t t' : Job} (hj : s.jobs[j]? = some t) {p : Nat}
    (htid : t'.id = t.id) (hf : t.flow = some p) (hf' : t'.flow = some p)
    (hc : ops p t = ops p t') (hw : share p t = share p t') :
    Inv { s with jobs := s.jobs.set j t' } := by
  obtain ⟨g, hg, hgid⟩ := hi.ptr t (mem_of_get? hj) p hf
  have h := inv_update hi hj hg (g' := g) rfl htid (Or.inr hf) (Or.inr ⟨hf', hgid⟩)
    (by rw [hf']; simp) (hi.acct p g hg).1 (by simp [member, hf, hf']) (by omega) (by omega)
  rw [setHeap_same hg] at h
  exact h

theorem inv_step (fl : ℚ → ℚ) {s : St} (hi : Inv s) (a : Act) :
    step fl s a ≠ .crash ∧ ∀ s', step fl s a = .ok s' → Inv s' := by
  cases a with
  | get j addr =>
    simp only [step, stepGet]
    cases hj : s.jobs[j]? with
    | none => simp
    | some t =>
      simp only
      split
      · rename_i hc
        obtain ⟨hfl, hpc, hw⟩ := hc
        cases hfind : s.list.find? fun p => (s.heap p).any fun g => decide (g.id = t.id) with
        | some p =>
          have hmem := List.mem_of_find?_eq_some hfind
          have hpred := List.find?_some hfind
          obtain ⟨g, hg⟩ := (hi.live p).1 hmem
          rw [hg] at hpred
          simp only [Option.any_some, decide_eq_true_eq] at hpred
          simp only [hg]
          refine ⟨by simp, ?_⟩
          intro s' hs'
          simp only [Res.ok.injEq] at hs'
          subst hs'
          exact inv_update hi hj hg rfl rfl (Or.inl hfl) (Or.inr ⟨rfl, hpred⟩) (by simp)
            (by simp) (by simp [member, hfl]) (by simp [ops, hfl]) (by simp [share, hfl])
        | none =>
          simp only
          split
          · rename_i hnone
            refine ⟨by simp, ?_⟩
            intro s' hs'
            simp only [Res.ok.injEq] at hs'
            subst hs'
            have hnl : addr ∉ s.list := by
              intro h
              obtain ⟨g, hg⟩ := (hi.live addr).1 h
              rw [hnone] at hg; cases hg
            have hnoid : ∀ q g, s.heap q = some g → g.id ≠ t.id := by
              intro q g hq hid
              have := List.find?_eq_none.1 hfind q ((hi.live q).2 ⟨g, hq⟩)
              rw [hq] at this
              simp [hid] at this
            have hnoptr : ∀ u ∈ s.jobs, u.flow ≠ some addr := by
              intro u hu h
              obtain ⟨g, hg, _⟩ := hi.ptr u hu addr h
              rw [hnone] at hg; cases hg
            constructor
            · dsimp only
              rw [List.nodup_append]
              exact ⟨hi.nodup, by simp, by intro a ha b hb; simp at hb; subst hb; intro h; subst h; exact hnl ha⟩
            · intro q
              simp only [setHeap, List.mem_append, List.mem_singleton]
              by_cases hq : q = addr
              · simp [hq]
              · simp only [hq, or_false, if_false]; exact hi.live q
            · intro a b ga gb ha hb hab
              simp only [setHeap] at ha hb
              split at ha <;> split at hb
              · omega
              · simp only [Option.some.injEq] at ha
                subst ha
                exact absurd hab.symm (hnoid b gb hb)
              · simp only [Option.some.injEq] at hb
                subst hb
                exact absurd hab (hnoid a ga ha)
              · exact hi.oneId a b ga gb ha hb hab
            · intro u hu q hq
              simp only [setHeap]
              rcases mem_set hu with hu' | hu
              · obtain ⟨gu, h1, h2⟩ := hi.ptr u hu' q hq
                have : q ≠ addr := by
                  intro h; rw [h] at hq; exact hnoptr u hu' hq
                exact ⟨gu, by rw [if_neg this]; exact h1, h2⟩
              · subst hu
                simp only [Option.some.injEq] at hq
                exact ⟨_, by rw [if_pos hq.symm], rfl⟩
            · intro u hu
              rcases mem_set hu with hu | hu
              · exact hi.out u hu
              · subst hu; simp
            · intro q gq hq
              simp only [setHeap] at hq
              have e1 := total_set (member q) s.jobs j t { t with flow := some addr, pc := .gotFlow } hj
              have e2 := total_set (ops q) s.jobs j t { t with flow := some addr, pc := .gotFlow } hj
              have e3 := total_set (share q) s.jobs j t { t with flow := some addr, pc := .gotFlow } hj
              by_cases hqa : q = addr
              · subst hqa
                simp only [if_true, Option.some.injEq] at hq
                subst hq
                have z1 : total (member q) s.jobs = 0 := total_zero (fun u hu => by simp [member, hnoptr u hu])
                have z2 : total (ops q) s.jobs = 0 := total_zero (fun u hu => by simp [ops, hnoptr u hu])
                have z3 : total (share q) s.jobs = 0 := total_zero (fun u hu => by simp [share, hnoptr u hu])
                have m1 : member q t = 0 := by simp [member, hfl]
                have m2 : ops q t = 0 := by simp [ops, hfl]
                have m3 : share q t = 0 := by simp [share, hfl]
                have n1 : member q { t with flow := some q, pc := .gotFlow } = 1 := by simp [member]
                have n2 : ops q { t with flow := some q, pc := .gotFlow } = 0 := by simp [ops]
                have n3 : share q { t with flow := some q, pc := .gotFlow } = 0 := by simp [share]
                dsimp only
                refine ⟨by omega, ?_, ?_, ?_⟩ <;> omega
              · rw [if_neg hqa] at hq
                obtain ⟨a1, a2, a3, a4⟩ := hi.acct q gq hq
                have hne : addr ≠ q := fun h => hqa h.symm
                have m1 : member q t = 0 := by simp [member, hfl]
                have m2 : ops q t = 0 := by simp [ops, hfl]
                have m3 : share q t = 0 := by simp [share, hfl]
                have n1 : member q { t with flow := some addr, pc := .gotFlow } = 0 := by simp [member, hne]
                have n2 : ops q { t with flow := some addr, pc := .gotFlow } = 0 := by simp [ops, hne]
                have n3 : share q { t with flow := some addr, pc := .gotFlow } = 0 := by simp [share, hne]
                dsimp only
                refine ⟨a1, ?_, ?_, ?_⟩ <;> omega
          · simp
      · simp
  | join j =>
    simp only [step, stepJoin]
    cases hj : s.jobs[j]? with
    | none => simp
    | some t =>
      simp only
      split
      · rename_i p hf hpc
        obtain ⟨g, hg, hgid⟩ := hi.ptr t (mem_of_get? hj) p hf
        simp only [hg]
        refine ⟨by simp, ?_⟩
        intro s' hs'
        simp only [Res.ok.injEq] at hs'
        subst hs'
        exact inv_update hi hj hg rfl rfl (Or.inr hf) (Or.inr ⟨hf, hgid⟩) (by simp)
          (hi.acct p g hg).1 (by simp [member, hf]) (by simp [ops, hf, hpc]) (by simp [share, hf, hpc])
      · simp
  | loadC j =>
    simp only [step, stepLoadC]
    cases hj : s.jobs[j]? with
    | none => simp
    | some t =>
      simp only
      split
      · rename_i p hf hpc
        obtain ⟨g, hg, hgid⟩ := hi.ptr t (mem_of_get? hj) p hf
        simp only [hg]
        refine ⟨by simp, ?_⟩
        intro s' hs'
        simp only [Res.ok.injEq] at hs'
        subst hs'
        exact inv_pc hi hj rfl hf hf (by simp [ops, hf, hpc]) (by simp [share, hf, hpc])
      · simp
  | loadW j =>
    simp only [step, stepLoadW]
    cases hj : s.jobs[j]? with
    | none => simp
    | some t =>
      simp only
      split
      · rename_i p c hf hpc
        obtain ⟨g, hg, hgid⟩ := hi.ptr t (mem_of_get? hj) p hf
        simp only [hg]
        refine ⟨by simp, ?_⟩
        intro s' hs'
        simp only [Res.ok.injEq] at hs'
        subst hs'
        by_cases he : exceeded fl t.cnt c t.weight g.weight
        · simp only [if_pos he]
          exact inv_pc hi hj rfl hf hf (by simp [ops, hf, hpc]) (by simp [share, hf, hpc])
        · simp only [if_neg he]
          exact inv_pc hi hj rfl hf hf (by simp [ops, hf, hpc]) (by simp [share, hf, hpc])
      · simp
  | add j =>
    simp only [step, stepAdd]
    cases hj : s.jobs[j]? with
    | none => simp
    | some t =>
      simp only
      split
      · rename_i p hf hpc
        obtain ⟨g, hg, hgid⟩ := hi.ptr t (mem_of_get? hj) p hf
        simp only [hg]
        refine ⟨by simp, ?_⟩
        intro s' hs'
        simp only [Res.ok.injEq] at hs'
        subst hs'
        exact inv_update hi hj hg rfl rfl (Or.inr hf) (Or.inr ⟨hf, hgid⟩) (by simp [hf])
          (hi.acct p g hg).1 (by simp [member, hf]) (by simp [ops, hf, hpc]; omega) (by simp [share, hf, hpc])
      · simp
  | inc j =>
    simp only [step, stepInc]
    cases hj : s.jobs[j]? with
    | none => simp
    | some t =>
      simp only
      split
      · rename_i hpc
        refine ⟨by simp, ?_⟩
        intro s' hs'
        simp only [Res.ok.injEq] at hs'
        subst hs'
        cases hf : t.flow with
        | none => have := hi.out t (mem_of_get? hj) hf; rw [hpc] at this; cases this
        | some p =>
          exact inv_pc hi hj rfl hf rfl (by simp [ops, hf, hpc]) (by simp [share, hf, hpc])
      · simp
  | exit j =>
    simp only [step, stepExit]
    cases hj : s.jobs[j]? with
    | none => simp
    | some t =>
      simp only
      split
      · rename_i p hf hpc
        obtain ⟨g, hg, hgid⟩ := hi.ptr t (mem_of_get? hj) p hf
        obtain ⟨a1, a2, a3, a4⟩ := hi.acct p g hg
        have l2 := le_total (ops p) s.jobs j t hj
        have l3 := le_total (share p) s.jobs j t hj
        have l1 := le_total (member p) s.jobs j t hj
        have v1 : member p t = 1 := by simp [member, hf]
        have v2 : ops p t = t.cnt := by simp [ops, hf, hpc]
        have v3 : share p t = t.weight := by simp [share, hf, hpc]
        have e1 := total_set (member p) s.jobs j t { t with flow := none } hj
        have e2 := total_set (ops p) s.jobs j t { t with flow := none } hj
        have w1 : member p { t with flow := none } = 0 := by simp [member]
        have w2 : ops p { t with flow := none } = 0 := by simp [ops]
        have w3 : share p { t with flow := none } = 0 := by simp [share]
        simp only [hg]
        split
        · rename_i hz
          -- no member is left, so no operations are counted
          have hnomem : ∀ u ∈ s.jobs.set j { t with flow := none }, u.flow ≠ some p := by
            intro u hu h
            obtain ⟨k, hk⟩ := List.getElem?_of_mem hu
            have := le_total (member p) _ k u hk
            simp only [member, h, if_true] at this
            simp only [member] at *
            omega
          have hz2 : total (ops p) (s.jobs.set j { t with flow := none }) = 0 :=
            total_zero (fun u hu => by simp [ops, hnomem u hu])
          rw [if_pos (by omega)]
          refine ⟨by simp, ?_⟩
          intro s' hs'
          simp only [Res.ok.injEq] at hs'
          subst hs'
          constructor
          · exact hi.nodup.erase p
          · intro q
            simp only [setHeap, hi.nodup.mem_erase_iff]
            by_cases hq : q = p
            · simp [hq]
            · simp only [hq, if_false]; simpa [hq] using hi.live q
          · intro a b ga gb ha hb hab
            simp only [setHeap] at ha hb
            split at ha <;> split at hb
            · cases ha
            · cases ha
            · cases hb
            · exact hi.oneId a b ga gb ha hb hab
          · intro u hu q hq
            have hqp : q ≠ p := by
              intro h; subst h; exact hnomem u hu hq
            simp only [setHeap, if_neg hqp]
            rcases mem_set hu with hu | hu
            · exact hi.ptr u hu q hq
            · subst hu; cases hq
          · intro u hu
            rcases mem_set hu with hu | hu
            · exact hi.out u hu
            · subst hu; exact fun _ => hpc
          · intro q gq hq
            simp only [setHeap] at hq
            by_cases hqp : q = p
            · rw [if_pos hqp] at hq; cases hq
            · rw [if_neg hqp] at hq
              obtain ⟨b1, b2, b3, b4⟩ := hi.acct q gq hq
              have f1 := total_set (member q) s.jobs j t { t with flow := none } hj
              have f2 := total_set (ops q) s.jobs j t { t with flow := none } hj
              have f3 := total_set (share q) s.jobs j t { t with flow := none } hj
              have hne : p ≠ q := fun h => hqp h.symm
              have y1 : member q t = 0 := by simp [member, hf, hne]
              have y2 : ops q t = 0 := by simp [ops, hf, hne]
              have y3 : share q t = 0 := by simp [share, hf, hne]
              have x1 : member q { t with flow := none } = 0 := by simp [member]
              have x2 : ops q { t with flow := none } = 0 := by simp [ops]
              have x3 : share q { t with flow := none } = 0 := by simp [share]
              dsimp only
              refine ⟨b1, ?_, ?_, ?_⟩ <;> omega
        · rename_i hz
          refine ⟨by simp, ?_⟩
          intro s' hs'
          simp only [Res.ok.injEq] at hs'
          subst hs'
          refine inv_update (t' := { t with flow := none }) hi hj hg ?_ rfl (Or.inr hf) (Or.inl rfl) ?_ ?_ ?_ ?_ ?_
          · rfl
          · exact fun _ => hpc
          · dsimp only; omega
          · dsimp only; omega
          · dsimp only; omega
          · dsimp only; omega
      · simp

theorem inv_run (fl : ℚ → ℚ) : ∀ (as : List Act) (s : St), Inv s → ∃ s', run fl s as = some s' ∧ Inv s'
  | [], s, hi => ⟨s, rfl, hi⟩
  | a :: as, s, hi => by
    obtain ⟨h1, h2⟩ := inv_step fl hi a
    unfold run
    cases h : step fl s a with
    | disabled => exact inv_run fl as s hi
    | crash => exact absurd h h1
    | ok s1 => exact inv_run fl as s1 (h2 s1 h)

theorem inv_init (ids : List (Nat × Nat)) : Inv (init ids) where
  nodup := by simp [init]
  live := by simp [init]
  oneId := by simp [init]
  ptr := by
    intro t ht p hp
    simp only [init, List.mem_map] at ht
    obtain ⟨x, _, rfl⟩ := ht
    cases hp
  out := by
    intro t ht _
    simp only [init, List.mem_map] at ht
    obtain ⟨x, _, rfl⟩ := ht
    rfl
  acct := by simp [init]

/-- **C30, clean-up.**  In every interleaving of any jobs entering, working in and leaving flow
groups, no freed group is touched and the assertion in flow_put never fails; at every moment there
is at most one group per id, a group exists exactly while some job is a member of it, and its
counter is one plus the operations its members have counted; when the members of a group have left
it, it is gone, and when all jobs have left, so are all groups. -/
theorem C30_cleanup (fl : ℚ → ℚ) (ids : List (Nat × Nat)) (as : List Act) :
    ∃ s, run fl (init ids) as = some s ∧
      (∀ p q g g', s.heap p = some g → s.heap q = some g' → g.id = g'.id → p = q) ∧
      (∀ p, (∃ g, s.heap p = some g) ↔ ∃ t ∈ s.jobs, t.flow = some p) ∧
      (∀ p g, s.heap p = some g → g.counter = 1 + total (ops p) s.jobs ∧
        g.weight = total (share p) s.jobs) ∧
      ((∀ t ∈ s.jobs, t.flow = none) → s.list = [] ∧ ∀ p, s.heap p = none) := by
  obtain ⟨s, hs, hi⟩ := inv_run fl as _ (inv_init ids)
  have hex : ∀ p, (∃ g, s.heap p = some g) ↔ ∃ t ∈ s.jobs, t.flow = some p := by
    intro p
    constructor
    · intro ⟨g, hg⟩
      obtain ⟨a1, a2, _⟩ := hi.acct p g hg
      obtain ⟨t, ht, hpos⟩ := exists_of_total_pos (f := member p) (jobs := s.jobs) (by omega)
      refine ⟨t, ht, ?_⟩
      apply Classical.byContradiction
      intro hne
      simp [member, hne] at hpos
    · intro ⟨t, ht, hp⟩
      obtain ⟨g, hg, _⟩ := hi.ptr t ht p hp
      exact ⟨g, hg⟩
  refine ⟨s, hs, hi.oneId, hex, fun p g hg => (hi.acct p g hg).2.2, ?_⟩
  intro hall
  have hnone : ∀ p, s.heap p = none := by
    intro p
    cases hp : s.heap p with
    | none => rfl
    | some g =>
      obtain ⟨t, ht, h⟩ := (hex p).1 ⟨g, hp⟩
      rw [hall t ht] at h; cases h
  refine ⟨?_, hnone⟩
  rw [List.eq_nil_iff_forall_not_mem]
  intro p hp
  obtain ⟨g, hg⟩ := (hi.live p).1 hp
  rw [hnone p] at hg; cases hg

/-! ## Proportion -/

/-- What is needed of the rounding of a quotient to double: it is monotone and its relative error is
at most 2^-53 (no underflow: the quotients are 0 or at least 2^-64). -/
structure DoubleLike (fl : ℚ → ℚ) : Prop where
  mono : ∀ x y, x ≤ y → fl x ≤ fl y
  err : ∀ x, 0 ≤ x → (1 - 1 / 2 ^ 53) * x ≤ fl x ∧ fl x ≤ (1 + 1 / 2 ^ 53) * x

/-- A job that is held back really has more than its share. -/
theorem exceeded_over {fl : ℚ → ℚ} (hfl : DoubleLike fl) {a c w W : Nat} (hc : 0 < c) (hW : 0 < W)
    (h : exceeded fl a c w W) : w * c < a * W := by
  apply Classical.byContradiction
  intro hn
  have hle : a * W ≤ w * c := by omega
  have hcq : (0 : ℚ) < c := by exact_mod_cast hc
  have hWq : (0 : ℚ) < W := by exact_mod_cast hW
  have hq : (a : ℚ) / c ≤ (w : ℚ) / W := by
    rw [div_le_div_iff₀ hcq hWq]
    exact_mod_cast hle
  have := hfl.mono _ _ hq
  unfold exceeded at h
  exact absurd h (not_lt.2 this)

/-- A job that is admitted has at most its share, as long as the product of its operations and the
total weight is below 2^51. -/
theorem admitted_share {fl : ℚ → ℚ} (hfl : DoubleLike fl) {a c w W : Nat} (hc : 0 < c) (hW : 0 < W)
    (hsmall : a * W < 2 ^ 51) (h : ¬ exceeded fl a c w W) : a * W ≤ w * c := by
  apply Classical.byContradiction
  intro hn
  have hlt : w * c + 1 ≤ a * W := by omega
  have hcq : (0 : ℚ) < c := by exact_mod_cast hc
  have hWq : (0 : ℚ) < W := by exact_mod_cast hW
  unfold exceeded at h
  rw [not_lt] at h
  have h1 := (hfl.err ((a : ℚ) / c) (by positivity)).1
  have h2 := (hfl.err ((w : ℚ) / W) (by positivity)).2
  have h3 : (1 - 1 / 2 ^ 53) * ((a : ℚ) / c) ≤ (1 + 1 / 2 ^ 53) * ((w : ℚ) / W) := by linarith
  have h4 : (1 - 1 / 2 ^ 53) * ((a : ℚ) * W) ≤ (1 + 1 / 2 ^ 53) * ((w : ℚ) * c) := by
    have h5 := mul_le_mul_of_nonneg_right h3 (by positivity : (0 : ℚ) ≤ c * W)
    have e1 : (1 - 1 / 2 ^ 53) * ((a : ℚ) / c) * (c * W) = (1 - 1 / 2 ^ 53) * ((a : ℚ) * W) := by
      field_simp
    have e2 : (1 + 1 / 2 ^ 53) * ((w : ℚ) / W) * (c * W) = (1 + 1 / 2 ^ 53) * ((w : ℚ) * c) := by
      field_simp
    rw [e1, e2] at h5
    exact h5
  have h5 : (w : ℚ) * c + 1 ≤ (a : ℚ) * W := by exact_mod_cast hlt
  have h6 : (a : ℚ) * W < 2 ^ 51 := by exact_mod_cast hsmall
  generalize (a : ℚ) * W = x at *
  generalize (w : ℚ) * c = y at *
  norm_num at *
  linarith

/-- The steps of jobs that stay in their groups. -/
def Act.works : Act → Prop
  | .loadC _ | .loadW _ | .add _ | .inc _ => True
  | _ => False

/-- Job `t`, in a group with counter `c` and weight `W`, has at most one operation more than its
share (or so many that the double comparison is no longer exact). -/
def InShare (t : Job) (c W : Nat) : Prop :=
  2 ^ 51 ≤ t.cnt * W ∨ t.cnt = 0 ∨ (t.cnt - 1) * W ≤ t.weight * c

/-- The invariant behind it. -/
def ShareInv (s : St) : Prop :=
  ∀ t ∈ s.jobs, ∀ p g, t.flow = some p → s.heap p = some g →
    0 < g.counter ∧ 0 < g.weight ∧ InShare t g.counter g.weight ∧
    (∀ c, t.pc = .loaded c → 0 < c ∧ c ≤ g.counter) ∧
    (t.pc = .admitted ∨ t.pc = .added → 2 ^ 51 ≤ t.cnt * g.weight ∨ t.cnt * g.weight ≤ t.weight * g.counter)

theorem inShare_mono {t : Job} {c c' W : Nat} (h : InShare t c W) (hc : c ≤ c') : InShare t c' W := by
  have := Nat.mul_le_mul_left t.weight hc
  unfold InShare at *
  omega

theorem share_step {fl : ℚ → ℚ} (hfl : DoubleLike fl) {s s' : St} (hi : ShareInv s) {a : Act} (ha : a.works)
    (h : step fl s a = .ok s') : ShareInv s' := by
  cases a with
  | get j addr => exact ha.elim
  | join j => exact ha.elim
  | exit j => exact ha.elim
  | loadC j =>
    simp only [step, stepLoadC] at h
    cases hj : s.jobs[j]? with
    | none => rw [hj] at h; cases h
    | some t =>
      rw [hj] at h
      simp only at h
      split at h
      · rename_i p hf hpc
        cases hg : s.heap p with
        | none => rw [hg] at h; cases h
        | some g =>
          rw [hg] at h
          simp only [Res.ok.injEq] at h
          subst h
          obtain ⟨h1, h2, h3, _, _⟩ := hi t (mem_of_get? hj) p g hf hg
          intro u hu q gq hq hgq
          rcases mem_set hu with hu | hu
          · exact hi u hu q gq hq hgq
          · subst hu
            rw [show q = p by rw [hf] at hq; exact (Option.some.inj hq).symm] at hgq
            have : gq = g := by rw [hg] at hgq; exact (Option.some.inj hgq).symm
            subst this
            refine ⟨h1, h2, h3, ?_, ?_⟩
            · intro c hc; simp only [Pc.loaded.injEq] at hc; omega
            · intro hc; simp at hc
      · cases h
  | loadW j =>
    simp only [step, stepLoadW] at h
    cases hj : s.jobs[j]? with
    | none => rw [hj] at h; cases h
    | some t =>
      rw [hj] at h
      simp only at h
      split at h
      · rename_i p c hf hpc
        cases hg : s.heap p with
        | none => rw [hg] at h; cases h
        | some g =>
          rw [hg] at h
          simp only [Res.ok.injEq] at h
          subst h
          obtain ⟨h1, h2, h3, h4, _⟩ := hi t (mem_of_get? hj) p g hf hg
          obtain ⟨hc0, hcle⟩ := h4 c hpc
          intro u hu q gq hq hgq
          rcases mem_set hu with hu | hu
          · exact hi u hu q gq hq hgq
          · subst hu
            rw [show q = p by rw [hf] at hq; exact (Option.some.inj hq).symm] at hgq
            have : gq = g := by rw [hg] at hgq; exact (Option.some.inj hgq).symm
            subst this
            by_cases he : exceeded fl t.cnt c t.weight gq.weight
            · simp only [if_pos he]
              exact ⟨h1, h2, h3, by simp, by simp⟩
            · simp only [if_neg he]
              refine ⟨h1, h2, h3, by simp, fun _ => ?_⟩
              by_cases hs : t.cnt * gq.weight < 2 ^ 51
              · right
                have := admitted_share hfl hc0 h2 hs he
                have := Nat.mul_le_mul_left t.weight hcle
                omega
              · left; omega
      · cases h
  | add j =>
    simp only [step, stepAdd] at h
    cases hj : s.jobs[j]? with
    | none => rw [hj] at h; cases h
    | some t =>
      rw [hj] at h
      simp only at h
      split at h
      · rename_i p hf hpc
        cases hg : s.heap p with
        | none => rw [hg] at h; cases h
        | some g =>
          rw [hg] at h
          simp only [Res.ok.injEq] at h
          subst h
          intro u hu q gq hq hgq
          have key : ∀ v ∈ s.jobs, v.flow = some p → 0 < g.counter + 1 ∧ 0 < g.weight ∧
              InShare v (g.counter + 1) g.weight ∧ (∀ c, v.pc = .loaded c → 0 < c ∧ c ≤ g.counter + 1) ∧
              (v.pc = .admitted ∨ v.pc = .added → 2 ^ 51 ≤ v.cnt * g.weight ∨
                v.cnt * g.weight ≤ v.weight * (g.counter + 1)) := by
            intro v hv hvp
            obtain ⟨h1, h2, h3, h4, h5⟩ := hi v hv p g hvp hg
            refine ⟨by omega, h2, inShare_mono h3 (by omega), ?_, ?_⟩
            · intro c hc; have := h4 c hc; omega
            · intro hc
              have := h5 hc
              rw [Nat.mul_add]; omega
          simp only [setHeap] at hgq
          by_cases hqp : q = p
          · rw [if_pos hqp] at hgq
            simp only [Option.some.injEq] at hgq
            subst hgq
            rcases mem_set hu with hu | hu
            · exact key u hu (by rw [hq, hqp])
            · subst hu
              obtain ⟨h1, h2, h3, h4, h5⟩ := key t (mem_of_get? hj) hf
              exact ⟨h1, h2, h3, by simp, fun _ => h5 (Or.inl hpc)⟩
          · rw [if_neg hqp] at hgq
            rcases mem_set hu with hu | hu
            · exact hi u hu q gq hq hgq
            · subst hu
              exact absurd (by rw [hf] at hq; exact (Option.some.inj hq).symm) hqp
      · cases h
  | inc j =>
    simp only [step, stepInc] at h
    cases hj : s.jobs[j]? with
    | none => rw [hj] at h; cases h
    | some t =>
      rw [hj] at h
      simp only at h
      split at h
      · rename_i hpc
        simp only [Res.ok.injEq] at h
        subst h
        intro u hu q gq hq hgq
        rcases mem_set hu with hu | hu
        · exact hi u hu q gq hq hgq
        · subst hu
          obtain ⟨h1, h2, h3, h4, h5⟩ := hi t (mem_of_get? hj) q gq hq hgq
          refine ⟨h1, h2, ?_, by simp, by simp⟩
          have := h5 (Or.inr hpc)
          unfold InShare
          dsimp only
          rw [Nat.add_sub_cancel, Nat.add_mul]
          omega
      · cases h

theorem share_run {fl : ℚ → ℚ} (hfl : DoubleLike fl) : ∀ (as : List Act) (s s' : St), (∀ a ∈ as, a.works) →
    ShareInv s → run fl s as = some s' → ShareInv s'
  | [], s, s', _, hi, h => by
    simp only [run, Option.some.injEq] at h
    subst h; exact hi
  | a :: as, s, s', hw, hi, h => by
    unfold run at h
    cases hs : step fl s a with
    | disabled => rw [hs] at h; exact share_run hfl as s s' (fun b hb => hw b (by simp [hb])) hi h
    | crash => rw [hs] at h; cases h
    | ok s1 =>
      rw [hs] at h
      exact share_run hfl as s1 s' (fun b hb => hw b (by simp [hb])) (share_step hfl hi (hw a (by simp)) hs) h

/-- **C30, proportion.**  From a state in which the members of the groups have joined and have not yet
counted operations, and as long as no job enters or leaves, in every interleaving each job has at
most one operation more than its share of the group's counter: `(n - 1) / counter ≤ weight / total
weight` (until `n * total weight` reaches 2^51, where the rounding of doubles may blur it). -/
theorem C30_proportion {fl : ℚ → ℚ} (hfl : DoubleLike fl) (s s' : St) (as : List Act)
    (hfresh : ∀ t ∈ s.jobs, t.pc = .idle ∧ t.cnt = 0)
    (hpos : ∀ p g, s.heap p = some g → 0 < g.counter ∧ 0 < g.weight)
    (hw : ∀ a ∈ as, a.works) (hrun : run fl s as = some s') :
    ∀ t ∈ s'.jobs, ∀ p g, t.flow = some p → s'.heap p = some g →
      2 ^ 51 ≤ t.cnt * g.weight ∨ t.cnt = 0 ∨ (t.cnt - 1) * g.weight ≤ t.weight * g.counter := by
  have hi : ShareInv s := by
    intro t ht p g hp hg
    obtain ⟨h1, h2⟩ := hfresh t ht
    obtain ⟨h3, h4⟩ := hpos p g hg
    exact ⟨h3, h4, Or.inr (Or.inl h2), by rw [h1]; simp, by rw [h1]; simp⟩
  have := share_run hfl as s s' hw hi hrun
  intro t ht p g hp hg
  exact (this t ht p g hp hg).2.2.1

theorem total_lt {f g : Job → Nat} : ∀ {jobs : List Job}, (∀ t ∈ jobs, f t ≤ g t) →
    total f jobs ≤ total g jobs
  | [], _ => Nat.le_refl _
  | x :: xs, h => by
    have := total_lt (f := f) (g := g) (jobs := xs) (fun t ht => h t (by simp [ht]))
    have := h x (by simp)
    simp only [total, List.map_cons, List.sum_cons] at *
    omega

theorem total_mul (f : Job → Nat) (k : Nat) : ∀ jobs : List Job, total (fun t => f t * k) jobs = total f jobs * k
  | [] => by simp [total]
  | x :: xs => by
    have := total_mul f k xs
    simp only [total, List.map_cons, List.sum_cons] at *
    rw [this, Nat.add_mul]

/-- **C30, no job is held back forever by the others:** in any reachable state in which every member
of a group is outside flow.c, at least one of them is admitted by the next test. -/
theorem C30_progress {fl : ℚ → ℚ} (hfl : DoubleLike fl) (ids : List (Nat × Nat)) (as : List Act) (s : St)
    (hrun : run fl (init ids) as = some s) (p : Nat) (g : Group) (hg : s.heap p = some g)
    (hidle : ∀ t ∈ s.jobs, t.flow = some p → t.pc = .idle) (hw : 0 < g.weight) :
    ∃ t ∈ s.jobs, t.flow = some p ∧ ¬ exceeded fl t.cnt g.counter t.weight g.weight := by
  obtain ⟨s1, hs1, hi⟩ := inv_run fl as _ (inv_init ids)
  rw [hrun] at hs1
  simp only [Option.some.injEq] at hs1
  subst hs1
  obtain ⟨a1, a2, a3, a4⟩ := hi.acct p g hg
  apply Classical.byContradiction
  intro hn
  have hall : ∀ t ∈ s.jobs, t.flow = some p → t.weight * g.counter < t.cnt * g.weight := by
    intro t ht hp
    apply exceeded_over hfl (by omega) hw
    apply Classical.byContradiction
    intro he; exact hn ⟨t, ht, hp, he⟩
  have hle : ∀ t ∈ s.jobs, share p t * g.counter ≤ ops p t * g.weight := by
    intro t ht
    by_cases hp : t.flow = some p
    · have := hall t ht hp
      simp only [share, ops, hp, hidle t ht hp, if_true]
      simp only [reduceCtorEq, if_false]
      omega
    · simp [share, ops, hp]
  have := total_lt hle
  rw [total_mul, total_mul, ← a4] at this
  have h1 : g.weight * g.counter = total (ops p) s.jobs * g.weight + g.weight := by
    rw [a3, Nat.mul_add, Nat.mul_one, Nat.mul_comm, Nat.add_comm]
  omega

/-- The identity is DoubleLike; so the hypotheses are not void. -/
theorem doubleLike_id : DoubleLike id where
  mono := fun _ _ h => h
  err := fun x hx => by
    simp only [id]
    constructor <;> nlinarith

/-- Two jobs of weights 1 and 3 in one group, one job alone in another: five attempts, the second of the first job held back; then all
leave and nothing is left. -/
def demoJobs : List (Nat × Nat) := [(7, 1), (7, 3), (9, 2)]

def op (j : Nat) : List Act := [.loadC j, .loadW j, .add j, .inc j]

def demo : List Act :=
  [.get 0 100, .get 1 100, .join 1, .join 0, .get 2 200, .join 2] ++ op 0 ++ op 0 ++ op 1 ++ op 1 ++ op 2

example : (run id (init demoJobs) demo).map (fun s => (s.heap 100, s.jobs.map (·.cnt))) =
    some (some { refs := 2, id := 7, counter := 4, weight := 4 }, [1, 2, 1]) := by decide +kernel

example : (run id (init demoJobs) (demo ++ [.exit 0, .exit 2, .exit 1])).map
    (fun s => (s.heap 100, s.list, s.jobs.map (·.flow))) = some (none, [], [none, none, none]) := by
  decide +kernel

end Fio.Flow
