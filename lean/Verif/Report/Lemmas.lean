import Verif.Report.Spec
/-!
# Lemmas for C103
-/

namespace Fio.Report

/-- Entries as lists of jobs, the newest first, and the group of the last job. -/
def gstep (s : List (List Td) × Option Nat) (td : Td) : List (List Td) × Option Nat :=
  if td.stats = false then s
  else match s.1 with
    | [] => ([[td]], some td.gid)
    | e :: g => if td.grp = false ∨ s.2 ≠ some td.gid then ([td] :: e :: g, some td.gid) else ((e ++ [td]) :: g, some td.gid)

/-- The entry of a list of jobs. -/
def mk (e : List Td) : Ts := e.foldl addTd Ts.init

/-- The variables of the loop for such lists. -/
def conc (n : Nat) (s : List (List Td) × Option Nat) : Fill :=
  { tss := s.1.reverse.map mk ++ List.replicate (n - s.1.length) Ts.init, j := s.1.length - 1, idx := decide (s.1 ≠ []), last := s.2 }

theorem gstep_len (s : List (List Td) × Option Nat) (td : Td) : s.1.length ≤ (gstep s td).1.length := by
  unfold gstep
  split
  · exact Nat.le_refl _
  · split
    · rename_i h; simp [h]
    · rename_i h; split <;> simp [h]

theorem gfold_len (tds : List Td) (s : List (List Td) × Option Nat) : s.1.length ≤ (tds.foldl gstep s).1.length := by
  induction tds generalizing s with
  | nil => exact Nat.le_refl _
  | cons td tds ih => exact Nat.le_trans (gstep_len s td) (ih _)

theorem mk_snoc (e : List Td) (td : Td) : mk (e ++ [td]) = addTd (mk e) td := by simp [mk]

theorem fillStep_conc (n : Nat) (s : List (List Td) × Option Nat) (td : Td) (h : (gstep s td).1.length ≤ n) :
    fillStep (conc n s) td = some (conc n (gstep s td)) := by
  obtain ⟨g, last⟩ := s
  unfold fillStep
  by_cases hst : td.stats = false
  · simp [hst, gstep]
  · rw [if_neg hst]
    cases g with
    | nil =>
      have hg : gstep ([], last) td = ([[td]], some td.gid) := by simp [gstep, hst]
      rw [hg] at h ⊢
      have hn : 1 ≤ n := h
      obtain ⟨n, rfl⟩ : ∃ k, n = k + 1 := ⟨n - 1, by omega⟩
      simp [conc, List.replicate_succ, mk]
    | cons e g =>
      by_cases hnew : td.grp = false ∨ last ≠ some td.gid
      · have hg : gstep (e :: g, last) td = ([td] :: e :: g, some td.gid) := by
          simp only [gstep, if_neg hst, if_pos hnew]
        rw [hg] at h ⊢
        have hn : g.length + 2 ≤ n := h
        have hc : (decide (e :: g ≠ []) = true ∧ (td.grp = false ∨ td.grp = true ∧ last ≠ some td.gid)) := by
          refine ⟨by simp, ?_⟩
          cases hgrp : td.grp <;> simp_all
        obtain ⟨k, rfl⟩ : ∃ k, n = g.length + 2 + k := ⟨n - (g.length + 2), by omega⟩
        have e1 : g.length + 2 + k - (g.length + 1) = k + 1 := by omega
        have e2 : g.length + 2 + k - (g.length + 1 + 1) = k := by omega
        simp only [conc, if_pos hc, List.length_cons, e1, e2, List.replicate_succ]
        simp [mk]
      · have hg : gstep (e :: g, last) td = ((e ++ [td]) :: g, some td.gid) := by
          simp only [gstep, if_neg hst, if_neg hnew]
        rw [hg] at h ⊢
        have hc : ¬ (decide (e :: g ≠ []) = true ∧ (td.grp = false ∨ td.grp = true ∧ last ≠ some td.gid)) := by
          grind
        have hc' : ¬ (td.grp = false ∨ td.grp = true ∧ ¬ last = some td.gid) := by grind
        simp [conc, mk_snoc, hc']

theorem fill_conc (n : Nat) (tds : List Td) (s : List (List Td) × Option Nat) (h : (tds.foldl gstep s).1.length ≤ n) :
    tds.foldlM fillStep (conc n s) = some (conc n (tds.foldl gstep s)) := by
  induction tds generalizing s with
  | nil => rfl
  | cons td tds ih =>
    rw [List.foldlM_cons, fillStep_conc n s td (Nat.le_trans (gfold_len tds _) h)]
    exact ih _ h

theorem fill_eq (tds : List Td) (h : (tds.foldl gstep ([], none)).1.length ≤ nrTs tds) :
    fill tds = some (conc (nrTs tds) (tds.foldl gstep ([], none))) := by
  rw [← fill_conc (nrTs tds) tds ([], none) h]
  simp [fill, fill0, conc]

/-! ## Enough entries -/

theorem room (tds : List Td) (s : List (List Td) × Option Nat) (c : Nat × Option Nat) (ho : tds.Pairwise (fun a b => a.gid ≤ b.gid))
    (h1 : ∀ td ∈ tds, ∀ g, s.2 = some g → g ≤ td.gid) (h2 : ∀ g, c.2 = some g → ∃ g', s.2 = some g' ∧ g ≤ g')
    (h3 : s.1 = [] → s.2 = none) (h4 : s.1.length ≤ c.1) : (tds.foldl gstep s).1.length ≤ (tds.foldl countStep c).1 := by
  induction tds generalizing s c with
  | nil => exact h4
  | cons td tds ih =>
    rw [List.pairwise_cons] at ho
    obtain ⟨g, last⟩ := s
    obtain ⟨nr, nlast⟩ := c
    simp only [List.foldl_cons]
    apply ih _ _ ho.2
    · intro td' htd' L hL
      have := ho.1 td' htd'
      have h1' := h1 td' (List.mem_cons_of_mem _ htd') L
      unfold gstep at hL
      grind
    · intro L hL
      have h1' := h1 td (List.mem_cons_self)
      have h2' := h2 L
      unfold countStep at hL
      unfold gstep
      simp only at *
      by_cases hs : td.stats = false
      · grind
      · by_cases hg : td.grp = false
        · have : nlast = some L := by grind
          obtain ⟨g', a, b⟩ := h2' this
          refine ⟨td.gid, ?_, Nat.le_trans b (h1' g' a)⟩
          rw [if_neg hs]; cases g <;> grind
        · refine ⟨td.gid, by rw [if_neg hs]; cases g <;> grind, ?_⟩
          by_cases hn : nlast = some td.gid
          · grind
          · grind
    · unfold gstep
      grind
    · unfold gstep countStep
      simp only at *
      by_cases hs : td.stats = false
      · grind
      · cases g with
        | nil =>
          have hl := h3 rfl
          have : nlast = none := by
            cases nlast with
            | none => rfl
            | some x => obtain ⟨g', a, -⟩ := h2 x rfl; rw [hl] at a; cases a
          grind
        | cons e g =>
          by_cases hn : nlast = some td.gid
          · obtain ⟨g', a, b⟩ := h2 _ hn
            have := h1 td (List.mem_cons_self) g' a
            grind
          · grind

theorem room0 (tds : List Td) (ho : tds.Pairwise (fun a b => a.gid ≤ b.gid)) : (tds.foldl gstep ([], none)).1.length ≤ nrTs tds :=
  room tds ([], none) (0, none) ho (fun _ _ _ h => by cases h) (fun _ h => by cases h) (fun _ => rfl) (Nat.le_refl _)

/-! ## Every job once -/

theorem once (tds : List Td) (s : List (List Td) × Option Nat) :
    (tds.foldl gstep s).1.reverse.flatten = s.1.reverse.flatten ++ tds.filter (·.stats) := by
  induction tds generalizing s with
  | nil => simp
  | cons td tds ih =>
    rw [List.foldl_cons, ih]
    by_cases hs : td.stats = false
    · simp [gstep, hs]
    · have hs' : td.stats = true := by simpa using hs
      obtain ⟨g, last⟩ := s
      cases g with
      | nil => simp [gstep, hs']
      | cons e g =>
        simp only [gstep, if_neg hs]
        split <;> simp [hs']

/-- Nothing is empty, and jobs of one entry are of one group. -/
theorem sameGid (tds : List Td) (s : List (List Td) × Option Nat) (h1 : ∀ e ∈ s.1, e ≠ [] ∧ ∀ a ∈ e, ∀ b ∈ e, a.gid = b.gid)
    (h2 : ∀ e g, s.1 = e :: g → ∀ a ∈ e, s.2 = some a.gid) :
    ∀ e ∈ (tds.foldl gstep s).1, e ≠ [] ∧ ∀ a ∈ e, ∀ b ∈ e, a.gid = b.gid := by
  induction tds generalizing s with
  | nil => exact h1
  | cons td tds ih =>
    rw [List.foldl_cons]
    obtain ⟨g, last⟩ := s
    by_cases hs : td.stats = false
    · simp only [gstep, hs, if_true]
      exact ih _ h1 h2
    · cases g with
      | nil =>
        simp only [gstep, if_neg hs]
        exact ih _ (by simp) (by simp)
      | cons e g =>
        simp only [gstep, if_neg hs]
        split
        · apply ih
          · intro e' he'
            rcases List.mem_cons.1 he' with rfl | he'
            · simp
            · exact h1 e' he'
          · intro e' g' h; simp only [List.cons.injEq] at h; obtain ⟨rfl, -⟩ := h; simp
        · rename_i hn
          have hl : last = some td.gid := by grind
          have he := h2 e g rfl
          simp only at he
          apply ih
          · intro e' he'
            rcases List.mem_cons.1 he' with rfl | he'
            · refine ⟨by simp, ?_⟩
              intro a ha b hb
              have := h1 e (by simp)
              grind
            · exact h1 e' (List.mem_cons_of_mem _ he')
          · intro e' g' h
            simp only [List.cons.injEq] at h
            obtain ⟨rfl, -⟩ := h
            intro a ha
            grind

theorem sameGid0 (tds : List Td) : ∀ e ∈ (tds.foldl gstep ([], none)).1, e ≠ [] ∧ ∀ a ∈ e, ∀ b ∈ e, a.gid = b.gid :=
  sameGid tds ([], none) (by simp) (by simp)

/-! ## Tidy jobs -/

/-- What holds after some of the jobs. -/
structure TInv (all : List Td) (s : List (List Td) × Option Nat) (c : Nat × Option Nat) : Prop where
  len : s.1.length = c.1
  none : s.1 = [] → s.2 = none
  mem : ∀ e ∈ s.1, e ≠ [] ∧ ∀ a ∈ e, a ∈ all ∧ ∃ L, s.2 = some L ∧ a.gid ≤ L
  head : ∀ e g, s.1 = e :: g → ∀ a ∈ e, s.2 = some a.gid
  together : ∀ e ∈ s.1, 2 ≤ e.length → (∀ a ∈ e, a.grp = true) ∧ ∀ a ∈ e, ∀ b ∈ e, a.gid = b.gid
  apart : s.1.Pairwise (fun f e => ∀ a ∈ e, ∀ b ∈ f, a.grp = true → b.grp = true → a.gid ≠ b.gid)
  nlast : ∀ L, s.2 = some L → ∃ a ∈ all, a.gid = L ∧ (a.grp = true → c.2 = some L)
  nle : ∀ g, c.2 = some g → ∃ g', s.2 = some g' ∧ g ≤ g'

theorem tinv_step (all : List Td) (ht : Tidy all) (s : List (List Td) × Option Nat) (c : Nat × Option Nat) (td : Td) (hm : td ∈ all)
    (hle : ∀ g, s.2 = some g → g ≤ td.gid) (h : TInv all s c) : TInv all (gstep s td) (countStep c td) := by
  obtain ⟨g, last⟩ := s
  obtain ⟨nr, nlast⟩ := c
  obtain ⟨h1, h2, h3, h4, h5, h6, h7, h8⟩ := h
  simp only at *
  by_cases hs : td.stats = false
  · have hg : td.grp = true := by
      cases hg : td.grp with
      | true => rfl
      | false => exact absurd (ht.2 td hm hg) (by simp [hs])
    have e1 : gstep (g, last) td = (g, last) := by simp [gstep, hs]
    have e2 : countStep (nr, nlast) td = (nr, nlast) := by simp [countStep, hg, hs]
    rw [e1, e2]
    exact ⟨h1, h2, h3, h4, h5, h6, h7, h8⟩
  · cases g with
    | nil =>
      have hl := h2 rfl
      subst hl
      have hn : nlast = none := by
        cases nlast with
        | none => rfl
        | some x => obtain ⟨g', a, -⟩ := h8 x rfl; cases a
      subst hn
      have e1 : gstep ([], none) td = ([[td]], some td.gid) := by simp [gstep, hs]
      have e2 : countStep (nr, none) td = (nr + 1, if td.grp = false then none else some td.gid) := by
        simp only [countStep]
        by_cases hg : td.grp = false <;> simp [hg, hs]
      rw [e1, e2]
      refine ⟨by simp at h1 ⊢; omega, by simp, by simp [hm], by simp, by simp, by simp, ?_, ?_⟩
      · intro L hL
        exact ⟨td, hm, by simpa using hL, by intro hg; simpa [hg] using hL⟩
      · intro L hL
        by_cases hg : td.grp = false
        · simp [hg] at hL
        · rw [if_neg hg] at hL
          exact ⟨L, hL, Nat.le_refl _⟩
    | cons e g =>
      obtain ⟨L, hL⟩ : ∃ L, last = some L := by
        have := h3 e (by simp)
        obtain ⟨a, ha⟩ := List.exists_mem_of_ne_nil e this.1
        exact ⟨_, h4 e g rfl a ha⟩
      subst hL
      have hLe := hle L rfl
      by_cases hnew : td.grp = false ∨ some L ≠ some td.gid
      · have e1 : gstep (e :: g, some L) td = ([td] :: e :: g, some td.gid) := by simp only [gstep, if_neg hs, if_pos hnew]
        have e2 : countStep (nr, nlast) td = (nr + 1, if td.grp = false then nlast else some td.gid) := by
          simp only [countStep]
          by_cases hg : td.grp = false
          · simp [hg]
          · have hne : L ≠ td.gid := by grind
            have : nlast ≠ some td.gid := by
              intro hh
              obtain ⟨g', a, b⟩ := h8 _ hh
              grind
            simp [hg, hs, this]
        rw [e1, e2]
        refine ⟨by simpa using h1, by simp, ?_, ?_, ?_, ?_, ?_, ?_⟩
        · intro e' he'
          rcases List.mem_cons.1 he' with rfl | he'
          · simp [hm]
          · refine ⟨(h3 e' he').1, fun a ha => ?_⟩
            obtain ⟨m, L', e, l⟩ := (h3 e' he').2 a ha
            simp only [Option.some.injEq] at e
            exact ⟨m, td.gid, rfl, by omega⟩
        · intro e' g' hh; simp only [List.cons.injEq] at hh; obtain ⟨rfl, -⟩ := hh; simp
        · intro e' he'
          rcases List.mem_cons.1 he' with rfl | he'
          · simp
          · exact h5 e' he'
        · rw [List.pairwise_cons]
          refine ⟨?_, h6⟩
          intro e' he' a ha b hb hga hgb
          simp only [List.mem_singleton] at hb
          subst hb
          obtain ⟨m, L', e, l⟩ := (h3 e' he').2 a ha
          simp only [Option.some.injEq] at e
          rcases hnew with hnew | hnew
          · rw [hnew] at hgb; cases hgb
          · simp only [ne_eq, Option.some.injEq] at hnew
            omega
        · intro L' hL'
          exact ⟨td, hm, by simpa using hL', by intro hg; simpa [hg] using hL'⟩
        · intro L' hL'
          by_cases hg : td.grp = false
          · rw [if_pos hg] at hL'
            obtain ⟨g', a, b⟩ := h8 L' hL'
            simp only [Option.some.injEq] at a
            exact ⟨td.gid, rfl, by omega⟩
          · rw [if_neg hg] at hL'
            exact ⟨L', hL', Nat.le_refl _⟩
      · have e1 : gstep (e :: g, some L) td = ((e ++ [td]) :: g, some td.gid) := by simp only [gstep, if_neg hs, if_neg hnew]
        have hg : td.grp = true := by grind
        have hLt : L = td.gid := by grind
        subst hLt
        have hn : nlast = some td.gid := by
          obtain ⟨a, ma, ga, ha⟩ := h7 _ rfl
          exact ha (by rw [ht.1 a ma td hm ga, hg])
        have e2 : countStep (nr, nlast) td = (nr, nlast) := by simp [countStep, hg, hn]
        have hhead := h4 e g rfl
        have hege : ∀ a ∈ e, a.gid = td.gid ∧ a.grp = true := fun a ha => by
          have h9 := hhead a ha
          simp only [Option.some.injEq] at h9
          exact ⟨h9.symm, by rw [ht.1 a ((h3 e (by simp)).2 a ha).1 td hm h9.symm, hg]⟩
        rw [e1, e2]
        refine ⟨by simpa using h1, by simp, ?_, ?_, ?_, ?_, ?_, ?_⟩
        · intro e' he'
          rcases List.mem_cons.1 he' with rfl | he'
          · refine ⟨by simp, fun a ha => ?_⟩
            rcases List.mem_append.1 ha with ha | ha
            · exact (h3 e (by simp)).2 a ha
            · simp only [List.mem_singleton] at ha
              subst ha
              exact ⟨hm, a.gid, rfl, Nat.le_refl _⟩
          · exact h3 e' (List.mem_cons_of_mem _ he')
        · intro e' g' hh
          simp only [List.cons.injEq] at hh
          obtain ⟨rfl, -⟩ := hh
          intro a ha
          rcases List.mem_append.1 ha with ha | ha
          · exact hhead a ha
          · simp only [List.mem_singleton] at ha; subst ha; rfl
        · intro e' he'
          rcases List.mem_cons.1 he' with rfl | he'
          · intro _
            have hall : ∀ a ∈ e ++ [td], a.gid = td.gid ∧ a.grp = true := by
              intro a ha
              rcases List.mem_append.1 ha with ha | ha
              · exact hege a ha
              · simp only [List.mem_singleton] at ha; subst ha; exact ⟨rfl, hg⟩
            exact ⟨fun a ha => (hall a ha).2, fun a ha b hb => by rw [(hall a ha).1, (hall b hb).1]⟩
          · exact h5 e' (List.mem_cons_of_mem _ he')
        · rw [List.pairwise_cons] at h6 ⊢
          refine ⟨?_, h6.2⟩
          intro e' he' a ha b hb hga hgb
          rcases List.mem_append.1 hb with hb | hb
          · exact h6.1 e' he' a ha b hb hga hgb
          · simp only [List.mem_singleton] at hb
            subst hb
            obtain ⟨x, hx⟩ := List.exists_mem_of_ne_nil e (h3 e (by simp)).1
            have := h6.1 e' he' a ha x hx hga (hege x hx).2
            rw [(hege x hx).1] at this
            exact this
        · intro L' hL'
          exact ⟨td, hm, by simpa using hL', by intro _; rw [hn]; exact hL'⟩
        · intro L' hL'
          rw [hn] at hL'
          exact ⟨L', hL', Nat.le_refl _⟩

theorem gstep_last (s : List (List Td) × Option Nat) (td : Td) (L : Nat) (h : (gstep s td).2 = some L) : s.2 = some L ∨ L = td.gid := by
  unfold gstep at h
  split at h
  · exact Or.inl h
  · split at h
    · exact Or.inr (by simpa using h.symm)
    · split at h <;> exact Or.inr (by simpa using h.symm)

theorem tinv (all : List Td) (ht : Tidy all) (tds : List Td) (hm : ∀ td ∈ tds, td ∈ all) (ho : tds.Pairwise (fun a b => a.gid ≤ b.gid))
    (s : List (List Td) × Option Nat) (c : Nat × Option Nat) (h1 : ∀ td ∈ tds, ∀ g, s.2 = some g → g ≤ td.gid) (h : TInv all s c) :
    TInv all (tds.foldl gstep s) (tds.foldl countStep c) := by
  induction tds generalizing s c with
  | nil => exact h
  | cons td tds ih =>
    rw [List.pairwise_cons] at ho
    apply ih (fun t ht => hm t (List.mem_cons_of_mem _ ht)) ho.2
    · intro t ht' L hL
      rcases gstep_last s td L hL with h' | rfl
      · exact h1 t (List.mem_cons_of_mem _ ht') L h'
      · exact ho.1 t ht'
    · exact tinv_step all ht s c td (hm td (by simp)) (h1 td (by simp)) h

theorem tinv0 (tds : List Td) (ht : Tidy tds) (ho : tds.Pairwise (fun a b => a.gid ≤ b.gid)) :
    TInv tds (tds.foldl gstep ([], none)) (tds.foldl countStep (0, none)) :=
  tinv tds ht tds (fun _ h => h) ho ([], none) (0, none) (fun _ _ _ h => by cases h)
    ⟨rfl, fun _ => rfl, by simp, by simp, by simp, by simp, by simp, by simp⟩

/-! ## Sums of an entry -/

theorem addTd_gid (ts : Ts) (td : Td) : (addTd ts td).gid = some (ts.gid.getD td.gid) := by
  unfold addTd enter
  cases h : ts.gid <;> simp [sumDdir, h]

theorem addTd_members (ts : Ts) (td : Td) : (addTd ts td).members = ts.members ++ [td] := by
  unfold addTd enter
  cases h : ts.gid <;> simp [sumDdir]

theorem foldl_members (e : List Td) (ts : Ts) : (e.foldl addTd ts).members = ts.members ++ e := by
  induction e generalizing ts with
  | nil => simp
  | cons td e ih => rw [List.foldl_cons, ih, addTd_members]; simp

theorem mk_members (e : List Td) : (mk e).members = e := by simp [mk, foldl_members, Ts.init]

theorem foldl_gid (e : List Td) (ts : Ts) (g : Nat) (h : ts.gid = some g) : (e.foldl addTd ts).gid = some g := by
  induction e generalizing ts with
  | nil => exact h
  | cons td e ih => exact ih _ (by rw [addTd_gid, h]; rfl)

theorem mk_gid (td : Td) (e : List Td) : (mk (td :: e)).gid = some td.gid :=
  foldl_gid e _ _ (by rw [addTd_gid]; rfl)

theorem addTd_plain (ts : Ts) (td : Td) (h : ts.mixed = false) (hg : ts.gid.isSome ∨ td.mixed = false) (d : Nat) (hd : d < 3) :
    (addTd ts td).mixed = false ∧ (addTd ts td).bytes d = (ts.bytes d + td.bytes d) % 2 ^ 64 ∧
      (addTd ts td).runtime d = max (ts.runtime d) (td.runtime d) := by
  have hm : (enter ts td).mixed = false := by
    unfold enter
    cases hgid : ts.gid with
    | none => rw [hgid] at hg; simpa using hg
    | some g => exact h
  have hb : (enter ts td).bytes = ts.bytes := by unfold enter; cases ts.gid <;> rfl
  have hr : (enter ts td).runtime = ts.runtime := by unfold enter; cases ts.gid <;> rfl
  unfold addTd
  revert hm hb hr
  generalize (enter ts td) = t
  intro hm hb hr
  simp only [List.foldl_cons, List.foldl_nil, sumDdir, hm, Bool.false_eq_true, if_false]
  refine ⟨trivial, ?_, ?_⟩
  · rw [← hb]
    have : d = 0 ∨ d = 1 ∨ d = 2 := by omega
    rcases this with rfl | rfl | rfl <;> simp [upd]
  · rw [← hr]
    have : d = 0 ∨ d = 1 ∨ d = 2 := by omega
    rcases this with rfl | rfl | rfl <;> grind [upd]

theorem foldl_plain (e : List Td) (ts : Ts) (h : ts.mixed = false) (hg : ts.gid.isSome) (d : Nat) (hd : d < 3) (hb : ts.bytes d < 2 ^ 64) :
    (e.foldl addTd ts).mixed = false ∧ (e.foldl addTd ts).bytes d = (ts.bytes d + total (e.map (·.bytes d))) % 2 ^ 64 ∧
      (e.foldl addTd ts).runtime d = max (ts.runtime d) (largest (e.map (·.runtime d))) := by
  induction e generalizing ts with
  | nil => simp [h, total, largest, Nat.mod_eq_of_lt hb]
  | cons td e ih =>
    obtain ⟨a, b, c⟩ := addTd_plain ts td h (Or.inl hg) d hd
    obtain ⟨a', b', c'⟩ := ih (addTd ts td) a (by rw [addTd_gid]; rfl) (by rw [b]; exact Nat.mod_lt _ (by decide))
    rw [List.foldl_cons]
    refine ⟨a', ?_, ?_⟩
    · rw [b', b]; simp only [List.map_cons, total]; omega
    · rw [c', c]; simp only [List.map_cons, largest]; omega

theorem mk_plain (e : List Td) (he : e ≠ []) (h : ∀ td ∈ e, td.mixed = false) (d : Nat) (hd : d < 3) :
    (mk e).mixed = false ∧ (mk e).bytes d = total (e.map (·.bytes d)) % 2 ^ 64 ∧ (mk e).runtime d = largest (e.map (·.runtime d)) := by
  cases e with
  | nil => exact absurd rfl he
  | cons td e =>
    obtain ⟨a, b, c⟩ := addTd_plain Ts.init td rfl (Or.inr (h td (by simp))) d hd
    obtain ⟨a', b', c'⟩ := foldl_plain e (addTd Ts.init td) a (by rw [addTd_gid]; rfl) d hd (by rw [b]; exact Nat.mod_lt _ (by decide))
    refine ⟨a', ?_, ?_⟩
    · have i0 : Ts.init.bytes d = 0 := rfl
      simp only [mk, List.foldl_cons, b', b, List.map_cons, total, i0]; omega
    · have i0 : Ts.init.runtime d = 0 := rfl
      simp only [mk, List.foldl_cons, c', c, List.map_cons, largest, i0]; omega

theorem addTd_mixed (ts : Ts) (td : Td) (h : (ts.gid.isSome ∧ ts.mixed = true) ∨ (ts.gid = none ∧ td.mixed = true)) :
    (addTd ts td).mixed = true ∧ (addTd ts td).bytes 0 = (ts.bytes 0 + td.bytes 0 + td.bytes 1 + td.bytes 2) % 2 ^ 64 ∧
      (addTd ts td).runtime 0 = max (ts.runtime 0) (max (td.runtime 0) (max (td.runtime 1) (td.runtime 2))) := by
  have hm : (enter ts td).mixed = true := by
    unfold enter
    cases hgid : ts.gid with
    | none => rw [hgid] at h; simpa using h
    | some g => rw [hgid] at h; simpa using h
  have hb : (enter ts td).bytes = ts.bytes := by unfold enter; cases ts.gid <;> rfl
  have hr : (enter ts td).runtime = ts.runtime := by unfold enter; cases ts.gid <;> rfl
  unfold addTd
  revert hm hb hr
  generalize (enter ts td) = t
  intro hm hb hr
  simp only [List.foldl_cons, List.foldl_nil, sumDdir, hm, if_true]
  refine ⟨trivial, ?_, ?_⟩
  · rw [← hb]
    simp only [upd, if_true]; omega
  · rw [← hr]; grind [upd]

theorem foldl_mixed (e : List Td) (ts : Ts) (h : ts.mixed = true) (hg : ts.gid.isSome) (hb : ts.bytes 0 < 2 ^ 64) :
    (e.foldl addTd ts).mixed = true ∧
      (e.foldl addTd ts).bytes 0 = (ts.bytes 0 + total (e.map fun td => td.bytes 0 + td.bytes 1 + td.bytes 2)) % 2 ^ 64 := by
  induction e generalizing ts with
  | nil => simp [h, total, Nat.mod_eq_of_lt hb]
  | cons td e ih =>
    obtain ⟨a, b, -⟩ := addTd_mixed ts td (Or.inl ⟨hg, h⟩)
    obtain ⟨a', b'⟩ := ih (addTd ts td) a (by rw [addTd_gid]; rfl) (by rw [b]; exact Nat.mod_lt _ (by decide))
    rw [List.foldl_cons]
    refine ⟨a', ?_⟩
    rw [b', b]; simp only [List.map_cons, total]; omega

theorem mk_mixed (td : Td) (e : List Td) (h : td.mixed = true) :
    (mk (td :: e)).bytes 0 = total ((td :: e).map fun td => td.bytes 0 + td.bytes 1 + td.bytes 2) % 2 ^ 64 := by
  obtain ⟨a, b, -⟩ := addTd_mixed Ts.init td (Or.inr ⟨rfl, h⟩)
  obtain ⟨-, b'⟩ := foldl_mixed e (addTd Ts.init td) a (by rw [addTd_gid]; rfl) (by rw [b]; exact Nat.mod_lt _ (by decide))
  have i0 : Ts.init.bytes 0 = 0 := rfl
  simp only [mk, List.foldl_cons, b', b, List.map_cons, total, i0]; omega

/-! ## Groups -/

/-- An entry added to its group. -/
def rsAdd (rs : Rs) (ts : Ts) : Rs := [0, 1, 2].foldl (rsDdir ts) rs

theorem rs_fold (tss : List Ts) (rss : List Rs) (h : ∀ ts ∈ tss, ∀ g, ts.gid = some g → g < rss.length) :
    ∃ rss', tss.foldlM rsStep rss = some rss' ∧ rss'.length = rss.length ∧
      ∀ g, g < rss.length → rss'[g]? = (rss[g]?).map fun rs => (tss.filter fun ts => ts.gid = some g).foldl rsAdd rs := by
  induction tss generalizing rss with
  | nil => exact ⟨rss, rfl, rfl, by simp⟩
  | cons ts tss ih =>
    rw [List.foldlM_cons]
    cases hg : ts.gid with
    | none =>
      obtain ⟨r, a, b, c⟩ := ih rss (fun t ht => h t (List.mem_cons_of_mem _ ht))
      refine ⟨r, by simpa [rsStep, hg] using a, b, ?_⟩
      intro g hlt
      rw [c g hlt]; simp [hg]
    | some k =>
      have hk := h ts (by simp) k hg
      have e1 : rsStep rss ts = some (rss.set k (rsAdd rss[k] ts)) := by
        simp [rsStep, hg, rsAdd, List.getElem?_eq_getElem hk]
      rw [e1]
      obtain ⟨r, a, b, c⟩ := ih (rss.set k (rsAdd rss[k] ts)) (fun t ht => by simpa using h t (List.mem_cons_of_mem _ ht))
      refine ⟨r, a, by simpa using b, ?_⟩
      intro g hlt
      rw [c g (by simpa using hlt)]
      by_cases hkg : k = g
      · subst hkg
        simp [hg, hk]
      · simp [hg, hkg, List.getElem?_set_ne]

theorem rsDdir_other (ts : Ts) (rs : Rs) (j d : Nat) (h : d ≠ j) :
    (rsDdir ts rs j).iobytes d = rs.iobytes d ∧ (rsDdir ts rs j).maxRun d = rs.maxRun d := by
  unfold rsDdir
  by_cases h0 : ts.runtime j = 0
  · simp only [h0, if_true]; exact ⟨trivial, trivial⟩
  · simp only [if_neg h0]
    refine ⟨by simp [upd, h], ?_⟩
    split <;> simp [upd, h]

theorem rsDdir_same (ts : Ts) (rs : Rs) (d : Nat) (hz : ts.runtime d = 0 → ts.bytes d = 0) (hb : rs.iobytes d < 2 ^ 64) :
    (rsDdir ts rs d).iobytes d = (rs.iobytes d + ts.bytes d) % 2 ^ 64 ∧ (rsDdir ts rs d).maxRun d = max (rs.maxRun d) (ts.runtime d) := by
  unfold rsDdir
  by_cases h : ts.runtime d = 0
  · simp only [h, if_true]
    rw [hz h]
    exact ⟨by rw [Nat.add_zero, Nat.mod_eq_of_lt hb], by omega⟩
  · simp only [if_neg h]
    refine ⟨by simp [upd], ?_⟩
    split
    · simp [upd]; omega
    · omega

theorem rsAdd_eq (ts : Ts) (rs : Rs) (d : Nat) (hd : d < 3) (hz : ts.runtime d = 0 → ts.bytes d = 0) (hb : rs.iobytes d < 2 ^ 64) :
    (rsAdd rs ts).iobytes d = (rs.iobytes d + ts.bytes d) % 2 ^ 64 ∧ (rsAdd rs ts).maxRun d = max (rs.maxRun d) (ts.runtime d) := by
  unfold rsAdd
  simp only [List.foldl_cons, List.foldl_nil]
  have : d = 0 ∨ d = 1 ∨ d = 2 := by omega
  rcases this with rfl | rfl | rfl
  · rw [(rsDdir_other _ _ 2 0 (by decide)).1, (rsDdir_other _ _ 2 0 (by decide)).2, (rsDdir_other _ _ 1 0 (by decide)).1,
      (rsDdir_other _ _ 1 0 (by decide)).2]
    exact rsDdir_same ts rs 0 hz hb
  · rw [(rsDdir_other _ _ 2 1 (by decide)).1, (rsDdir_other _ _ 2 1 (by decide)).2]
    have h0 := rsDdir_other ts rs 0 1 (by decide)
    have := rsDdir_same ts (rsDdir ts rs 0) 1 hz (by rw [h0.1]; exact hb)
    rw [h0.1, h0.2] at this
    exact this
  · have h0 := rsDdir_other ts rs 0 2 (by decide)
    have h1 := rsDdir_other ts (rsDdir ts rs 0) 1 2 (by decide)
    have := rsDdir_same ts (rsDdir ts (rsDdir ts rs 0) 1) 2 hz (by rw [h1.1, h0.1]; exact hb)
    rw [h1.1, h1.2, h0.1, h0.2] at this
    exact this

theorem rsFold_eq (tss : List Ts) (rs : Rs) (d : Nat) (hd : d < 3) (hz : ∀ ts ∈ tss, ts.runtime d = 0 → ts.bytes d = 0)
    (hb : rs.iobytes d < 2 ^ 64) :
    (tss.foldl rsAdd rs).iobytes d = (rs.iobytes d + total (tss.map (·.bytes d))) % 2 ^ 64 ∧
      (tss.foldl rsAdd rs).maxRun d = max (rs.maxRun d) (largest (tss.map (·.runtime d))) := by
  induction tss generalizing rs with
  | nil => exact ⟨by simp [total, Nat.mod_eq_of_lt hb], by simp [largest]⟩
  | cons ts tss ih =>
    obtain ⟨a, b⟩ := rsAdd_eq ts rs d hd (hz ts (by simp)) hb
    obtain ⟨a', b'⟩ := ih (rsAdd rs ts) (fun t ht => hz t (List.mem_cons_of_mem _ ht)) (by rw [a]; exact Nat.mod_lt _ (by decide))
    rw [List.foldl_cons, a', b', a, b]
    simp only [List.map_cons, total, largest]
    exact ⟨by omega, by omega⟩

/-! ## Extremes of the groups -/

/-- What `rsDdir` does to the extremes of a direction. -/
structure Ext (rs rs' : Rs) (ts : Ts) (d : Nat) : Prop where
  skip : ts.runtime d = 0 → rs'.minRun d = rs.minRun d ∧ rs'.minBw d = rs.minBw d ∧ rs'.maxBw d = rs.maxBw d
  use : ts.runtime d ≠ 0 → rs'.minRun d = min (rs.minRun d) (ts.runtime d) ∧
    rs'.minBw d = min (rs.minBw d) (ts.bytes d * 1000 % 2 ^ 64 / ts.runtime d) ∧
    rs'.maxBw d = max (rs.maxBw d) (ts.bytes d * 1000 % 2 ^ 64 / ts.runtime d)

theorem rsDdir_ext_other (ts : Ts) (rs : Rs) (j d : Nat) (h : d ≠ j) :
    (rsDdir ts rs j).minRun d = rs.minRun d ∧ (rsDdir ts rs j).minBw d = rs.minBw d ∧ (rsDdir ts rs j).maxBw d = rs.maxBw d := by
  unfold rsDdir
  by_cases h0 : ts.runtime j = 0
  · simp only [h0, if_true]; exact ⟨trivial, trivial, trivial⟩
  · simp only [if_neg h0]
    refine ⟨?_, ?_, ?_⟩ <;> split <;> simp [upd, h]

theorem rsDdir_ext (ts : Ts) (rs : Rs) (d : Nat) (hm : rs.minRun d ≠ 0) : Ext rs (rsDdir ts rs d) ts d := by
  unfold rsDdir
  by_cases h : ts.runtime d = 0
  · simp only [h, if_true]
    exact ⟨fun _ => ⟨rfl, rfl, rfl⟩, fun hn => absurd h hn⟩
  · simp only [if_neg h]
    refine ⟨fun hz => absurd hz h, fun _ => ⟨?_, ?_, ?_⟩⟩
    · dsimp only
      split
      · simp [upd]; omega
      · omega
    · dsimp only
      split
      · simp only [upd, if_true]; omega
      · omega
    · dsimp only
      split
      · simp only [upd, if_true]; omega
      · omega

theorem rsAdd_ext (ts : Ts) (rs : Rs) (d : Nat) (hd : d < 3) (hm : rs.minRun d ≠ 0) : Ext rs (rsAdd rs ts) ts d := by
  unfold rsAdd
  simp only [List.foldl_cons, List.foldl_nil]
  have : d = 0 ∨ d = 1 ∨ d = 2 := by omega
  rcases this with rfl | rfl | rfl
  · obtain ⟨a1, a2, a3⟩ := rsDdir_ext_other ts (rsDdir ts (rsDdir ts rs 0) 1) 2 0 (by decide)
    obtain ⟨b1, b2, b3⟩ := rsDdir_ext_other ts (rsDdir ts rs 0) 1 0 (by decide)
    obtain ⟨k, u⟩ := rsDdir_ext ts rs 0 hm
    exact ⟨by rw [a1, a2, a3, b1, b2, b3]; exact k, by rw [a1, a2, a3, b1, b2, b3]; exact u⟩
  · obtain ⟨a1, a2, a3⟩ := rsDdir_ext_other ts (rsDdir ts (rsDdir ts rs 0) 1) 2 1 (by decide)
    obtain ⟨b1, b2, b3⟩ := rsDdir_ext_other ts rs 0 1 (by decide)
    obtain ⟨k, u⟩ := rsDdir_ext ts (rsDdir ts rs 0) 1 (by rw [b1]; exact hm)
    rw [b1, b2, b3] at k u
    exact ⟨by rw [a1, a2, a3]; exact k, by rw [a1, a2, a3]; exact u⟩
  · obtain ⟨a1, a2, a3⟩ := rsDdir_ext_other ts (rsDdir ts rs 0) 1 2 (by decide)
    obtain ⟨b1, b2, b3⟩ := rsDdir_ext_other ts rs 0 2 (by decide)
    obtain ⟨k, u⟩ := rsDdir_ext ts (rsDdir ts (rsDdir ts rs 0) 1) 2 (by rw [a1, b1]; exact hm)
    rw [a1, a2, a3, b1, b2, b3] at k u
    exact ⟨k, u⟩

theorem rsFold_ext (tss : List Ts) (rs : Rs) (d : Nat) (hd : d < 3) (hm : rs.minRun d ≠ 0) (hi : rs.minRun d ≤ 2 ^ 64 - 1) (hj : rs.minBw d ≤ 2 ^ 64 - 1) :
    (tss.foldl rsAdd rs).minRun d = min (rs.minRun d) (least ((tss.filter fun ts => ts.runtime d ≠ 0).map (·.runtime d))) ∧
    (tss.foldl rsAdd rs).minBw d =
      min (rs.minBw d) (least ((tss.filter fun ts => ts.runtime d ≠ 0).map fun ts => ts.bytes d * 1000 % 2 ^ 64 / ts.runtime d)) ∧
    (tss.foldl rsAdd rs).maxBw d =
      max (rs.maxBw d) (largest ((tss.filter fun ts => ts.runtime d ≠ 0).map fun ts => ts.bytes d * 1000 % 2 ^ 64 / ts.runtime d)) := by
  induction tss generalizing rs with
  | nil => simp only [List.foldl_nil, List.filter_nil, List.map_nil, least, largest]; omega
  | cons ts tss ih =>
    obtain ⟨k, u⟩ := rsAdd_ext ts rs d hd hm
    rw [List.foldl_cons]
    by_cases h : ts.runtime d = 0
    · obtain ⟨k1, k2, k3⟩ := k h
      have := ih (rsAdd rs ts) (by rw [k1]; exact hm) (by rw [k1]; exact hi) (by rw [k2]; exact hj)
      rw [k1, k2, k3] at this
      rw [List.filter_cons_of_neg (by simp [h])]
      exact this
    · obtain ⟨k1, k2, k3⟩ := u h
      obtain ⟨i1, i2, i3⟩ := ih (rsAdd rs ts) (by omega) (by omega) (by omega)
      rw [k1] at i1; rw [k2] at i2; rw [k3] at i3
      rw [List.filter_cons_of_pos (by simp [h])]
      simp only [List.map_cons, least, largest]
      exact ⟨by omega, by omega, by omega⟩

theorem rs_within (tss : List Ts) (rss r : List Rs) (e : tss.foldlM rsStep rss = some r) : ∀ ts ∈ tss, ∀ g, ts.gid = some g → g < rss.length := by
  induction tss generalizing rss with
  | nil => intro ts hts; cases hts
  | cons t tss ih =>
    rw [List.foldlM_cons] at e
    cases hs : rsStep rss t with
    | none => rw [hs] at e; cases e
    | some rss1 =>
      rw [hs] at e
      have hl : rss1.length = rss.length ∧ ∀ g, t.gid = some g → g < rss.length := by
        unfold rsStep at hs
        cases hg : t.gid with
        | none => rw [hg] at hs; simp only [Option.some.injEq] at hs; subst hs; exact ⟨rfl, fun _ h => (by cases h)⟩
        | some k =>
          rw [hg] at hs
          simp only at hs
          cases hk : rss[k]? with
          | none => rw [hk] at hs; cases hs
          | some rs =>
            rw [hk] at hs
            simp only [Option.some.injEq] at hs
            subst hs
            refine ⟨by simp, ?_⟩
            intro g h
            cases h
            exact (List.getElem?_eq_some_iff.1 hk).1
      intro ts hts g hg
      rcases List.mem_cons.1 hts with rfl | hts
      · exact hl.2 g hg
      · rw [← hl.1]; exact ih rss1 e ts hts g hg

theorem total_append (a b : List Nat) : total (a ++ b) = total a + total b := by
  induction a with
  | nil => simp [total]
  | cons x a ih => simp only [List.cons_append, total, ih]; omega

theorem largest_append (a b : List Nat) : largest (a ++ b) = max (largest a) (largest b) := by
  induction a with
  | nil => simp [largest]
  | cons x a ih => simp only [List.cons_append, largest, ih]; omega

theorem total_zero (l : List Nat) (h : ∀ x ∈ l, x = 0) : total l = 0 := by
  induction l with
  | nil => rfl
  | cons x l ih => simp only [total, h x (by simp), ih (fun y hy => h y (List.mem_cons_of_mem _ hy))]

theorem le_largest (l : List Nat) (x : Nat) (h : x ∈ l) : x ≤ largest l := by
  induction l with
  | nil => cases h
  | cons y l ih =>
    simp only [largest]
    rcases List.mem_cons.1 h with rfl | h
    · omega
    · have := ih h; omega

/-- Sums over the entries of a group are sums over its jobs. -/
theorem sum_entries (es : List (List Td)) (hes : ∀ e ∈ es, e ≠ [] ∧ ∀ a ∈ e, ∀ b ∈ e, a.gid = b.gid) (g d : Nat)
    (hd : d < 3) (hm : ∀ e ∈ es, ∀ td ∈ e, td.mixed = false) :
    total (((es.map mk).filter fun ts => ts.gid = some g).map (·.bytes d)) % 2 ^ 64 =
      total ((es.flatten.filter fun td => td.gid = g).map (·.bytes d)) % 2 ^ 64 ∧
    largest (((es.map mk).filter fun ts => ts.gid = some g).map (·.runtime d)) =
      largest ((es.flatten.filter fun td => td.gid = g).map (·.runtime d)) := by
  induction es with
  | nil => simp [total, largest]
  | cons e es ih =>
    obtain ⟨i1, i2⟩ := ih (fun f hf => hes f (List.mem_cons_of_mem _ hf)) (fun f hf => hm f (List.mem_cons_of_mem _ hf))
    obtain ⟨hne, hsame⟩ := hes e (by simp)
    obtain ⟨td, e', rfl⟩ := List.exists_cons_of_ne_nil hne
    obtain ⟨-, p1, p2⟩ := mk_plain (td :: e') hne (hm _ (by simp)) d hd
    have hgid := mk_gid td e'
    simp only [List.map_cons, List.flatten_cons, List.filter_append, List.map_append, total_append, largest_append]
    by_cases hg : td.gid = g
    · have hall : (td :: e').filter (fun td => td.gid = g) = td :: e' := by
        rw [List.filter_eq_self]
        intro a ha
        simp only [decide_eq_true_eq]
        rw [hsame a ha td (by simp), hg]
      rw [hall, List.filter_cons_of_pos (by rw [hgid, hg]; simp)]
      simp only [List.map_cons, total, largest] at p1 p2 ⊢
      rw [p1, p2]
      exact ⟨by omega, by rw [i2]⟩
    · have hnone : (td :: e').filter (fun td => td.gid = g) = [] := by
        rw [List.filter_eq_nil_iff]
        intro a ha
        simp only [decide_eq_true_eq]
        rw [hsame a ha td (by simp)]
        exact hg
      rw [hnone, List.filter_cons_of_neg (by rw [hgid]; simpa using hg)]
      simp only [List.map_nil, total, largest, Nat.zero_add, Nat.zero_max]
      exact ⟨i1, i2⟩

end Fio.Report
