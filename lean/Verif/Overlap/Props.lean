import Verif.Overlap.Model
/-
C38: with serialize_overlap no two I/Os in flight overlap.
-/
namespace Fio.Overlap

/-- Two ranges (offset, length) have a byte in common. -/
def Overlaps (a b : Nat × Nat) : Prop :=
  ∃ x, a.1 ≤ x ∧ x < a.1 + a.2 ∧ b.1 ≤ x ∧ x < b.1 + b.2

theorem overlaps_iff (a b : Nat × Nat) :
    Overlaps a b ↔ 0 < a.2 ∧ 0 < b.2 ∧ a.1 < b.1 + b.2 ∧ b.1 < a.1 + a.2 := by
  constructor
  · rintro ⟨x, h1, h2, h3, h4⟩; omega
  · intro ⟨h1, h2, h3, h4⟩
    exact ⟨max a.1 b.1, by omega, by omega, by omega, by omega⟩

/-- A job doing I/O is in one of these states, if it has no ramp time: running, reading ahead, verifying,
syncing. -/
def active (r : Run) : Prop := r = .running ∨ r = .preReading ∨ r = .verifying ∨ r = .fsyncing

/-- The run is like one without ramp time: the jobs issue I/O only in the states above, and change to
another state only when none of their I/O is in flight or about to be issued. -/
def Calm (c : Cfg) (s : St) : Act → Prop
  | .start _ u _ _ _ => active (s.run (c.owner u))
  | .restart _ u => active (s.run (c.owner u))
  | .main _ u _ _ _ => active (s.run (c.owner u))
  | .setRun j r => active r ∨ ∀ u, c.owner u = j →
      (s.iou u).dev = none ∧ ∀ w, (s.pc w).on ≠ some u
  | .finLock _ _ => True
  | .finSet w => ∀ j, s.pc w = .finish j → ∀ u, c.owner u = j →
      (s.iou u).dev = none ∧ ∀ w, (s.pc w).on ≠ some u
  | _ => True

/-- All steps of the run are calm. -/
def CalmRun (c : Cfg) (s : St) : List Act → Prop
  | [] => True
  | a :: as => Calm c s a ∧
      match step c s a with
      | .disabled => CalmRun c s as
      | .abort => True
      | .ok s => CalmRun c s as

structure Inv (c : Cfg) (s : St) : Prop where
  dev : ∀ v r, (s.iou v).dev = some r → (s.iou v).flight = true ∧ active (s.run (c.owner v)) ∧
    r.1 = (s.iou v).off ∧ r.2 ≤ (s.iou v).buflen ∧ (s.iou v).off + (s.iou v).buflen < 2 ^ 64
  bound : ∀ v, (s.iou v).dev ≠ none → v < c.nu
  idle : ∀ w, c.nw ≤ w → s.pc w = .idle
  on : ∀ w u, (s.pc w).on = some u → active (s.run (c.owner u)) ∧ u < c.nu ∧
    (s.iou u).xferBuflen ≤ (s.iou u).buflen ∧ (s.iou u).off + (s.iou u).buflen < 2 ^ 64 ∧
    (s.pc w ≠ .engine u → (s.iou u).dev = none)
  uniq : ∀ w w' u, (s.pc w).on = some u → (s.pc w').on = some u → w = w'
  scan : ∀ w u j rest, s.pc w = .scan u j rest → s.lock = some w ∧ j ≤ c.nj ∧
    ∀ v r, c.ser (c.owner v) = true → (s.iou v).dev = some r → c.owner v < j → v ∉ rest →
      ¬ Overlaps ((s.iou u).off, (s.iou u).buflen) r
  queue : ∀ w u, s.pc w = .queue u → s.lock = some w →
    ∀ v r, c.ser (c.owner v) = true → (s.iou v).dev = some r →
      ¬ Overlaps ((s.iou u).off, (s.iou u).buflen) r
  disj : ∀ u v a b, u ≠ v → c.ser (c.owner u) = true → c.ser (c.owner v) = true →
    (s.iou u).dev = some a → (s.iou v).dev = some b → ¬ Overlaps a b
  owner : ∀ v, v < c.nu → c.owner v < c.nj
  held : ∀ w, s.lock = some w → (∃ u j rest, s.pc w = .scan u j rest) ∨ 
    (∃ u, s.pc w = .queue u ∧ c.ser (c.owner u) = true) ∨ ∃ j, s.pc w = .finish j
  wser : ∀ w u, (s.pc w = .want u ∨ ∃ j rest, s.pc w = .scan u j rest) → c.ser (c.owner u) = true
  fin : ∀ w j, s.pc w = .finish j → s.lock = some w

@[simp] theorem upd_same {α : Type} (f : Nat → α) (i : Nat) (x : α) : upd f i x i = x := by simp [upd]
theorem upd_ne {α : Type} (f : Nat → α) (i k : Nat) (x : α) (h : k ≠ i) : upd f i x k = f k := by simp [upd, h]

theorem free_spec {c : Cfg} {s : St} {u : Nat} (h : free c s u = true) :
    u < c.nu ∧ (s.iou u).flight = false ∧ (s.iou u).dev = none ∧ ∀ w, w < c.nw → (s.pc w).on ≠ some u := by
  unfold free at h
  simp only [Bool.and_eq_true, decide_eq_true_eq, Bool.not_eq_true', List.all_eq_true, List.mem_range] at h
  exact ⟨h.1.1.1, h.1.1.2, h.1.2, h.2⟩

theorem no_conflict {x y : Iou} (hx : x.off + x.buflen < 2 ^ 64) (hy : y.off + y.buflen < 2 ^ 64)
    (hf : y.flight = true) (h : conflict x y = false) {r : Nat × Nat} (h1 : r.1 = y.off) (h2 : r.2 ≤ y.buflen) :
    ¬ Overlaps (x.off, x.buflen) r := by
  rw [overlaps_iff]
  unfold conflict at h
  rw [Nat.mod_eq_of_lt hx, Nat.mod_eq_of_lt hy] at h
  simp only [hf, Bool.true_and, Bool.and_eq_false_iff, decide_eq_false_iff_not] at h
  simp only
  omega

theorem mem_ious {c : Cfg} {j v : Nat} (h : v < c.nu) (ho : c.owner v = j) : v ∈ ious c j := by
  simp [ious, h, ho]

theorem active_not_skipped {c : Cfg} {s : St} {j : Nat} (h : active (s.run j)) (hs : c.ser j = true) :
    skipped c s j = false := by
  unfold skipped
  rcases h with h | h | h | h <;> simp [h, Run.num, hs]

/-- Taking up an io_u. -/
theorem inv_take {c : Cfg} {s : St} {w u : Nat} {x : Iou} {p : Pc} (hI : Inv c s) (hw : w < c.nw)
    (hp : s.pc w = .idle) (hf : free c s u = true) (hx : x.dev = none)
    (h1 : x.xferBuflen ≤ x.buflen) (h2 : x.off + x.buflen < 2 ^ 64)
    (ha : active (s.run (c.owner u))) (hq : (p = .want u ∧ c.ser (c.owner u) = true) ∨ (p = .queue u ∧ c.ser (c.owner u) = false)) :
    Inv c { s with iou := upd s.iou u x, pc := upd s.pc w p } := by
  obtain ⟨fu, ff, fd, fw⟩ := free_spec hf
  have hlk : s.lock ≠ some w := by
    intro h
    rcases hI.held w h with ⟨_, _, _, h⟩ | ⟨_, h, _⟩ | ⟨_, h⟩ <;> rw [hp] at h <;> simp at h
  have hon : p.on = some u := by rcases hq with ⟨rfl, _⟩ | ⟨rfl, _⟩ <;> rfl
  have hne : p ≠ .engine u := by rcases hq with ⟨rfl, _⟩ | ⟨rfl, _⟩ <;> simp
  have fw' : ∀ w', (s.pc w').on ≠ some u := by
    intro w'
    by_cases h : w' < c.nw
    · exact fw w' h
    · rw [hI.idle w' (by omega)]; simp [Pc.on]
  have other : ∀ w' v, (s.pc w').on = some v → v ≠ u := by
    rintro w' v h rfl; exact fw' w' h
  have devne : ∀ v r, (s.iou v).dev = some r → v ≠ u := by
    rintro v r h rfl; rw [fd] at h; simp at h
  have dev' : ∀ v r, (upd s.iou u x v).dev = some r → (s.iou v).dev = some r ∧ upd s.iou u x v = s.iou v := by
    intro v r h
    by_cases hv : v = u
    · subst hv; rw [upd_same, hx] at h; simp at h
    · rw [upd_ne _ _ _ _ hv] at h ⊢; exact ⟨h, rfl⟩
  constructor
  · intro v r h
    obtain ⟨h, e⟩ := dev' v r h
    simp only [e]; exact hI.dev v r h
  · intro v h
    simp only at h
    obtain ⟨r, hr⟩ := Option.ne_none_iff_exists'.1 h
    obtain ⟨h', -⟩ := dev' v r hr
    exact hI.bound v (by rw [h']; simp)
  · intro w' h
    simp only
    rw [upd_ne _ _ _ _ (by omega)]; exact hI.idle w' h
  · intro w' v h
    simp only at h ⊢
    by_cases hw' : w' = w
    · subst hw'
      rw [upd_same, hon] at h
      obtain rfl : u = v := by simpa using h
      simp only [upd_same]
      exact ⟨ha, fu, h1, h2, fun _ => hx⟩
    · rw [upd_ne _ _ _ _ hw'] at h ⊢
      rw [upd_ne _ _ _ _ (other w' v h)]
      exact hI.on w' v h
  · intro w1 w2 v h1 h2
    simp only at h1 h2
    by_cases e1 : w1 = w <;> by_cases e2 : w2 = w
    · omega
    · subst e1; rw [upd_same, hon] at h1; rw [upd_ne _ _ _ _ e2] at h2
      obtain rfl : u = v := by simpa using h1
      exact absurd h2 (fw' w2)
    · subst e2; rw [upd_same, hon] at h2; rw [upd_ne _ _ _ _ e1] at h1
      obtain rfl : u = v := by simpa using h2
      exact absurd h1 (fw' w1)
    · rw [upd_ne _ _ _ _ e1] at h1; rw [upd_ne _ _ _ _ e2] at h2
      exact hI.uniq w1 w2 v h1 h2
  · intro w' v j rest h
    simp only at h ⊢
    by_cases hw' : w' = w
    · subst hw'; rw [upd_same] at h; rcases hq with ⟨rfl, _⟩ | ⟨rfl, _⟩ <;> simp at h
    · rw [upd_ne _ _ _ _ hw'] at h
      obtain ⟨a1, a2, a3⟩ := hI.scan w' v j rest h
      refine ⟨a1, a2, fun v' r hs hd ho hm => ?_⟩
      rw [upd_ne _ _ _ _ (other w' v (by rw [h]; rfl))]
      exact a3 v' r hs (dev' v' r hd).1 ho hm
  · intro w' v h hl v' r hs hd
    simp only at h hl hd ⊢
    by_cases hw' : w' = w
    · subst hw'
      rw [upd_same] at h
      subst h
      have : u = v := by simpa [Pc.on] using hon.symm
      subst this
      exact absurd hl hlk
    · rw [upd_ne _ _ _ _ hw'] at h
      rw [upd_ne _ _ _ _ (other w' v (by rw [h]; rfl))]
      exact hI.queue w' v h hl v' r hs (dev' v' r hd).1
  · intro v1 v2 a b hne h1 h2 d1 d2
    exact hI.disj v1 v2 a b hne h1 h2 (dev' v1 a d1).1 (dev' v2 b d2).1
  · exact hI.owner
  · intro w' h
    simp only at h ⊢
    have : w' ≠ w := by rintro rfl; exact hlk h
    rw [upd_ne _ _ _ _ this]
    exact hI.held w' h
  · intro w' v h
    simp only at h
    by_cases hw' : w' = w
    · subst hw'
      rw [upd_same] at h
      rcases hq with ⟨rfl, hs⟩ | ⟨rfl, _⟩
      · obtain rfl : u = v := by simpa using h
        exact hs
      · simp at h
    · rw [upd_ne _ _ _ _ hw'] at h
      exact hI.wser w' v h
  · intro w' j h
    simp only at h
    by_cases hw' : w' = w
    · subst hw'
      rw [upd_same] at h
      rcases hq with ⟨rfl, hs⟩ | ⟨rfl, _⟩ <;> simp at h
    · rw [upd_ne _ _ _ _ hw'] at h
      exact hI.fin w' j h

/-- A thread changes its place; io_us only leave the engine. -/
theorem inv_move {c : Cfg} {s s' : St} {w : Nat} (hI : Inv c s) (hw : w < c.nw)
    (hpc : ∀ w', w' ≠ w → s'.pc w' = s.pc w')
    (hon : ∀ u, (s'.pc w).on = some u → (s.pc w).on = some u)
    (hdev : ∀ v r, (s'.iou v).dev = some r → s'.iou v = s.iou v)
    (hfld : ∀ v, (∃ w, (s'.pc w).on = some v) → (s'.iou v).off = (s.iou v).off ∧
      (s'.iou v).buflen = (s.iou v).buflen ∧ (s'.iou v).xferBuflen = (s.iou v).xferBuflen)
    (heng : ∀ u, (s'.pc w).on = some u → s'.pc w ≠ .engine u → (s'.iou u).dev = none)
    (hrun : ∀ v, ((s'.iou v).dev ≠ none ∨ ∃ w, (s'.pc w).on = some v) → active (s.run (c.owner v)) →
      active (s'.run (c.owner v)))
    (hlock : ∀ w', w' ≠ w → (s'.lock = some w' ↔ s.lock = some w'))
    (hheld : s'.lock = some w → (∃ u j rest, s'.pc w = .scan u j rest) ∨ 
      (∃ u, s'.pc w = .queue u ∧ c.ser (c.owner u) = true) ∨ ∃ j, s'.pc w = .finish j)
    (hwser : ∀ u, (s'.pc w = .want u ∨ ∃ j rest, s'.pc w = .scan u j rest) → c.ser (c.owner u) = true)
    (hfin : ∀ j, s'.pc w = .finish j → s'.lock = some w)
    (hscan : ∀ u j rest, s'.pc w = .scan u j rest → s'.lock = some w ∧ j ≤ c.nj ∧
      ∀ v r, c.ser (c.owner v) = true → (s.iou v).dev = some r → c.owner v < j → v ∉ rest →
      ¬ Overlaps ((s.iou u).off, (s.iou u).buflen) r)
    (hq : ∀ u, s'.pc w = .queue u → s'.lock = some w →
      ∀ v r, c.ser (c.owner v) = true → (s.iou v).dev = some r →
      ¬ Overlaps ((s.iou u).off, (s.iou u).buflen) r) : Inv c s' := by
  have hd : ∀ v r, (s'.iou v).dev = some r → (s.iou v).dev = some r := by
    intro v r h; rw [← hdev v r h]; exact h
  have hon' : ∀ w' u, (s'.pc w').on = some u → (s.pc w').on = some u := by
    intro w' u h
    by_cases e : w' = w
    · subst e; exact hon u h
    · rw [← hpc w' e]; exact h
  constructor
  · intro v r h
    obtain ⟨a, b, d⟩ := hI.dev v r (hd v r h)
    refine ⟨by rw [hdev v r h]; exact a, hrun v (Or.inl (by rw [h]; simp)) b, by rw [hdev v r h]; exact d⟩
  · intro v h
    obtain ⟨r, hr⟩ := Option.ne_none_iff_exists'.1 h
    exact hI.bound v (by rw [hd v r hr]; simp)
  · intro w' h
    rw [hpc w' (by omega)]; exact hI.idle w' h
  · intro w' u h
    obtain ⟨a, b, d, e, f⟩ := hI.on w' u (hon' w' u h)
    obtain ⟨g1, g2, g3⟩ := hfld u ⟨w', h⟩
    refine ⟨hrun u (Or.inr ⟨w', h⟩) a, b, by omega, by omega, ?_⟩
    intro hne
    by_cases e : w' = w
    · subst e; exact heng u h hne
    · rw [hpc w' e] at hne
      cases hx : (s'.iou u).dev with
      | none => rfl
      | some r => have := hd u r hx; rw [f hne] at this; simp at this
  · intro w1 w2 u h1 h2
    exact hI.uniq w1 w2 u (hon' w1 u h1) (hon' w2 u h2)
  · intro w' u j rest h
    have hh := hfld u ⟨w', by rw [h]; rfl⟩
    by_cases e : w' = w
    · subst e
      obtain ⟨a, b, d⟩ := hscan u j rest h
      refine ⟨a, b, fun v r hs hv ho hm => ?_⟩
      rw [hh.1, hh.2.1]
      exact d v r hs (hd v r hv) ho hm
    · rw [hpc w' e] at h
      obtain ⟨a, b, d⟩ := hI.scan w' u j rest h
      refine ⟨(hlock w' e).2 a, b, fun v r hs hv ho hm => ?_⟩
      rw [hh.1, hh.2.1]
      exact d v r hs (hd v r hv) ho hm
  · intro w' u h hl v r hs hv
    have hh := hfld u ⟨w', by rw [h]; rfl⟩
    rw [hh.1, hh.2.1]
    by_cases e : w' = w
    · subst e; exact hq u h hl v r hs (hd v r hv)
    · rw [hpc w' e] at h
      exact hI.queue w' u h ((hlock w' e).1 hl) v r hs (hd v r hv)
  · intro u v a b hne h1 h2 d1 d2
    exact hI.disj u v a b hne h1 h2 (hd u a d1) (hd v b d2)
  · exact hI.owner
  · intro w' h
    by_cases e : w' = w
    · subst e; exact hheld h
    · rw [hpc w' e]; exact hI.held w' ((hlock w' e).1 h)
  · intro w' u h
    by_cases e : w' = w
    · subst e; exact hwser u h
    · rw [hpc w' e] at h; exact hI.wser w' u h
  · intro w' j h
    by_cases e : w' = w
    · subst e; exact hfin j h
    · rw [hpc w' e] at h; exact (hlock w' e).2 (hI.fin w' j h)

/-- An io_u that no thread works on, which is not (or no longer) with the engine. -/
theorem inv_iou {c : Cfg} {s : St} {u : Nat} {x : Iou} (hI : Inv c s) (hx : x.dev = none)
    (hw : ∀ w, (s.pc w).on ≠ some u) : Inv c { s with iou := upd s.iou u x } := by
  have hd : ∀ v r, (upd s.iou u x v).dev = some r → upd s.iou u x v = s.iou v := by
    intro v r h
    by_cases e : v = u
    · subst e; rw [upd_same, hx] at h; simp at h
    · exact upd_ne _ _ _ _ e
  have hd2 : ∀ v r, (upd s.iou u x v).dev = some r → (s.iou v).dev = some r := by
    intro v r h; rw [← hd v r h]; exact h
  have hon : ∀ w v, (s.pc w).on = some v → upd s.iou u x v = s.iou v := by
    intro w v h
    exact upd_ne _ _ _ _ (by rintro rfl; exact hw w h)
  constructor
  · intro v r h
    simp only [hd v r h]; exact hI.dev v r (hd2 v r h)
  · intro v h
    obtain ⟨r, hr⟩ := Option.ne_none_iff_exists'.1 h
    exact hI.bound v (by rw [hd2 v r hr]; simp)
  · exact hI.idle
  · intro w v h
    simp only [hon w v h]; exact hI.on w v h
  · exact hI.uniq
  · intro w v j rest h
    simp only [hon w v (by rw [h]; rfl)]
    obtain ⟨a, b, d⟩ := hI.scan w v j rest h
    exact ⟨a, b, fun v' r hs hv => d v' r hs (hd2 v' r hv)⟩
  · intro w v h hl v' r hs hv
    simp only [hon w v (by rw [h]; rfl)]
    exact hI.queue w v h hl v' r hs (hd2 v' r hv)
  · intro v1 v2 a b hne h1 h2 d1 d2
    exact hI.disj v1 v2 a b hne h1 h2 (hd2 v1 a d1) (hd2 v2 b d2)
  · exact hI.owner
  · exact hI.held
  · exact hI.wser
  · exact hI.fin

theorem lt_nw {c : Cfg} {s : St} {w : Nat} (hI : Inv c s) (h : s.pc w ≠ .idle) : w < c.nw := by
  apply Nat.lt_of_not_le
  intro hc
  exact h (hI.idle w hc)

/-- td_io_queue by a thread that holds the mutex after the check, or of a job that does not check. -/
theorem inv_queue {c : Cfg} {s s' : St} {w u : Nat} (hI : Inv c s) (hp : s.pc w = .queue u)
    (h : tdQueue c s w u = .ok s') : Inv c s' := by
  have hon : (s.pc w).on = some u := by rw [hp]; rfl
  obtain ⟨ha, hu, hx, h64, hdn⟩ := hI.on w u hon
  have hdn := hdn (by rw [hp]; simp)
  have hlt : w < c.nw := lt_nw hI (by rw [hp]; simp)
  unfold tdQueue at h
  split at h
  · simp at h
  rename_i hfl
  have key : ∃ l, s' = { s with
        iou := upd s.iou u { s.iou u with flight := true, dev := some ((s.iou u).off, (s.iou u).xferBuflen) }
        pc := upd s.pc w (.engine u), lock := l } ∧
      (c.ser (c.owner u) = true → s.lock = some w ∧ l = none) ∧
      (c.ser (c.owner u) = false → l = s.lock) := by
    simp only at h
    split at h
    · rename_i hs
      split at h
      · rename_i hl
        injection h with h
        exact ⟨none, h.symm, fun _ => ⟨hl, rfl⟩, fun hc => by rw [hs] at hc; simp at hc⟩
      · simp at h
    · rename_i hs
      injection h with h
      exact ⟨s.lock, h.symm, fun hc => absurd hc hs, fun _ => rfl⟩
  obtain ⟨l, rfl, hser, hnser⟩ := key
  clear h
  have other : ∀ w' v, w' ≠ w → (s.pc w').on = some v → v ≠ u := by
    rintro w' v hw h rfl; exact hw (hI.uniq w' w v h hon)
  have lockne : ∀ w', w' ≠ w → (l = some w' → s.lock = some w') := by
    intro w' hw h
    cases hs : c.ser (c.owner u) with
    | true => rw [(hser hs).2] at h; simp at h
    | false => rw [hnser hs] at h; exact h
  have ccl : ∀ v r, c.ser (c.owner u) = true → c.ser (c.owner v) = true → (s.iou v).dev = some r →
      ¬ Overlaps ((s.iou u).off, (s.iou u).xferBuflen) r := by
    intro v r h1 h2 h3 h4
    refine hI.queue w u hp (hser h1).1 v r h2 h3 ?_
    rw [overlaps_iff] at h4 ⊢
    simp only at h4 ⊢
    omega
  constructor
  · intro v r h
    simp only at h ⊢
    by_cases hv : v = u
    · subst hv
      rw [upd_same] at h ⊢
      simp only [Option.some.injEq] at h
      subst h
      exact ⟨rfl, ha, rfl, hx, h64⟩
    · rw [upd_ne _ _ _ _ hv] at h ⊢
      exact hI.dev v r h
  · intro v h
    simp only at h
    by_cases hv : v = u
    · subst hv; exact hu
    · rw [upd_ne _ _ _ _ hv] at h; exact hI.bound v h
  · intro w' h
    simp only
    rw [upd_ne _ _ _ _ (by omega)]; exact hI.idle w' h
  · intro w' v h
    simp only at h ⊢
    by_cases hw' : w' = w
    · subst hw'
      rw [upd_same] at h ⊢
      obtain rfl : u = v := by simpa [Pc.on] using h
      rw [upd_same]
      exact ⟨ha, hu, hx, h64, fun hc => absurd rfl hc⟩
    · rw [upd_ne _ _ _ _ hw'] at h ⊢
      rw [upd_ne _ _ _ _ (other w' v hw' h)]
      exact hI.on w' v h
  · intro w1 w2 v h1 h2
    simp only at h1 h2
    have : ∀ w' v, (upd s.pc w (Pc.engine u) w').on = some v → (s.pc w').on = some v := by
      intro w' v h
      by_cases e : w' = w
      · subst e; rw [upd_same] at h; rw [hp]; exact h
      · rw [upd_ne _ _ _ _ e] at h; exact h
    exact hI.uniq w1 w2 v (this w1 v h1) (this w2 v h2)
  · intro w' v j rest h
    simp only at h ⊢
    by_cases hw' : w' = w
    · subst hw'; rw [upd_same] at h; simp at h
    · rw [upd_ne _ _ _ _ hw'] at h
      obtain ⟨a1, a2, a3⟩ := hI.scan w' v j rest h
      have hns : c.ser (c.owner u) = false := by
        cases hs : c.ser (c.owner u) with
        | true => have := (hser hs).1; rw [a1] at this; simp at this; exact absurd this hw'
        | false => rfl
      refine ⟨by rw [hnser hns]; exact a1, a2, fun v' r hs hd ho hm => ?_⟩
      rw [upd_ne _ _ _ _ (other w' v hw' (by rw [h]; rfl))]
      have hv' : v' ≠ u := by rintro rfl; rw [hns] at hs; simp at hs
      rw [upd_ne _ _ _ _ hv'] at hd
      exact a3 v' r hs hd ho hm
  · intro w' v h hl v' r hs hd
    simp only at h hl hd ⊢
    by_cases hw' : w' = w
    · subst hw'; rw [upd_same] at h; simp at h
    · rw [upd_ne _ _ _ _ hw'] at h
      have hl' := lockne w' hw' hl
      have hns : c.ser (c.owner u) = false := by
        cases hs : c.ser (c.owner u) with
        | true => have := (hser hs).1; rw [hl'] at this; simp at this; exact absurd this hw'
        | false => rfl
      rw [upd_ne _ _ _ _ (other w' v hw' (by rw [h]; rfl))]
      have hv' : v' ≠ u := by rintro rfl; rw [hns] at hs; simp at hs
      rw [upd_ne _ _ _ _ hv'] at hd
      exact hI.queue w' v h hl' v' r hs hd
  · intro v1 v2 a b hne h1 h2 d1 d2
    simp only at d1 d2
    by_cases e1 : v1 = u <;> by_cases e2 : v2 = u
    · omega
    · subst e1
      rw [upd_same] at d1; rw [upd_ne _ _ _ _ e2] at d2
      simp only [Option.some.injEq] at d1
      subst d1
      exact ccl v2 b h1 h2 d2
    · subst e2
      rw [upd_same] at d2; rw [upd_ne _ _ _ _ e1] at d1
      simp only [Option.some.injEq] at d2
      subst d2
      intro ho
      exact ccl v1 a h2 h1 d1 (by obtain ⟨x, p1, p2, p3, p4⟩ := ho; exact ⟨x, p3, p4, p1, p2⟩)
    · rw [upd_ne _ _ _ _ e1] at d1; rw [upd_ne _ _ _ _ e2] at d2
      exact hI.disj v1 v2 a b hne h1 h2 d1 d2
  · exact hI.owner
  · intro w' h
    simp only at h ⊢
    by_cases hw' : w' = w
    · subst hw'
      cases hs : c.ser (c.owner u) with
      | true => rw [(hser hs).2] at h; simp at h
      | false =>
        rw [hnser hs] at h
        rcases hI.held w' h with ⟨_, _, _, h⟩ | ⟨_, h, h'⟩ | ⟨_, h⟩ <;> rw [hp] at h <;> simp at h
        subst h; rw [hs] at h'; simp at h'
    · rw [upd_ne _ _ _ _ hw']
      exact hI.held w' (lockne w' hw' h)
  · intro w' v h
    simp only at h
    by_cases hw' : w' = w
    · subst hw'; rw [upd_same] at h; simp at h
    · rw [upd_ne _ _ _ _ hw'] at h; exact hI.wser w' v h
  · intro w' j h
    simp only at h ⊢
    by_cases hw' : w' = w
    · subst hw'; rw [upd_same] at h; simp at h
    · rw [upd_ne _ _ _ _ hw'] at h
      have hl := hI.fin w' j h
      cases hs : c.ser (c.owner u) with
      | true => rw [(hser hs).1] at hl; simp at hl; omega
      | false => rw [hnser hs]; exact hl

theorem all_off {c : Cfg} {s : St} {u : Nat} (hI : Inv c s)
    (h : (List.range c.nw).all (fun w => decide ((s.pc w).on ≠ some u)) = true) (w : Nat) :
    (s.pc w).on ≠ some u := by
  by_cases hw : w < c.nw
  · simp only [List.all_eq_true, List.mem_range, decide_eq_true_eq] at h
    exact h w hw
  · rw [hI.idle w (by omega)]; simp [Pc.on]

theorem not_held {c : Cfg} {s : St} {w : Nat} (hI : Inv c s) (hp : s.pc w = .idle) : s.lock ≠ some w := by
  intro h
  rcases hI.held w h with ⟨_, _, _, h⟩ | ⟨_, h, _⟩ | ⟨_, h⟩ <;> rw [hp] at h <;> simp at h

theorem first_cases (c : Cfg) (u : Nat) : (first c u = .want u ∧ c.ser (c.owner u) = true) ∨
    (first c u = .queue u ∧ c.ser (c.owner u) = false) := by
  unfold first
  cases c.ser (c.owner u) <;> simp

/-- One round of check_overlap. -/
theorem inv_scan {c : Cfg} {s s' : St} {w : Nat} (hI : Inv c s) (h : stepScan c s w = .ok s') : Inv c s' := by
  unfold stepScan at h
  split at h
  · rename_i u j hp
    obtain ⟨hl, hj, hsc⟩ := hI.scan w u j [] hp
    have hon := hI.on w u (by rw [hp]; rfl)
    have hser := hI.wser w u (Or.inr ⟨_, _, hp⟩)
    have hlt : w < c.nw := lt_nw hI (by rw [hp]; simp)
    split at h
    · rename_i hjn
      injection h with h
      subst h
      refine inv_move hI hlt (fun w' hw' => upd_ne _ _ _ _ hw') ?_ (fun _ _ _ => rfl) (fun _ _ => ⟨rfl, rfl, rfl⟩)
        ?_ (fun _ _ h => h) (fun _ _ => Iff.rfl) ?_ ?_ ?_ ?_ ?_
      · intro u' h'; simp only [upd_same, Pc.on] at h'; rw [hp]; exact h'
      · intro u' h' _
        simp only [upd_same, Pc.on, Option.some.injEq] at h'
        subst h'; exact hon.2.2.2.2 (by rw [hp]; simp)
      · intro _; left; exact ⟨_, _, _, upd_same _ _ _⟩
      · intro u' h'
        simp only [upd_same] at h'
        rcases h' with h' | ⟨_, _, h'⟩
        · simp at h'
        · simp only [Pc.scan.injEq] at h'; rw [← h'.1]; exact hser
      · intro j' h'; simp only [upd_same] at h'; simp at h'
      · intro u' j' rest' h'
        simp only [upd_same, Pc.scan.injEq] at h'
        obtain ⟨rfl, rfl, rfl⟩ := h'
        refine ⟨hl, by omega, fun v r hs hv ho hm => ?_⟩
        by_cases hoj : c.owner v = j
        · exfalso
          have hact := (hI.dev v r hv).2.1
          rw [hoj] at hact hs
          rw [active_not_skipped hact hs] at hm
          exact hm (mem_ious (hI.bound v (by rw [hv]; simp)) hoj)
        · exact hsc v r hs hv (by omega) (by simp)
      · intro u' h'; simp only [upd_same] at h'; simp at h'
    · rename_i hjn
      injection h with h
      subst h
      refine inv_move hI hlt (fun w' hw' => upd_ne _ _ _ _ hw') ?_ (fun _ _ _ => rfl) (fun _ _ => ⟨rfl, rfl, rfl⟩)
        ?_ (fun _ _ h => h) (fun _ _ => Iff.rfl) ?_ ?_ ?_ ?_ ?_
      · intro u' h'; simp only [upd_same, Pc.on] at h'; rw [hp]; exact h'
      · intro u' h' _
        simp only [upd_same, Pc.on, Option.some.injEq] at h'
        subst h'; exact hon.2.2.2.2 (by rw [hp]; simp)
      · intro _; right; left; exact ⟨_, upd_same _ _ _, hser⟩
      · intro u' h'; simp only [upd_same] at h'; simp at h'
      · intro j' h'; simp only [upd_same] at h'; simp at h'
      · intro u' j' rest' h'; simp only [upd_same] at h'; simp at h'
      · intro u' h' _ v r hs hv
        simp only [upd_same, Pc.queue.injEq] at h'
        subst h'
        have := hI.owner v (hI.bound v (by rw [hv]; simp))
        exact hsc v r hs hv (by omega) (by simp)
  · rename_i u j v rest hp
    obtain ⟨hl, hj, hsc⟩ := hI.scan w u j _ hp
    have hon := hI.on w u (by rw [hp]; rfl)
    have hser := hI.wser w u (Or.inr ⟨_, _, hp⟩)
    have hlt : w < c.nw := lt_nw hI (by rw [hp]; simp)
    split at h
    · injection h with h
      subst h
      refine inv_move hI hlt (fun w' hw' => upd_ne _ _ _ _ hw') ?_ (fun _ _ _ => rfl) (fun _ _ => ⟨rfl, rfl, rfl⟩)
        ?_ (fun _ _ h => h) ?_ ?_ ?_ ?_ ?_ ?_
      · intro u' h'; simp only [upd_same, Pc.on] at h'; rw [hp]; exact h'
      · intro u' h' _
        simp only [upd_same, Pc.on, Option.some.injEq] at h'
        subst h'; exact hon.2.2.2.2 (by rw [hp]; simp)
      · intro w' hw'; simp only [hl]; simp; omega
      · intro h'; simp at h'
      · intro u' h'
        simp only [upd_same] at h'
        rcases h' with h' | ⟨_, _, h'⟩
        · simp only [Pc.want.injEq] at h'; rw [← h']; exact hser
        · simp at h'
      · intro j' h'; simp only [upd_same] at h'; simp at h'
      · intro u' j' rest' h'; simp only [upd_same] at h'; simp at h'
      · intro u' h'; simp only [upd_same] at h'; simp at h'
    · rename_i hc
      injection h with h
      subst h
      refine inv_move hI hlt (fun w' hw' => upd_ne _ _ _ _ hw') ?_ (fun _ _ _ => rfl) (fun _ _ => ⟨rfl, rfl, rfl⟩)
        ?_ (fun _ _ h => h) (fun _ _ => Iff.rfl) ?_ ?_ ?_ ?_ ?_
      · intro u' h'; simp only [upd_same, Pc.on] at h'; rw [hp]; exact h'
      · intro u' h' _
        simp only [upd_same, Pc.on, Option.some.injEq] at h'
        subst h'; exact hon.2.2.2.2 (by rw [hp]; simp)
      · intro _; left; exact ⟨_, _, _, upd_same _ _ _⟩
      · intro u' h'
        simp only [upd_same] at h'
        rcases h' with h' | ⟨_, _, h'⟩
        · simp at h'
        · simp only [Pc.scan.injEq] at h'; rw [← h'.1]; exact hser
      · intro j' h'; simp only [upd_same] at h'; simp at h'
      · intro u' j' rest' h'
        simp only [upd_same, Pc.scan.injEq] at h'
        obtain ⟨rfl, rfl, rfl⟩ := h'
        refine ⟨hl, hj, fun v' r hs hv ho hm => ?_⟩
        by_cases hvv : v' = v
        · subst hvv
          obtain ⟨f1, f2, f3, f4, f5⟩ := hI.dev v' r hv
          exact no_conflict hon.2.2.2.1 f5 f1 (by simpa using hc) f3 f4
        · exact hsc v' r hs hv ho (by simp [hvv, hm])
      · intro u' h'; simp only [upd_same] at h'; simp at h'
  · simp at h

theorem inv_setRun {c : Cfg} {s : St} {j : Nat} {r : Run} (hI : Inv c s)
    (h : active r ∨ ∀ u, c.owner u = j → (s.iou u).dev = none ∧ ∀ w, (s.pc w).on ≠ some u) :
    Inv c { s with run := upd s.run j r } := by
  have key : ∀ v, ((s.iou v).dev ≠ none ∨ ∃ w, (s.pc w).on = some v) → active (s.run (c.owner v)) →
      active (upd s.run j r (c.owner v)) := by
    intro v hv ha
    by_cases e : c.owner v = j
    · rw [e, upd_same]
      rcases h with h | h
      · exact h
      · obtain ⟨h1, h2⟩ := h v e
        rcases hv with hv | ⟨w, hv⟩
        · exact absurd h1 hv
        · exact absurd hv (h2 w)
    · rw [upd_ne _ _ _ _ e]; exact ha
  constructor
  · intro v r' hv
    obtain ⟨a, b, d⟩ := hI.dev v r' hv
    exact ⟨a, key v (Or.inl (by simp only at hv; rw [hv]; simp)) b, d⟩
  · exact hI.bound
  · exact hI.idle
  · intro w u hu
    obtain ⟨a, b⟩ := hI.on w u hu
    exact ⟨key u (Or.inr ⟨w, hu⟩) a, b⟩
  · exact hI.uniq
  · exact hI.scan
  · exact hI.queue
  · exact hI.disj
  · exact hI.owner
  · exact hI.held
  · exact hI.wser
  · exact hI.fin

theorem inv_step {c : Cfg} {s s' : St} {a : Act} (hI : Inv c s) (hc : Calm c s a) (h : step c s a = .ok s') :
    Inv c s' := by
  cases a with
  | start w u off len xfer =>
    simp only [step] at h
    split at h
    · rename_i hg
      injection h with h; subst h
      exact inv_take hI hg.1 hg.2.1 hg.2.2.1 rfl hg.2.2.2.1 hg.2.2.2.2 hc (first_cases c u)
    · simp at h
  | restart w u =>
    simp only [step] at h
    split at h
    · rename_i hg
      injection h with h; subst h
      have := inv_take (x := s.iou u) hI hg.1 hg.2.1 hg.2.2.1 (free_spec hg.2.2.1).2.2.1 hg.2.2.2.2 hg.2.2.2.1 hc
        (first_cases c u)
      have e : upd s.iou u (s.iou u) = s.iou := by
        funext k; unfold upd; split <;> simp_all
      rw [e] at this
      exact this
    · simp at h
  | lock w =>
    simp only [step] at h
    split at h
    · rename_i u hp hl
      injection h with h; subst h
      have hon := hI.on w u (by rw [hp]; rfl)
      refine inv_move hI (lt_nw hI (by rw [hp]; simp)) (fun w' hw' => upd_ne _ _ _ _ hw') ?_ (fun _ _ _ => rfl)
        (fun _ _ => ⟨rfl, rfl, rfl⟩) ?_ (fun _ _ h => h) ?_ ?_ ?_ ?_ ?_ ?_
      · intro u' h'; simp only [upd_same, Pc.on] at h'; rw [hp]; exact h'
      · intro u' h' _
        simp only [upd_same, Pc.on, Option.some.injEq] at h'
        subst h'; exact hon.2.2.2.2 (by rw [hp]; simp)
      · intro w' hw'; simp only [hl]; simp; omega
      · intro _; left; exact ⟨_, _, _, upd_same _ _ _⟩
      · intro u' h'
        simp only [upd_same] at h'
        rcases h' with h' | ⟨_, _, h'⟩
        · simp at h'
        · simp only [Pc.scan.injEq] at h'; rw [← h'.1]; exact hI.wser w u (Or.inl hp)
      · intro j' h'; simp only [upd_same] at h'; simp at h'
      · intro u' j' rest' h'
        simp only [upd_same, Pc.scan.injEq] at h'
        obtain ⟨rfl, rfl, rfl⟩ := h'
        exact ⟨rfl, Nat.zero_le _, fun v r _ _ ho => by omega⟩
      · intro u' h'; simp only [upd_same] at h'; simp at h'
    · simp at h
  | scan w => exact inv_scan hI h
  | queue w =>
    simp only [step] at h
    split at h
    · rename_i u hp; exact inv_queue hI hp h
    · simp at h
  | engine w busy =>
    simp only [step] at h
    split at h
    · rename_i u hp
      have hon : (s.pc w).on = some u := by rw [hp]; rfl
      have hlt : w < c.nw := lt_nw hI (by rw [hp]; simp)
      have hnl : s.lock ≠ some w := by
        intro h
        rcases hI.held w h with ⟨_, _, _, h⟩ | ⟨_, h, _⟩ | ⟨_, h⟩ <;> rw [hp] at h <;> simp at h
      split at h
      · injection h with h; subst h
        refine inv_move hI hlt (fun w' hw' => upd_ne _ _ _ _ hw') ?_ ?_ ?_ ?_ (fun _ _ h => h)
          (fun _ _ => Iff.rfl) ?_ ?_ ?_ ?_ ?_
        · intro u' h'; simp only [upd_same, Pc.on] at h'; rw [hp]; exact h'
        · intro v r h'
          simp only at h' ⊢
          by_cases e : v = u
          · subst e; rw [upd_same] at h'; simp at h'
          · exact upd_ne _ _ _ _ e
        · intro v _
          simp only
          by_cases e : v = u
          · subst e; rw [upd_same]; exact ⟨rfl, rfl, rfl⟩
          · rw [upd_ne _ _ _ _ e]; exact ⟨rfl, rfl, rfl⟩
        · intro u' h' _
          simp only [upd_same, Pc.on, Option.some.injEq] at h'
          subst h'; simp only [upd_same]
        · intro h'; exact absurd h' hnl
        · intro u' h'; simp only [upd_same] at h'; simp at h'
        · intro j' h'; simp only [upd_same] at h'; simp at h'
        · intro u' j' rest' h'; simp only [upd_same] at h'; simp at h'
        · intro u' _ h'; exact absurd h' hnl
      · injection h with h; subst h
        refine inv_move hI hlt (fun w' hw' => upd_ne _ _ _ _ hw') ?_ (fun _ _ _ => rfl) (fun _ _ => ⟨rfl, rfl, rfl⟩)
          ?_ (fun _ _ h => h) (fun _ _ => Iff.rfl) ?_ ?_ ?_ ?_ ?_
        · intro u' h'; simp only [upd_same, Pc.on] at h'; simp at h'
        · intro u' h'; simp only [upd_same, Pc.on] at h'; simp at h'
        · intro h'; exact absurd h' hnl
        · intro u' h'; simp only [upd_same] at h'; simp at h'
        · intro j' h'; simp only [upd_same] at h'; simp at h'
        · intro u' j' rest' h'; simp only [upd_same] at h'; simp at h'
        · intro u' h'; simp only [upd_same] at h'; simp at h'
    · simp at h
  | done u =>
    simp only [step] at h
    split at h
    · rename_i hg
      injection h with h; subst h
      exact inv_iou hI rfl (all_off hI hg.2)
    · simp at h
  | short u k =>
    simp only [step] at h
    split at h
    · rename_i hg
      injection h with h; subst h
      exact inv_iou hI rfl (all_off hI hg.2.2)
    · simp at h
  | clear u =>
    simp only [step] at h
    split at h
    · rename_i hg
      injection h with h; subst h
      exact inv_iou hI hg.1 (all_off hI hg.2)
    · simp at h
  | setRun j r =>
    simp only [step] at h
    injection h with h; subst h
    exact inv_setRun hI hc
  | finLock w j =>
    simp only [step] at h
    split at h
    · rename_i hg
      injection h with h; subst h
      refine inv_move hI hg.1 (fun w' hw' => upd_ne _ _ _ _ hw') ?_ (fun _ _ _ => rfl) (fun _ _ => ⟨rfl, rfl, rfl⟩)
          ?_ (fun _ _ h => h) ?_ ?_ ?_ ?_ ?_ ?_
      · intro u' h'; simp only [upd_same, Pc.on] at h'; simp at h'
      · intro u' h'; simp only [upd_same, Pc.on] at h'; simp at h'
      · intro w' hw'; simp only [hg.2.2]; simp; omega
      · intro _; right; right; exact ⟨_, upd_same _ _ _⟩
      · intro u' h'; simp only [upd_same] at h'; simp at h'
      · intro _ _; rfl
      · intro u' j' rest' h'; simp only [upd_same] at h'; simp at h'
      · intro u' h'; simp only [upd_same] at h'; simp at h'
    · simp at h
  | finSet w =>
    simp only [step] at h
    split at h
    · rename_i j hp
      injection h with h; subst h
      have h1 := inv_setRun (r := .finishing) hI (Or.inr (hc j hp))
      refine inv_move h1 (lt_nw hI (by rw [hp]; simp)) (fun w' hw' => upd_ne _ _ _ _ hw') ?_ (fun _ _ _ => rfl)
        (fun _ _ => ⟨rfl, rfl, rfl⟩) ?_ (fun _ _ h => h) ?_ ?_ ?_ ?_ ?_ ?_
      · intro u' h'; simp only [upd_same, Pc.on] at h'; simp at h'
      · intro u' h'; simp only [upd_same, Pc.on] at h'; simp at h'
      · intro w' hw'
        simp only [hI.fin w j hp]; simp; omega
      · intro h'; simp at h'
      · intro u' h'; simp only [upd_same] at h'; simp at h'
      · intro j' h'; simp only [upd_same] at h'; simp at h'
      · intro u' j' rest' h'; simp only [upd_same] at h'; simp at h'
      · intro u' h'; simp only [upd_same] at h'; simp at h'
    · simp at h
  | main w u off len xfer =>
    simp only [step] at h
    split at h
    · rename_i hg
      cases hs : c.ser (c.owner u) with
      | true =>
        exfalso
        unfold tdQueue at h
        simp only [upd_same, hs] at h
        have := not_held hI hg.2.1
        simp [this] at h
      | false =>
        have h1 := inv_take (x := ⟨off, len, xfer, false, none⟩) (p := .queue u) hI hg.1 hg.2.1 hg.2.2.1 rfl
          hg.2.2.2.1 hg.2.2.2.2 hc (Or.inr ⟨rfl, hs⟩)
        refine inv_queue (w := w) (u := u) h1 (upd_same _ _ _) ?_
        rw [← h]
        unfold tdQueue
        have e : upd (upd s.pc w (Pc.queue u)) w (Pc.engine u) = upd s.pc w (Pc.engine u) := by
          funext k; unfold upd; split <;> simp_all
        simp only [e]
    · simp at h

/-- At the beginning: no thread works, nothing is in flight. -/
structure Init (c : Cfg) (s : St) : Prop where
  pc : ∀ w, s.pc w = .idle
  lock : s.lock = none
  dev : ∀ u, (s.iou u).dev = none
  flight : ∀ u, (s.iou u).flight = false
  owner : ∀ u, u < c.nu → c.owner u < c.nj

theorem inv_init {c : Cfg} {s : St} (h : Init c s) : Inv c s := by
  obtain ⟨hp, hl, hd, hf, ho⟩ := h
  constructor
  · intro v r h; rw [hd] at h; simp at h
  · intro v h; exact absurd (hd v) h
  · intro w _; exact hp w
  · intro w u h; rw [hp] at h; simp [Pc.on] at h
  · intro w w' u h; rw [hp] at h; simp [Pc.on] at h
  · intro w u j rest h; rw [hp] at h; simp at h
  · intro w u h; rw [hp] at h; simp at h
  · intro u v a b _ _ _ h; rw [hd] at h; simp at h
  · exact ho
  · intro w h; rw [hl] at h; simp at h
  · intro w u h; rw [hp] at h; simp at h
  · intro w j h; rw [hp] at h; simp at h

theorem inv_run {c : Cfg} : ∀ (as : List Act) {s s' : St}, Inv c s → CalmRun c s as → run c s as = some s' →
    Inv c s' := by
  intro as
  induction as with
  | nil => intro s s' hI _ h; simp only [run, Option.some.injEq] at h; rw [← h]; exact hI
  | cons a as ih =>
    intro s s' hI hc h
    simp only [run] at h
    obtain ⟨h1, h2⟩ := hc
    cases hs : step c s a with
    | disabled => rw [hs] at h h2; exact ih hI h2 h
    | abort => rw [hs] at h; simp at h
    | ok s1 => rw [hs] at h h2; exact ih (inv_step hI h1 hs) h2 h

/-! ## C38 -/

/-- **C38**, offload mode: whatever the interleaving of the workers and main threads of any number of
jobs, no two I/Os that the engines of jobs with serialize_overlap work on at the same time overlap, if no
job does I/O in its ramp time (`CalmRun`). -/
theorem C38_offload (c : Cfg) (s s' : St) (as : List Act) (h0 : Init c s) (hc : CalmRun c s as)
    (h : run c s as = some s') (u v : Nat) (a b : Nat × Nat) (hne : u ≠ v)
    (hu : c.ser (c.owner u) = true) (hv : c.ser (c.owner v) = true)
    (ha : (s'.iou u).dev = some a) (hb : (s'.iou v).dev = some b) : ¬ Overlaps a b :=
  (inv_run as (inv_init h0) hc h).disj u v a b hne hu hv ha hb

/-- What `C38_no_abort` adds: io_us that are worked on are not flagged, and the mutex is held where it
will be released. -/
structure Inv2 (c : Cfg) (s : St) : Prop where
  flag : ∀ w u, (s.pc w).on = some u → s.pc w ≠ .engine u → (s.iou u).flight = false
  lock : ∀ w u, s.pc w = .queue u → c.ser (c.owner u) = true → s.lock = some w

/-- The engine is never busy, and no main thread of a job with serialize_overlap calls td_io_queue. -/
def Plain (c : Cfg) : Act → Prop
  | .engine _ busy => busy = false
  | .main _ u _ _ _ => c.ser (c.owner u) = false
  | _ => True

theorem inv2_step {c : Cfg} {s : St} {a : Act} (hI : Inv c s) (h2 : Inv2 c s) (hp : Plain c a) :
    step c s a ≠ .abort ∧ ∀ s', step c s a = .ok s' → Inv2 c s' := by
  have hne : ∀ w' w u, (s.pc w').on = some u → (s.pc w).on = some u → w' = w := fun w' w u h h' =>
    hI.uniq w' w u h h'
  have lockfree : ∀ w, s.pc w = .idle → s.lock ≠ some w := fun w h => not_held hI h
  cases a with
  | start w u off len xfer =>
    simp only [step]
    split
    · rename_i hg
      refine ⟨by simp, fun s' h => ?_⟩
      injection h with h; subst h
      obtain ⟨-, -, -, fw⟩ := free_spec hg.2.2.1
      have fw' : ∀ w', (s.pc w').on ≠ some u := by
        intro w'
        by_cases h : w' < c.nw
        · exact fw w' h
        · rw [hI.idle w' (by omega)]; simp [Pc.on]
      constructor
      · intro w' v h1 h3
        simp only at h1 h3 ⊢
        by_cases e : v = u
        · subst e; rw [upd_same]
        · rw [upd_ne _ _ _ _ e]
          by_cases e' : w' = w
          · subst e'; rw [upd_same] at h1
            rcases first_cases c u with ⟨q, _⟩ | ⟨q, _⟩ <;> rw [q] at h1 <;> simp [Pc.on] at h1 <;> omega
          · rw [upd_ne _ _ _ _ e'] at h1 h3; exact h2.flag w' v h1 h3
      · intro w' v h1 h3
        simp only at h1 ⊢
        by_cases e' : w' = w
        · subst e'; rw [upd_same] at h1
          rcases first_cases c u with ⟨q, q2⟩ | ⟨q, q2⟩ <;> rw [q] at h1 <;> simp at h1
          subst h1; rw [q2] at h3; simp at h3
        · rw [upd_ne _ _ _ _ e'] at h1; exact h2.lock w' v h1 h3
    · exact ⟨by simp, fun s' h => by simp at h⟩
  | restart w u =>
    simp only [step]
    split
    · rename_i hg
      refine ⟨by simp, fun s' h => ?_⟩
      injection h with h; subst h
      obtain ⟨-, ff, -, fw⟩ := free_spec hg.2.2.1
      constructor
      · intro w' v h1 h3
        simp only at h1 h3 ⊢
        by_cases e' : w' = w
        · subst e'; rw [upd_same] at h1
          rcases first_cases c u with ⟨q, _⟩ | ⟨q, _⟩ <;> rw [q] at h1 <;> simp [Pc.on] at h1 <;> subst h1 <;> exact ff
        · rw [upd_ne _ _ _ _ e'] at h1 h3; exact h2.flag w' v h1 h3
      · intro w' v h1 h3
        simp only at h1 ⊢
        by_cases e' : w' = w
        · subst e'; rw [upd_same] at h1
          rcases first_cases c u with ⟨q, q2⟩ | ⟨q, q2⟩ <;> rw [q] at h1 <;> simp at h1
          subst h1; rw [q2] at h3; simp at h3
        · rw [upd_ne _ _ _ _ e'] at h1; exact h2.lock w' v h1 h3
    · exact ⟨by simp, fun s' h => by simp at h⟩
  | lock w =>
    simp only [step]
    split
    · rename_i u hpc hl
      refine ⟨by simp, fun s' h => ?_⟩
      injection h with h; subst h
      constructor
      · intro w' v h1 h3
        simp only at h1 h3 ⊢
        by_cases e' : w' = w
        · subst e'; rw [upd_same] at h1
          exact h2.flag w' v (by rw [hpc]; exact h1) (by rw [hpc]; simp)
        · rw [upd_ne _ _ _ _ e'] at h1 h3; exact h2.flag w' v h1 h3
      · intro w' v h1 h3
        simp only at h1 ⊢
        by_cases e' : w' = w
        · subst e'; rfl
        · rw [upd_ne _ _ _ _ e'] at h1
          have := h2.lock w' v h1 h3
          rw [hl] at this; simp at this
    · exact ⟨by simp, fun s' h => by simp at h⟩
  | scan w =>
    simp only [step]
    unfold stepScan
    split
    · rename_i u j hpc
      have hl := (hI.scan w u j _ hpc).1
      have lk : ∀ w' v, w' ≠ w → s.pc w' = .queue v → c.ser (c.owner v) = true → False := by
        intro w' v e h h'
        have := h2.lock w' v h h'
        rw [hl] at this; simp at this; omega
      have hfl := h2.flag w u (by rw [hpc]; rfl) (by rw [hpc]; simp)
      split
      · refine ⟨by simp, fun s' h => ?_⟩
        injection h with h; subst h
        constructor
        · intro w' v h1 h3
          simp only at h1 h3 ⊢
          by_cases e' : w' = w
          · subst e'; rw [upd_same] at h1; simp only [Pc.on, Option.some.injEq] at h1; subst h1; exact hfl
          · rw [upd_ne _ _ _ _ e'] at h1 h3; exact h2.flag w' v h1 h3
        · intro w' v h1 h3
          simp only at h1 ⊢
          by_cases e' : w' = w
          · subst e'; rw [upd_same] at h1; simp at h1
          · rw [upd_ne _ _ _ _ e'] at h1; exact (lk w' v e' h1 h3).elim
      · refine ⟨by simp, fun s' h => ?_⟩
        injection h with h; subst h
        constructor
        · intro w' v h1 h3
          simp only at h1 h3 ⊢
          by_cases e' : w' = w
          · subst e'; rw [upd_same] at h1; simp only [Pc.on, Option.some.injEq] at h1; subst h1; exact hfl
          · rw [upd_ne _ _ _ _ e'] at h1 h3; exact h2.flag w' v h1 h3
        · intro w' v h1 h3
          simp only at h1 ⊢
          by_cases e' : w' = w
          · subst e'; exact hl
          · rw [upd_ne _ _ _ _ e'] at h1; exact (lk w' v e' h1 h3).elim
    · rename_i u j v0 rest hpc
      have hl := (hI.scan w u j _ hpc).1
      have lk : ∀ w' v, w' ≠ w → s.pc w' = .queue v → c.ser (c.owner v) = true → False := by
        intro w' v e h h'
        have := h2.lock w' v h h'
        rw [hl] at this; simp at this; omega
      have hfl := h2.flag w u (by rw [hpc]; rfl) (by rw [hpc]; simp)
      split
      all_goals
        refine ⟨by simp, fun s' h => ?_⟩
        injection h with h; subst h
        constructor
        · intro w' v h1 h3
          simp only at h1 h3 ⊢
          by_cases e' : w' = w
          · subst e'; rw [upd_same] at h1; simp only [Pc.on, Option.some.injEq] at h1; subst h1; exact hfl
          · rw [upd_ne _ _ _ _ e'] at h1 h3; exact h2.flag w' v h1 h3
        · intro w' v h1 h3
          simp only at h1 ⊢
          by_cases e' : w' = w
          · subst e'; rw [upd_same] at h1; simp at h1
          · rw [upd_ne _ _ _ _ e'] at h1; exact (lk w' v e' h1 h3).elim
    · exact ⟨by simp, fun s' h => by simp at h⟩
  | queue w =>
    simp only [step]
    split
    · rename_i u hpc
      have hon : (s.pc w).on = some u := by rw [hpc]; rfl
      have hfl := h2.flag w u hon (by rw [hpc]; simp)
      unfold tdQueue
      simp only [hfl, Bool.false_eq_true, if_false]
      have fl' : ∀ w' v, (upd s.pc w (Pc.engine u) w').on = some v → upd s.pc w (Pc.engine u) w' ≠ .engine v →
          (upd s.iou u { s.iou u with flight := true, dev := some ((s.iou u).off, (s.iou u).xferBuflen) } v).flight =
            false := by
        intro w' v h1 h3
        by_cases e' : w' = w
        · subst e'; rw [upd_same] at h1 h3; simp only [Pc.on, Option.some.injEq] at h1; subst h1
          exact absurd rfl h3
        · rw [upd_ne _ _ _ _ e'] at h1 h3
          have : v ≠ u := by rintro rfl; exact e' (hne w' w v h1 hon)
          rw [upd_ne _ _ _ _ this]; exact h2.flag w' v h1 h3
      split
      · rename_i hs
        have hl := h2.lock w u hpc hs
        rw [if_pos hl]
        refine ⟨by simp, fun s' h => ?_⟩
        injection h with h; subst h
        refine ⟨fl', ?_⟩
        intro w' v h1 h3
        simp only at h1 ⊢
        by_cases e' : w' = w
        · subst e'; rw [upd_same] at h1; simp at h1
        · rw [upd_ne _ _ _ _ e'] at h1
          have := h2.lock w' v h1 h3
          rw [hl] at this; simp at this; omega
      · refine ⟨by simp, fun s' h => ?_⟩
        injection h with h; subst h
        refine ⟨fl', ?_⟩
        intro w' v h1 h3
        simp only at h1 ⊢
        by_cases e' : w' = w
        · subst e'; rw [upd_same] at h1; simp at h1
        · rw [upd_ne _ _ _ _ e'] at h1; exact h2.lock w' v h1 h3
    · exact ⟨by simp, fun s' h => by simp at h⟩
  | engine w busy =>
    simp only [Plain] at hp
    subst hp
    simp only [step]
    split
    · simp only [Bool.false_eq_true, if_false]
      refine ⟨by simp, fun s' h => ?_⟩
      injection h with h; subst h
      constructor
      · intro w' v h1 h3
        simp only at h1 h3 ⊢
        by_cases e' : w' = w
        · subst e'; rw [upd_same] at h1; simp [Pc.on] at h1
        · rw [upd_ne _ _ _ _ e'] at h1 h3; exact h2.flag w' v h1 h3
      · intro w' v h1 h3
        simp only at h1 ⊢
        by_cases e' : w' = w
        · subst e'; rw [upd_same] at h1; simp at h1
        · rw [upd_ne _ _ _ _ e'] at h1; exact h2.lock w' v h1 h3
    · exact ⟨by simp, fun s' h => by simp at h⟩
  | done u =>
    simp only [step]
    split
    · refine ⟨by simp, fun s' h => ?_⟩
      injection h with h; subst h
      refine ⟨fun w' v h1 h3 => ?_, h2.lock⟩
      simp only
      by_cases e : v = u
      · subst e; rw [upd_same]
      · rw [upd_ne _ _ _ _ e]; exact h2.flag w' v h1 h3
    · exact ⟨by simp, fun s' h => by simp at h⟩
  | short u k =>
    simp only [step]
    split
    · rename_i hg
      refine ⟨by simp, fun s' h => ?_⟩
      injection h with h; subst h
      refine ⟨fun w' v h1 h3 => ?_, h2.lock⟩
      simp only
      have : v ≠ u := by rintro rfl; exact all_off hI hg.2.2 w' h1
      rw [upd_ne _ _ _ _ this]; exact h2.flag w' v h1 h3
    · exact ⟨by simp, fun s' h => by simp at h⟩
  | clear u =>
    simp only [step]
    split
    · refine ⟨by simp, fun s' h => ?_⟩
      injection h with h; subst h
      refine ⟨fun w' v h1 h3 => ?_, h2.lock⟩
      simp only
      by_cases e : v = u
      · subst e; rw [upd_same]
      · rw [upd_ne _ _ _ _ e]; exact h2.flag w' v h1 h3
    · exact ⟨by simp, fun s' h => by simp at h⟩
  | setRun j r =>
    refine ⟨by simp [step], fun s' h => ?_⟩
    simp only [step] at h
    injection h with h; subst h
    exact ⟨h2.flag, h2.lock⟩
  | finLock w j =>
    simp only [step]
    split
    · rename_i hg
      refine ⟨by simp, fun s' h => ?_⟩
      injection h with h; subst h
      constructor
      · intro w' v h1 h3
        simp only at h1 h3 ⊢
        by_cases e' : w' = w
        · subst e'; rw [upd_same] at h1; simp [Pc.on] at h1
        · rw [upd_ne _ _ _ _ e'] at h1 h3; exact h2.flag w' v h1 h3
      · intro w' v h1 h3
        simp only at h1 ⊢
        by_cases e' : w' = w
        · subst e'; rfl
        · rw [upd_ne _ _ _ _ e'] at h1
          have := h2.lock w' v h1 h3
          rw [hg.2.2] at this; simp at this
    · exact ⟨by simp, fun s' h => by simp at h⟩
  | finSet w =>
    simp only [step]
    split
    · rename_i j hpc
      refine ⟨by simp, fun s' h => ?_⟩
      injection h with h; subst h
      constructor
      · intro w' v h1 h3
        simp only at h1 h3 ⊢
        by_cases e' : w' = w
        · subst e'; rw [upd_same] at h1; simp [Pc.on] at h1
        · rw [upd_ne _ _ _ _ e'] at h1 h3; exact h2.flag w' v h1 h3
      · intro w' v h1 h3
        simp only at h1 ⊢
        by_cases e' : w' = w
        · subst e'; rw [upd_same] at h1; simp at h1
        · rw [upd_ne _ _ _ _ e'] at h1
          have := h2.lock w' v h1 h3
          rw [hI.fin w j hpc] at this; simp at this; omega
    · exact ⟨by simp, fun s' h => by simp at h⟩
  | main w u off len xfer =>
    simp only [Plain] at hp
    simp only [step]
    split
    · rename_i hg
      obtain ⟨-, -, -, fw⟩ := free_spec hg.2.2.1
      unfold tdQueue
      simp only [upd_same, hp, Bool.false_eq_true, if_false]
      refine ⟨by simp, fun s' h => ?_⟩
      injection h with h; subst h
      constructor
      · intro w' v h1 h3
        simp only at h1 h3 ⊢
        by_cases e' : w' = w
        · subst e'; rw [upd_same] at h1 h3; simp only [Pc.on, Option.some.injEq] at h1; subst h1
          exact absurd rfl h3
        · rw [upd_ne _ _ _ _ e'] at h1 h3
          have : v ≠ u := by
            rintro rfl
            by_cases hw : w' < c.nw
            · exact fw w' hw h1
            · rw [hI.idle w' (by omega)] at h1; simp [Pc.on] at h1
          rw [upd_ne _ _ _ _ this, upd_ne _ _ _ _ this]; exact h2.flag w' v h1 h3
      · intro w' v h1 h3
        simp only at h1 ⊢
        by_cases e' : w' = w
        · subst e'; rw [upd_same] at h1; simp at h1
        · rw [upd_ne _ _ _ _ e'] at h1; exact h2.lock w' v h1 h3
    · exact ⟨by simp, fun s' h => by simp at h⟩

/-- **C38**: such a run does not abort, if the engine is never busy and the main threads leave the I/O to
the workers.  Without these conditions it may: `C38_busy_counterexample`, `C38_main_counterexample`. -/
theorem C38_no_abort (c : Cfg) (s : St) (as : List Act) (h0 : Init c s) (hc : CalmRun c s as)
    (hp : ∀ a ∈ as, Plain c a) : ∃ s', run c s as = some s' := by
  have hI := inv_init h0
  have h2 : Inv2 c s := ⟨fun w u h => by rw [h0.pc] at h; simp [Pc.on] at h,
    fun w u h => by rw [h0.pc] at h; simp at h⟩
  clear h0
  induction as generalizing s with
  | nil => exact ⟨s, rfl⟩
  | cons a as ih =>
    obtain ⟨c1, c2⟩ := hc
    obtain ⟨n1, n2⟩ := inv2_step hI h2 (hp a (by simp))
    simp only [run]
    cases hs : step c s a with
    | disabled => rw [hs] at c2; exact ih s c2 (fun b hb => hp b (by simp [hb])) hI h2
    | abort => exact absurd hs n1
    | ok s1 =>
      rw [hs] at c2
      exact ih s1 c2 (fun b hb => hp b (by simp [hb])) (inv_step hI c1 hs) (n2 s1 hs)

theorem run_append (c : Cfg) : ∀ (as bs : List Act) (s s' : St), run c s as = some s' →
    run c s (as ++ bs) = run c s' bs := by
  intro as
  induction as with
  | nil => intro bs s s' h; simp only [run, Option.some.injEq] at h; simp [h]
  | cons a as ih =>
    intro bs s s' h
    simp only [run, List.cons_append] at h ⊢
    cases hs : step c s a with
    | disabled => rw [hs] at h; exact ih bs s s' h
    | abort => rw [hs] at h; simp at h
    | ok s1 => rw [hs] at h; exact ih bs s1 s' h

/-- The scan goes through if nothing conflicts. -/
theorem scan_through (c : Cfg) (w u : Nat) : ∀ (k j : Nat) (rest : List Nat) (s : St), c.nj - j = k →
    s.pc w = .scan u j rest → (∀ v, conflict (s.iou u) (s.iou v) = false) →
    ∃ n pc', run c s (List.replicate n (.scan w)) = some { s with pc := pc' } ∧ pc' w = .queue u ∧
      ∀ w', w' ≠ w → pc' w' = s.pc w' := by
  intro k
  induction k with
  | zero =>
    intro j rest
    induction rest with
    | nil =>
      intro s hj hp hc
      refine ⟨1, upd s.pc w (.queue u), ?_, upd_same _ _ _, fun w' h => upd_ne _ _ _ _ h⟩
      simp [run, step, stepScan, hp, show ¬ j < c.nj by omega]
    | cons v rest ih =>
      intro s hj hp hc
      obtain ⟨n, pc', h1, h2, h3⟩ := ih { s with pc := upd s.pc w (.scan u j rest) } hj (upd_same _ _ _) hc
      refine ⟨n + 1, pc', ?_, h2, fun w' h => by rw [h3 w' h]; exact upd_ne _ _ _ _ h⟩
      rw [List.replicate_succ]
      simp only [run, step, stepScan, hp, hc v, Bool.false_eq_true, if_false]
      exact h1
  | succ k ihk =>
    intro j rest
    induction rest with
    | nil =>
      intro s hj hp hc
      obtain ⟨n, pc', h1, h2, h3⟩ := ihk (j + 1) (if skipped c s j then [] else ious c j)
        { s with pc := upd s.pc w (.scan u (j + 1) (if skipped c s j then [] else ious c j)) } (by omega)
        (upd_same _ _ _) hc
      refine ⟨n + 1, pc', ?_, h2, fun w' h => by rw [h3 w' h]; exact upd_ne _ _ _ _ h⟩
      rw [List.replicate_succ]
      simp only [run, step, stepScan, hp, show j < c.nj by omega, if_true]
      exact h1
    | cons v rest ih =>
      intro s hj hp hc
      obtain ⟨n, pc', h1, h2, h3⟩ := ih { s with pc := upd s.pc w (.scan u j rest) } hj (upd_same _ _ _) hc
      refine ⟨n + 1, pc', ?_, h2, fun w' h => by rw [h3 w' h]; exact upd_ne _ _ _ _ h⟩
      rw [List.replicate_succ]
      simp only [run, step, stepScan, hp, hc v, Bool.false_eq_true, if_false]
      exact h1

/-- **C38**, progress: a worker that waits with an io_u gets it to the engine by its own steps when the
mutex is free and nothing in flight conflicts; the mutex is free again afterwards. -/
theorem C38_progress (c : Cfg) (s : St) (w u : Nat) (hp : s.pc w = .want u) (hl : s.lock = none)
    (hf : (s.iou u).flight = false) (hc : ∀ v, conflict (s.iou u) (s.iou v) = false) :
    ∃ n s', run c s (.lock w :: List.replicate n (.scan w) ++ [.queue w]) = some s' ∧
      (s'.iou u).dev = some ((s.iou u).off, (s.iou u).xferBuflen) ∧ (s'.iou u).flight = true ∧
      s'.pc w = .engine u ∧ (c.ser (c.owner u) = true → s'.lock = none) := by
  obtain ⟨n, pc', h1, h2, -⟩ := scan_through c w u (c.nj - 0) 0 []
    { s with lock := some w, pc := upd s.pc w (.scan u 0 []) } rfl (upd_same _ _ _) hc
  have hrun : run c s (.lock w :: List.replicate n (.scan w)) = some { s with lock := some w, pc := pc' } := by
    simp only [run, step, hp, hl]
    exact h1
  have htq : ∃ s', tdQueue c { s with lock := some w, pc := pc' } w u = .ok s' ∧
      (s'.iou u).dev = some ((s.iou u).off, (s.iou u).xferBuflen) ∧ (s'.iou u).flight = true ∧
      s'.pc w = .engine u ∧ (c.ser (c.owner u) = true → s'.lock = none) := by
    unfold tdQueue
    simp only [hf, Bool.false_eq_true, if_false, if_true]
    split
    · exact ⟨_, rfl, by simp, by simp, by simp, fun _ => rfl⟩
    · rename_i hs
      exact ⟨_, rfl, by simp, by simp, by simp, fun h => absurd h hs⟩
  obtain ⟨s', t1, t2⟩ := htq
  refine ⟨n, s', ?_, t2⟩
  rw [run_append c _ _ _ _ hrun]
  simp only [run, step, h2, t1]

/-! ### Where the code falls short -/

/-- One job in offload mode with two io_us and two workers; a third thread is its main thread. -/
def cfg1 : Cfg := ⟨1, 2, 3, fun _ => 0, fun _ => true⟩

def st1 (r : Run) : St := ⟨fun _ => r, fun _ => ⟨0, 0, 0, false, none⟩, none, fun _ => .idle⟩

theorem init1 (r : Run) : Init cfg1 (st1 r) := ⟨fun _ => rfl, rfl, fun _ => rfl, fun _ => rfl, fun _ _ => Nat.zero_lt_one⟩

/-- A job in its ramp time is skipped by check_overlap, since TD_RAMP comes before TD_SETTING_UP: two
writes to the same block are with the engine at once. -/
theorem C38_ramp_counterexample :
    ∃ s', run cfg1 (st1 .ramp) [.start 0 0 4096 4096 4096, .lock 0, .scan 0, .scan 0, .queue 0, .engine 0 false,
        .start 1 1 4096 4096 4096, .lock 1, .scan 1, .scan 1, .queue 1] = some s' ∧
      (s'.iou 0).dev = some (4096, 4096) ∧ (s'.iou 1).dev = some (4096, 4096) ∧
      Overlaps (4096, 4096) (4096, 4096) :=
  ⟨_, rfl, rfl, rfl, 4096, by decide⟩

/-- If the engine is busy, io_workqueue_fn calls td_io_queue again without the mutex, and fio aborts. -/
theorem C38_busy_counterexample :
    run cfg1 (st1 .running) [.start 0 0 4096 4096 4096, .lock 0, .scan 0, .scan 0, .scan 0, .scan 0, .queue 0,
      .engine 0 true, .queue 0] = none := rfl

/-- The main thread of a job that syncs its files at the end (or verifies) calls td_io_queue without the
mutex, and fio aborts. -/
theorem C38_main_counterexample : run cfg1 (st1 .fsyncing) [.main 2 0 0 0 0] = none := rfl

/-- A calm run: two I/Os to the same block, the second waits until the first is over. -/
example :
    ∃ s', run cfg1 (st1 .running) [.start 0 0 4096 4096 4096, .lock 0, .scan 0, .scan 0, .scan 0, .scan 0, .queue 0,
        .engine 0 false, .start 1 1 4096 4096 4096, .lock 1, .scan 1, .scan 1, .lock 1, .done 0, .scan 1, .scan 1,
        .scan 1, .scan 1, .queue 1] = some s' ∧
      (s'.iou 0).dev = none ∧ (s'.iou 1).dev = some (4096, 4096) ∧ s'.lock = none :=
  ⟨_, rfl, rfl, rfl, rfl⟩

example : CalmRun cfg1 (st1 .running) [.start 0 0 4096 4096 4096, .lock 0, .scan 0, .setRun 0 .verifying, .queue 0] := by
  refine ⟨Or.inl rfl, ?_⟩
  simp [step, CalmRun, Calm, active, cfg1, st1, free, first, upd, stepScan, List.range, List.range.loop, Pc.on]

/-! ### Without offload -/

structure Inv1 (s : Job1) : Prop where
  depth : s.depth = s.us.countP (·.taken)
  dev : ∀ (u : Nat) (y : Unit1) r, s.us[u]? = some y → y.io.dev = some r → y.taken = true ∧ y.io.flight = true ∧
    r.1 = y.io.off ∧ r.2 ≤ y.io.buflen ∧ y.io.off + y.io.buflen < 2 ^ 64
  ok : ∀ (u : Nat) (y : Unit1), s.us[u]? = some y → y.taken = true → y.io.xferBuflen ≤ y.io.buflen ∧
    y.io.off + y.io.buflen < 2 ^ 64
  disj : ∀ (u v : Nat) (x y : Unit1) a b, u ≠ v → s.us[u]? = some x → s.us[v]? = some y →
    x.io.dev = some a → y.io.dev = some b → ¬ Overlaps a b

theorem countP_set (l : List Unit1) (u : Nat) (y x : Unit1) (h : l[u]? = some y) :
    (l.set u x).countP (·.taken) + (if y.taken then 1 else 0) = l.countP (·.taken) + (if x.taken then 1 else 0) := by
  induction l generalizing u with
  | nil => simp at h
  | cons z l ih =>
    cases u with
    | zero =>
      simp only [List.getElem?_cons_zero, Option.some.injEq] at h
      subst h
      simp only [List.set_cons_zero, List.countP_cons]
      omega
    | succ u =>
      simp only [List.getElem?_cons_succ] at h
      have := ih u h
      simp only [List.set_cons_succ, List.countP_cons]
      omega

theorem get_set {l : List Unit1} {u v : Nat} {x y : Unit1} (h : (l.set u x)[v]? = some y) :
    (v = u ∧ y = x) ∨ (v ≠ u ∧ l[v]? = some y) := by
  rw [List.getElem?_set] at h
  split at h
  · rename_i e
    split at h
    · left; exact ⟨e.symm, by simpa using h.symm⟩
    · simp at h
  · rename_i e; right; exact ⟨fun hc => e hc.symm, h⟩

/-- A step that hands nothing to the engine. -/
theorem inv1_set {s : Job1} {u : Nat} {y x : Unit1} (hI : Inv1 s) (hy : s.us[u]? = some y) (hx : x.io.dev = none)
    (hok : x.taken = true → x.io.xferBuflen ≤ x.io.buflen ∧ x.io.off + x.io.buflen < 2 ^ 64) (d : Nat)
    (hd : d + (if y.taken then 1 else 0) = s.depth + (if x.taken then 1 else 0)) :
    Inv1 ⟨s.us.set u x, d⟩ := by
  constructor
  · have := countP_set s.us u y x hy
    have := hI.depth
    simp only
    omega
  · intro v z r hz hr
    rcases get_set hz with ⟨rfl, rfl⟩ | ⟨_, hz⟩
    · rw [hx] at hr; simp at hr
    · exact hI.dev v z r hz hr
  · intro v z hz ht
    rcases get_set hz with ⟨rfl, rfl⟩ | ⟨_, hz⟩
    · exact hok ht
    · exact hI.ok v z hz ht
  · intro v v' z z' a b hne hz hz' ha hb
    rcases get_set hz with ⟨rfl, rfl⟩ | ⟨_, hz⟩
    · rw [hx] at ha; simp at ha
    · rcases get_set hz' with ⟨rfl, rfl⟩ | ⟨_, hz'⟩
      · rw [hx] at hb; simp at hb
      · exact hI.disj v v' z z' a b hne hz hz' ha hb

theorem two_taken {l : List Unit1} {u v : Nat} {x y : Unit1} (hne : u ≠ v) (hx : l[u]? = some x) (hy : l[v]? = some y)
    (tx : x.taken = true) (ty : y.taken = true) : 1 < l.countP (·.taken) := by
  induction l generalizing u v with
  | nil => simp at hx
  | cons z l ih =>
    have one : ∀ {k : Nat} {w : Unit1}, l[k]? = some w → w.taken = true → 0 < l.countP (·.taken) := by
      intro k w h t
      rw [List.countP_pos_iff]
      exact ⟨w, List.mem_of_getElem? h, t⟩
    rw [List.countP_cons]
    cases u with
    | zero =>
      cases v with
      | zero => omega
      | succ v =>
        simp only [List.getElem?_cons_zero, Option.some.injEq, List.getElem?_cons_succ] at hx hy
        subst hx
        have := one hy ty
        rw [if_pos tx]; omega
    | succ u =>
      cases v with
      | zero =>
        simp only [List.getElem?_cons_zero, Option.some.injEq, List.getElem?_cons_succ] at hx hy
        subst hy
        have := one hx tx
        rw [if_pos ty]; omega
      | succ v =>
        simp only [List.getElem?_cons_succ] at hx hy
        have := ih (by omega) hx hy
        omega

theorem inv1_step {s s' : Job1} {a : Act1} (hI : Inv1 s) (h : step1 s a = some s') : Inv1 s' := by
  cases a with
  | get u off len xfer =>
    simp only [step1, Option.bind_eq_bind, Option.bind_eq_some_iff] at h
    obtain ⟨y, hy, h⟩ := h
    split at h
    · rename_i hg
      simp only [Option.some.injEq] at h; subst h
      refine inv1_set hI hy rfl (fun _ => hg.2) _ ?_
      rw [hg.1]; simp
    · simp at h
  | reget u =>
    simp only [step1, Option.bind_eq_bind, Option.bind_eq_some_iff] at h
    obtain ⟨y, hy, h⟩ := h
    split at h
    · rename_i hg
      simp only [Option.some.injEq] at h; subst h
      refine inv1_set (x := { y with taken := true }) hI hy ?_ (fun _ => ⟨hg.2.2, hg.2.1⟩) _ ?_
      · cases hd : y.io.dev with
        | none => simp
        | some r => have := (hI.dev u y r hy hd).1; rw [hg.1] at this; simp at this
      · rw [hg.1]; simp
    · simp at h
  | put u =>
    simp only [step1, Option.bind_eq_bind, Option.bind_eq_some_iff] at h
    obtain ⟨y, hy, h⟩ := h
    split at h
    · rename_i hg
      simp only [Option.some.injEq] at h; subst h
      refine inv1_set (x := { y with taken := false }) hI hy hg.2 (fun h => by simp at h) _ ?_
      have : 0 < s.us.countP (·.taken) := by
        rw [List.countP_pos_iff]; exact ⟨y, List.mem_of_getElem? hy, hg.1⟩
      have := hI.depth
      rw [hg.1]; simp; omega
    · simp at h
  | submit u busy =>
    simp only [step1, Option.bind_eq_bind, Option.bind_eq_some_iff] at h
    obtain ⟨y, hy, h⟩ := h
    split at h
    · rename_i hg
      split at h
      · simp only [Option.some.injEq] at h; subst h; exact hI
      · rename_i hov
        split at h
        · simp only [Option.some.injEq] at h; subst h; exact hI
        · simp only [Option.some.injEq] at h; subst h
          obtain ⟨o1, o2⟩ := hI.ok u y hy hg.1
          have clean : ∀ v z r, v ≠ u → s.us[v]? = some z → z.io.dev = some r →
              ¬ Overlaps (y.io.off, y.io.xferBuflen) r := by
            intro v z r hne hz hr
            obtain ⟨d1, d2, d3, d4, d5⟩ := hI.dev v z r hz hr
            have h2 := two_taken hne hz hy d1 hg.1
            rw [← hI.depth] at h2
            have hc : conflict y.io z.io = false := by
              cases hcf : conflict y.io z.io with
              | false => rfl
              | true =>
                exfalso; apply hov
                refine ⟨h2, ?_⟩
                unfold inFlightOverlap
                rw [List.any_eq_true]
                exact ⟨z, List.mem_of_getElem? hz, hcf⟩
            have := no_conflict o2 d5 d2 hc d3 d4
            intro ho
            apply this
            rw [overlaps_iff] at ho ⊢
            simp only at ho ⊢
            omega
          constructor
          · have := countP_set s.us u y { y with io := { y.io with flight := true, dev := some (y.io.off, y.io.xferBuflen) } } hy
            have := hI.depth
            simp only at *
            omega
          · intro v z r hz hr
            rcases get_set hz with ⟨rfl, rfl⟩ | ⟨_, hz⟩
            · simp only [Option.some.injEq] at hr
              subst hr
              exact ⟨hg.1, rfl, rfl, o1, o2⟩
            · exact hI.dev v z r hz hr
          · intro v z hz ht
            rcases get_set hz with ⟨rfl, rfl⟩ | ⟨_, hz⟩
            · exact ⟨o1, o2⟩
            · exact hI.ok v z hz ht
          · intro v v' z z' a b hne hz hz' ha hb
            rcases get_set hz with ⟨rfl, rfl⟩ | ⟨e1, hz1⟩
            · rcases get_set hz' with ⟨rfl, rfl⟩ | ⟨e2, hz'⟩
              · exact absurd rfl hne
              · simp only [Option.some.injEq] at ha
                subst ha
                exact clean v' z' b e2 hz' hb
            · rcases get_set hz' with ⟨rfl, rfl⟩ | ⟨_, hz2⟩
              · simp only [Option.some.injEq] at hb
                subst hb
                rintro ⟨x, p1, p2, p3, p4⟩
                exact clean v z a e1 hz1 ha ⟨x, p3, p4, p1, p2⟩
              · exact hI.disj v v' z z' a b hne hz1 hz2 ha hb
    · simp at h
  | done u =>
    simp only [step1, Option.bind_eq_bind, Option.bind_eq_some_iff] at h
    obtain ⟨y, hy, h⟩ := h
    split at h
    · rename_i hg
      simp only [Option.some.injEq] at h; subst h
      refine inv1_set hI hy rfl (fun h => by simp at h) _ ?_
      have : 0 < s.us.countP (·.taken) := by
        rw [List.countP_pos_iff]; exact ⟨y, List.mem_of_getElem? hy, hg.1⟩
      have := hI.depth
      rw [hg.1]; simp; omega
    · simp at h
  | short u k =>
    simp only [step1, Option.bind_eq_bind, Option.bind_eq_some_iff] at h
    obtain ⟨y, hy, h⟩ := h
    split at h
    · rename_i hg
      simp only [Option.some.injEq] at h; subst h
      refine inv1_set hI hy rfl (fun h => by simp at h) _ ?_
      have : 0 < s.us.countP (·.taken) := by
        rw [List.countP_pos_iff]; exact ⟨y, List.mem_of_getElem? hy, hg.1⟩
      have := hI.depth
      rw [hg.1]; simp; omega
    · simp at h

/-- **C38**, a job that submits its I/O itself: whatever it does, no two of its I/Os that the engine works
on overlap; the test of `cur_depth` in io_u_submit does not miss anything. -/
theorem C38_inline (n : Nat) (as : List Act1) (u v : Nat) (x y : Unit1) (a b : Nat × Nat) (hne : u ≠ v)
    (hx : (run1 ⟨List.replicate n ⟨⟨0, 0, 0, false, none⟩, false⟩, 0⟩ as).us[u]? = some x)
    (hy : (run1 ⟨List.replicate n ⟨⟨0, 0, 0, false, none⟩, false⟩, 0⟩ as).us[v]? = some y)
    (ha : x.io.dev = some a) (hb : y.io.dev = some b) : ¬ Overlaps a b := by
  have key : ∀ (as : List Act1) (s : Job1), Inv1 s → Inv1 (run1 s as) := by
    intro as
    induction as with
    | nil => intro s h; exact h
    | cons a as ih =>
      intro s h
      simp only [run1]
      cases hs : step1 s a with
      | none => exact ih s h
      | some s' => exact ih s' (inv1_step h hs)
  refine (key as _ ?_).disj u v x y a b hne hx hy ha hb
  have hrep : ∀ (u : Nat) (y : Unit1), (List.replicate n (⟨⟨0, 0, 0, false, none⟩, false⟩ : Unit1))[u]? = some y →
      y = ⟨⟨0, 0, 0, false, none⟩, false⟩ := by
    intro u y h
    exact (List.mem_replicate.1 (List.mem_of_getElem? h)).2
  constructor
  · simp [List.countP_replicate]
  · intro u y r h hr; rw [hrep u y h] at hr; simp at hr
  · intro u y h hr; rw [hrep u y h] at hr; simp at hr
  · intro u v x y a b _ h _ hr; rw [hrep u x h] at hr; simp at hr

/-- **C38**, progress: an I/O that does not conflict is issued. -/
theorem C38_inline_progress (s : Job1) (u : Nat) (y : Unit1) (hy : s.us[u]? = some y) (ht : y.taken = true)
    (hf : y.io.flight = false) (hc : ∀ z ∈ s.us, z.io.flight = true →
      ¬ (y.io.off < (z.io.off + z.io.buflen) % 2 ^ 64 ∧ z.io.off < (y.io.off + y.io.buflen) % 2 ^ 64)) :
    ∃ s', step1 s (.submit u false) = some s' ∧
      (s'.us[u]?).bind (·.io.dev) = some (y.io.off, y.io.xferBuflen) := by
  have hno : inFlightOverlap s.us y.io = false := by
    unfold inFlightOverlap
    rw [List.any_eq_false]
    intro z hz hcf
    unfold conflict at hcf
    simp only [Bool.and_eq_true, decide_eq_true_eq] at hcf
    exact hc z hz hcf.1.1 ⟨hcf.1.2, hcf.2⟩
  refine ⟨_, by simp [step1, hy, ht, hf, hno]; rfl, ?_⟩
  have hu : u < s.us.length := (List.getElem?_eq_some_iff.1 hy).1
  simp [List.getElem?_set_self hu]

/-- Two writes to the same block, the second is refused until the first is over. -/
example :
    let s := run1 ⟨List.replicate 2 ⟨⟨0, 0, 0, false, none⟩, false⟩, 0⟩
      [.get 0 4096 4096 4096, .submit 0 false, .get 1 6144 4096 4096, .submit 1 false]
    let s2 := run1 s [.done 0, .submit 1 false]
    s.us.map (·.io.dev) = [some (4096, 4096), none] ∧ s2.us.map (·.io.dev) = [none, some (6144, 4096)] := by
  decide

end Fio.Overlap
