import Verif.Sem.Spec
/-
C60: semaphores.
-/
namespace Fio.Sem

/-- What always holds. -/
structure Inv (v : Nat) (s : St) : Prop where
  count : s.value + s.taken = v + s.given
  wait : s.waiters = s.asleep.length + s.woken.length

theorem tryTake_inv {v s t b} (h : Inv v s) : Inv v (tryTake s t b) := by
  obtain ⟨h1, h2⟩ := h
  unfold tryTake
  split <;> constructor <;> simp only [List.length_cons] <;> omega

theorem wake_some {s s2 t b} (h : wake s t b = some s2) :
    ∃ x ∈ s.asleep, x.tid = t ∧ s2 = { s with asleep := s.asleep.erase x, woken := ⟨x.tid, x.timed, b⟩ :: s.woken } := by
  unfold wake at h
  split at h
  · cases h
  · rename_i x hx
    have := List.find?_some hx
    exact ⟨x, List.mem_of_find?_eq_some hx, by simpa using this, (Option.some.inj h).symm⟩

theorem wake_inv {v s s2 t b} (h : Inv v s) (hw : wake s t b = some s2) : Inv v s2 := by
  obtain ⟨x, hx, -, rfl⟩ := wake_some hw
  obtain ⟨h1, h2⟩ := h
  have := List.length_erase_of_mem hx
  have := List.length_pos_of_mem hx
  constructor <;> simp only [List.length_cons] <;> omega

theorem up_inv {v s s2 t w} (h : Inv v s) (hu : up s t w = some s2) : Inv v s2 := by
  have h' : Inv v { s with value := s.value + 1, given := s.given + 1, holders := s.holders.erase t } :=
    ⟨by have := h.count; simp only; omega, h.wait⟩
  simp only [up] at hu
  split at hu
  · split at hu
    · exact wake_inv h' hu
    · split at hu
      · cases hu; exact h'
      · cases hu
  · split at hu
    · cases hu
    · cases hu; exact h'

theorem step_inv {v s s2 a} (h : Inv v s) (hs : step s a = some s2) : Inv v s2 := by
  obtain ⟨h1, h2⟩ := id h
  cases a with
  | down t => simp only [step] at hs; split at hs; (cases hs); cases hs; exact tryTake_inv h
  | timed t => simp only [step] at hs; split at hs; (cases hs); cases hs; exact tryTake_inv h
  | «try» t =>
    simp only [step] at hs
    split at hs
    · cases hs
    · split at hs
      · cases hs
        exact ⟨by simp only; omega, h2⟩
      · cases hs
        exact h
  | up t w => simp only [step] at hs; split at hs; (cases hs); exact up_inv h hs
  | spurious t => exact wake_inv h hs
  | expire t => simp only [step] at hs; split at hs; exact wake_inv h hs; cases hs
  | run t =>
    simp only [step] at hs
    split at hs
    · cases hs
    · rename_i x hx
      have hm := List.mem_of_find?_eq_some hx
      have := List.length_erase_of_mem hm
      have := List.length_pos_of_mem hm
      have h' : Inv v { s with woken := s.woken.erase x, waiters := s.waiters - 1 } :=
        ⟨h1, by simp only; omega⟩
      split at hs
      · cases hs
        exact ⟨h'.count, h'.wait⟩
      · cases hs
        exact tryTake_inv h'

theorem run_inv {v} : ∀ {l s s2}, Inv v s → run s l = some s2 → Inv v s2
  | [], _, _, h, hr => by cases hr; exact h
  | a :: l, s, s2, h, hr => by
    simp only [run] at hr
    split at hr
    · cases hr
    · rename_i s1 hs
      exact run_inv (step_inv h hs) hr

theorem init_inv (v : Nat) : Inv v (init v) := ⟨rfl, rfl⟩

/-- **C60.** A semaphore counts: the value is what it was initialized to, plus the ups, minus the downs that
succeeded. -/
theorem counts {v l s} (h : run (init v) l = some s) : s.value + s.taken = v + s.given :=
  (run_inv (init_inv v) h).count

/-! ## Locks -/

/-- In the use as a lock with `v` tokens, what is not there is held. -/
theorem held_step {v s s2 a} (h : s.value + s.holders.length = v) (ha : ∀ t w, a = .up t w → t ∈ s.holders)
    (hs : step s a = some s2) : s2.value + s2.holders.length = v := by
  have ht : ∀ (s : St) t b, s.value + s.holders.length = v → (tryTake s t b).value + (tryTake s t b).holders.length = v := by
    intro s t b h
    unfold tryTake
    split <;> simp only [List.length_cons] <;> omega
  have hw : ∀ {s s2 : St} {t b}, s.value + s.holders.length = v → wake s t b = some s2 → s2.value + s2.holders.length = v := by
    intro s s2 t b h hw
    obtain ⟨x, -, -, rfl⟩ := wake_some hw
    exact h
  cases a with
  | down t => simp only [step] at hs; split at hs; (cases hs); cases hs; exact ht _ _ _ h
  | timed t => simp only [step] at hs; split at hs; (cases hs); cases hs; exact ht _ _ _ h
  | «try» t =>
    simp only [step] at hs
    split at hs
    · cases hs
    · split at hs
      · cases hs
        simp only [List.length_cons]; omega
      · cases hs
        exact h
  | up t w =>
    have hm := ha t w rfl
    have := List.length_erase_of_mem hm
    have := List.length_pos_of_mem hm
    have h' : s.value + 1 + (s.holders.erase t).length = v := by omega
    simp only [step] at hs
    split at hs
    · cases hs
    · simp only [up] at hs
      split at hs
      · split at hs
        · exact hw (s := { s with value := s.value + 1, given := s.given + 1, holders := s.holders.erase t }) h' hs
        · split at hs
          · cases hs; exact h'
          · cases hs
      · split at hs
        · cases hs
        · cases hs; exact h'
  | spurious t => exact hw h hs
  | expire t => simp only [step] at hs; split at hs; exact hw h hs; cases hs
  | run t =>
    simp only [step] at hs
    split at hs
    · cases hs
    · split at hs
      · cases hs
        exact h
      · cases hs
        exact ht _ _ _ h

theorem held {v} : ∀ {l s s2}, s.value + s.holders.length = v → AsLock s l → run s l = some s2 →
    s2.value + s2.holders.length = v
  | [], _, _, h, _, hr => by cases hr; exact h
  | a :: l, s, s2, h, hl, hr => by
    simp only [run] at hr
    split at hr
    · cases hr
    · rename_i s1 hs
      exact held (held_step h hl.1 hs) (hl.2 _ hs) hr

/-- **C60.** A semaphore of one token that only its holder gives back is held by at most one thread. -/
theorem exclusive {l s} (hl : AsLock (init 1) l) (h : run (init 1) l = some s) : s.holders.length ≤ 1 := by
  have := held (v := 1) rfl hl h
  omega

/-- **C60.** ... by at most `v`, with `v` tokens. -/
theorem exclusive_many {v l s} (hl : AsLock (init v) l) (h : run (init v) l = some s) : s.holders.length ≤ v := by
  have := held (v := v) rfl hl h
  omega

/-- A lock is a simple use. -/
theorem lock_one : ∀ {l s}, s.value + s.holders.length = 1 → AsLock s l → Simple s l
  | [], _, _, _ => trivial
  | a :: l, s, h, hl => by
    refine ⟨fun t w e => ?_, fun s2 hs => lock_one (held_step h hl.1 hs) (hl.2 _ hs)⟩
    have := List.length_pos_of_mem (hl.1 t w e)
    exact Or.inl (by omega)

/-! ## Wake-ups -/

/-- Some thread is about to run and will look at the value. -/
def Coming (s : St) : Prop := ∃ x ∈ s.woken, x.expired = false

/-- No wake-up is lost. -/
structure Fine (s : St) : Prop where
  wait : s.waiters = s.asleep.length + s.woken.length
  fine : s.value = 0 ∨ s.asleep = [] ∨ s.value = 1 ∧ Coming s

theorem tryTake_fine {s t b} (h1 : s.value ≤ 1 ∨ s.asleep = []) (h2 : s.waiters = s.asleep.length + s.woken.length) :
    Fine (tryTake s t b) := by
  unfold tryTake
  split
  · rename_i h0
    exact ⟨by simp only [List.length_cons]; omega, Or.inl h0⟩
  · refine ⟨h2, ?_⟩
    rcases h1 with h1 | h1
    · exact Or.inl (by simp only; omega)
    · exact Or.inr (Or.inl h1)

theorem wake_fine {s s2 t b} (h2 : s.waiters = s.asleep.length + s.woken.length)
    (h3 : b = false ∧ s.value = 1 ∨ s.value = 0 ∨ s.value = 1 ∧ Coming s) (hw : wake s t b = some s2) : Fine s2 := by
  obtain ⟨x, hx, -, rfl⟩ := wake_some hw
  have := List.length_erase_of_mem hx
  have := List.length_pos_of_mem hx
  refine ⟨by simp only [List.length_cons]; omega, ?_⟩
  rcases h3 with ⟨h3, h4⟩ | h3 | ⟨h4, y, hy, he⟩
  · exact Or.inr (Or.inr ⟨h4, _, List.mem_cons_self .., h3⟩)
  · exact Or.inl h3
  · exact Or.inr (Or.inr ⟨h4, y, List.mem_cons_of_mem _ hy, he⟩)

theorem Fine.le {s} (h : Fine s) : s.value ≤ 1 ∨ s.asleep = [] := by
  rcases h.fine with h3 | h3 | h3
  · exact Or.inl (by omega)
  · exact Or.inr h3
  · exact Or.inl (by omega)

theorem step_fine {s s2 a} (h : Fine s)
    (ha : ∀ t w, a = .up t w → s.value = 0 ∨ s.asleep.length + s.woken.length ≤ 1) (hs : step s a = some s2) :
    Fine s2 := by
  obtain ⟨h2, h3⟩ := id h
  cases a with
  | down t => simp only [step] at hs; split at hs; (cases hs); cases hs; exact tryTake_fine h.le h2
  | timed t => simp only [step] at hs; split at hs; (cases hs); cases hs; exact tryTake_fine h.le h2
  | «try» t =>
    simp only [step] at hs
    split at hs
    · cases hs
    · split at hs
      · rename_i hv
        cases hs
        have e : tryTake s t false = { s with value := s.value - 1, holders := t :: s.holders, taken := s.taken + 1 } := by
          simp [tryTake, hv]
        rw [← e]
        exact tryTake_fine h.le h2
      · cases hs
        exact h
  | up t w =>
    have h0 := ha t w rfl
    simp only [step] at hs
    split at hs
    · cases hs
    · simp only [up] at hs
      split at hs
      · rename_i hv
        split at hs
        · exact wake_fine (s := { s with value := s.value + 1, given := s.given + 1, holders := s.holders.erase t })
            h2 (Or.inl ⟨rfl, by simp only; omega⟩) hs
        · split at hs
          · rename_i he
            cases hs; exact ⟨h2, Or.inr (Or.inl he)⟩
          · cases hs
      · rename_i hd
        split at hs
        · cases hs
        · cases hs
          refine ⟨h2, Or.inr (Or.inl ?_)⟩
          by_cases hv : s.value = 0
          · have : s.waiters = 0 := by
              apply Classical.byContradiction
              intro hn
              exact hd ⟨hv, hn⟩
            exact List.length_eq_zero_iff.1 (show s.asleep.length = 0 by omega)
          · rcases h3 with h3 | h3 | ⟨-, y, hy, -⟩
            · exact absurd h3 hv
            · exact h3
            · have := List.length_pos_of_mem hy
              exact List.length_eq_zero_iff.1 (show s.asleep.length = 0 by omega)
  | spurious t =>
    obtain ⟨x, hx, -⟩ := wake_some hs
    refine wake_fine h2 ?_ hs
    rcases h3 with h3 | h3 | h3
    · exact Or.inr (Or.inl h3)
    · rw [h3] at hx; cases hx
    · exact Or.inr (Or.inr h3)
  | expire t =>
    simp only [step] at hs
    split at hs
    · obtain ⟨x, hx, -⟩ := wake_some hs
      refine wake_fine h2 (Or.inr ?_) hs
      rcases h3 with h3 | h3 | h3
      · exact Or.inl h3
      · rw [h3] at hx; cases hx
      · exact Or.inr h3
    · cases hs
  | run t =>
    simp only [step] at hs
    split at hs
    · cases hs
    · rename_i x hx
      have hm := List.mem_of_find?_eq_some hx
      have hl := List.length_erase_of_mem hm
      have := List.length_pos_of_mem hm
      split at hs
      · rename_i hxe
        cases hs
        refine ⟨by simp only; omega, ?_⟩
        rcases h3 with h3 | h3 | ⟨h4, y, hy, he⟩
        · exact Or.inl h3
        · exact Or.inr (Or.inl h3)
        · refine Or.inr (Or.inr ⟨h4, y, ?_, he⟩)
          have : y ≠ x := by rintro rfl; rw [hxe] at he; cases he
          exact (List.mem_erase_of_ne this).2 hy
      · cases hs
        exact tryTake_fine h.le (by simp only; omega)

theorem run_fine : ∀ {l s s2}, Fine s → Simple s l → run s l = some s2 → Fine s2
  | [], _, _, h, _, hr => by cases hr; exact h
  | a :: l, s, s2, h, ho, hr => by
    simp only [run] at hr
    split at hr
    · cases hr
    · rename_i s1 hs
      exact run_fine (step_fine h ho.1 hs) (ho.2 _ hs) hr

/-- A woken thread that finds the token takes it. -/
theorem woken_takes {s : St} {x : Woken} (hx : x ∈ s.woken) (he : x.expired = false) (hv : s.value ≠ 0)
    (hu : ∀ y ∈ s.woken, y.tid = x.tid → y = x) :
    ∃ s2, step s (.run x.tid) = some s2 ∧ s2.holders = x.tid :: s.holders := by
  have hf : s.woken.find? (fun y => y.tid == x.tid) = some x := by
    generalize hf : s.woken.find? (fun y => y.tid == x.tid) = r
    match r with
    | none =>
      have := List.find?_eq_none.1 hf x hx
      simp at this
    | some y =>
      have h1 := List.find?_some hf
      rw [← hu y (List.mem_of_find?_eq_some hf) (by simpa using h1)]
  refine ⟨_, by simp only [step, hf, he]; rfl, ?_⟩
  simp [tryTake, hv]

theorem inj_of_nodup : ∀ {l : List Woken} {x y : Woken}, (l.map (·.tid)).Nodup → x ∈ l → y ∈ l → x.tid = y.tid → x = y
  | z :: l, x, y, h, hx, hy, e => by
    simp only [List.map_cons, List.nodup_cons] at h
    rcases List.mem_cons.1 hx with rfl | hx' <;> rcases List.mem_cons.1 hy with rfl | hy'
    · rfl
    · exact absurd (e ▸ List.mem_map_of_mem hy') h.1
    · exact absurd (e ▸ List.mem_map_of_mem hx') h.1
    · exact inj_of_nodup h.2 hx' hy' e

/-- A thread waits once. -/
def Uniq (s : St) : Prop := (s.asleep.map (·.tid) ++ s.woken.map (·.tid)).Nodup

theorem not_busy {s t} (h : ¬ busy s t = true) : t ∉ s.asleep.map (·.tid) ++ s.woken.map (·.tid) := by
  intro hm
  apply h
  simp only [List.mem_append, List.mem_map] at hm
  simp only [busy, Bool.or_eq_true, List.any_eq_true, beq_iff_eq]
  exact hm

theorem tryTake_uniq {s t b} (h : Uniq s) (ht : t ∉ s.asleep.map (·.tid) ++ s.woken.map (·.tid)) :
    Uniq (tryTake s t b) := by
  unfold tryTake
  split
  · exact List.nodup_cons.2 ⟨ht, h⟩
  · exact h

theorem wake_uniq {s s2 t b} (h : Uniq s) (hw : wake s t b = some s2) : Uniq s2 := by
  obtain ⟨x, hx, -, rfl⟩ := wake_some hw
  have h1 : (s.asleep.map (·.tid)).Perm (x.tid :: (s.asleep.erase x).map (·.tid)) :=
    (List.perm_cons_erase hx).map _
  have h2 : (x.tid :: ((s.asleep.erase x).map (·.tid) ++ s.woken.map (·.tid))).Nodup := (h1.append_right _).nodup_iff.1 h
  exact (List.perm_middle.nodup_iff).2 h2

theorem step_uniq {s s2 a} (h : Uniq s) (hs : step s a = some s2) : Uniq s2 := by
  cases a with
  | down t => simp only [step] at hs; split at hs; (cases hs); cases hs; rename_i hb; exact tryTake_uniq h (not_busy hb)
  | timed t => simp only [step] at hs; split at hs; (cases hs); cases hs; rename_i hb; exact tryTake_uniq h (not_busy hb)
  | «try» t =>
    simp only [step] at hs
    split at hs
    · cases hs
    · split at hs <;> cases hs <;> exact h
  | up t w =>
    simp only [step] at hs
    split at hs
    · cases hs
    · simp only [up] at hs
      split at hs
      · split at hs
        · exact wake_uniq (s := { s with value := s.value + 1, given := s.given + 1, holders := s.holders.erase t }) h hs
        · split at hs <;> cases hs
          exact h
      · split at hs <;> cases hs
        exact h
  | spurious t => exact wake_uniq h hs
  | expire t => simp only [step] at hs; split at hs; exact wake_uniq h hs; cases hs
  | run t =>
    simp only [step] at hs
    split at hs
    · cases hs
    · rename_i x hx
      have hm := List.mem_of_find?_eq_some hx
      have ht : x.tid = t := by simpa using List.find?_some hx
      have h1 : (s.woken.map (·.tid)).Perm (x.tid :: (s.woken.erase x).map (·.tid)) :=
        (List.perm_cons_erase hm).map _
      have h2 := (((List.Perm.refl (s.asleep.map (fun x : Sleeper => x.tid))).append h1).trans List.perm_middle).nodup_iff.1 h
      have h3 := List.nodup_cons.1 h2
      split at hs
      · cases hs
        exact h3.2
      · cases hs
        exact tryTake_uniq (s := { s with woken := s.woken.erase x, waiters := s.waiters - 1 }) h3.2 (ht ▸ h3.1)

theorem run_uniq : ∀ {l s s2}, Uniq s → run s l = some s2 → Uniq s2
  | [], _, _, h, hr => by cases hr; exact h
  | a :: l, s, s2, h, hr => by
    simp only [run] at hr
    split at hr
    · cases hr
    · rename_i s1 hs
      exact run_uniq (step_uniq h hs) hr

/-- **C60.** No wake-up is lost in the uses fio makes of semaphores (`Simple`): if a token is there and some thread waits that has
not timed out, then a thread can run, and takes a token. -/
theorem no_lost_wakeup {v l s} (ho : Simple (init v) l) (h : run (init v) l = some s)
    (hval : s.value ≠ 0) (hw : s.asleep ≠ [] ∨ ∃ x ∈ s.woken, x.expired = false) :
    ∃ t s2, step s (.run t) = some s2 ∧ s2.holders = t :: s.holders := by
  have hf := run_fine (s := init v) ⟨rfl, Or.inr (Or.inl rfl)⟩ ho h
  have hu : Uniq s := run_uniq (s := init v) (by simp [Uniq, init]) h
  have hc : Coming s := by
    rcases hw with hw | hw
    · rcases hf.fine with h3 | h3 | h3
      · exact absurd h3 hval
      · exact absurd h3 hw
      · exact h3.2
    · exact hw
  obtain ⟨x, hx, he⟩ := hc
  have hn := (List.nodup_append.1 hu).2.1
  obtain ⟨s2, h1, h2⟩ := woken_takes hx he hval (by
    intro y hy hxy
    exact inj_of_nodup hn hy hx hxy)
  exact ⟨x.tid, s2, h1, h2⟩

/-- **C60.** A lock that nobody holds is taken: if a thread waits for it, one can run and gets it. -/
theorem lock_progress {l s} (hl : AsLock (init 1) l) (h : run (init 1) l = some s) (hh : s.holders = [])
    (hw : s.asleep ≠ [] ∨ ∃ x ∈ s.woken, x.expired = false) :
    ∃ t s2, step s (.run t) = some s2 ∧ s2.holders = [t] := by
  have := held (v := 1) rfl hl h
  rw [hh] at this
  obtain ⟨t, s2, h1, h2⟩ := no_lost_wakeup (lock_one rfl hl) h (by simp at this; omega) hw
  exact ⟨t, s2, h1, by rw [h2, hh]⟩

/-- **C60.** A call that finds the token takes it and does not wait; trylock never waits. -/
theorem no_needless_wait {s : St} {t : Nat} (hb : busy s t = false) :
    (s.value ≠ 0 → ∀ a ∈ [Act.down t, .timed t, .try t], ∃ s2, step s a = some s2 ∧ s2.holders = t :: s.holders ∧
      s2.asleep = s.asleep) ∧
    (s.value = 0 → step s (.try t) = some s) := by
  constructor
  · intro hv a ha
    simp only [List.mem_cons, List.not_mem_nil, or_false] at ha
    rcases ha with rfl | rfl | rfl <;> simp [step, hb, tryTake, hv]
  · intro hv
    simp [step, hb, hv]

/-- **C60.** A timed down that reports a timeout has taken nothing. -/
theorem timeout_takes_nothing {s s2 : St} {t : Nat} (h : step s (.run t) = some s2) (hg : s2.gaveUp ≠ s.gaveUp) :
    s2.taken = s.taken ∧ s2.value = s.value ∧ s2.holders = s.holders := by
  simp only [step] at h
  split at h
  · cases h
  · split at h
    · cases h; exact ⟨rfl, rfl, rfl⟩
    · cases h
      exfalso; apply hg
      unfold tryTake
      split <;> rfl

/-- Otherwise wake-ups are lost: two threads wait, two ups come before the first has run, only one is woken;
the other one sleeps although the value is 1. -/
theorem lost_counterexample : ∃ s, run (init 0) [.down 1, .down 2, .up 3 (some 1), .up 3 none, .run 1] = some s ∧
    s.value = 1 ∧ s.asleep = [⟨2, false⟩] ∧ s.woken = [] :=
  ⟨_, rfl, rfl, rfl, rfl⟩

/-- A lock with three threads: one has it, one waits, a third steals it. -/
example : ∃ s, run (init 1) [.down 1, .down 2, .up 1 (some 2), .down 3, .run 2, .up 3 (some 2), .run 2] = some s ∧
    s.holders = [2] ∧ s.asleep = [] := ⟨_, rfl, rfl, rfl⟩

example : AsLock (init 1) [.down 1, .timed 2, .expire 2, .up 1 none, .run 2] ∧
    ∃ s, run (init 1) [.down 1, .timed 2, .expire 2, .up 1 none, .run 2] = some s ∧ s.gaveUp = [2] := by
  refine ⟨⟨by simp, ?_⟩, ⟨_, rfl, rfl⟩⟩
  rintro _ ⟨⟩
  refine ⟨by simp, ?_⟩
  rintro _ ⟨⟩
  refine ⟨by simp, ?_⟩
  rintro _ ⟨⟩
  refine ⟨?_, ?_⟩
  · rintro t w ⟨⟩
    simp [init, tryTake]
  · rintro _ ⟨⟩
    refine ⟨by simp, ?_⟩
    rintro _ ⟨⟩
    trivial

end Fio.Sem
