import Verif.VState.Props
/-
C26 continued: saving the state while the job runs.  verify_save_state(IO_LIST_ALL) is called by the main
thread (check_trigger_file, backend.c:2550-2558) and by the server (server.c:1138), so get_all_io_list
interleaves with the job.

One action is one atomic access to the shared fields; memory is sequentially consistent (the code uses
acquire and release accesses only, so this is the most favourable reading).
-/
namespace Fio.VState.Race

/-- What the job is doing between two accesses. -/
inductive Pc where
  | idle
  /-- log_inflight stored the slot but not yet `inflight_issued` (backend.c:1041-1045). -/
  | issuing
  /-- io_completed invalidated the slot of a failed write but has not recorded it yet (io_u.c:2169-2194). -/
  | failing (n : Nat)
deriving DecidableEq

structure Sys where
  slots : List (Option Nat)
  issued : Nat
  failed : List Nat
  pc : Pc
  /-- writes completed without error, and writes that failed (not part of the program) -/
  ok : List Nat
  bad : List Nat
  /-- what the saver has read so far -/
  capSlots : List (Option Nat)
  capIssued : Option Nat
  capFailed : Option (List Nat)
deriving DecidableEq

/-- A job with `depth` free slots. -/
def start (depth : Nat) : Sys :=
  { slots := List.replicate depth none, issued := 0, failed := [], pc := .idle, ok := [], bad := [], capSlots := [], capIssued := none,
    capFailed := none }

inductive Act where
  /-- log_inflight stores the number of the next write in free slot `i` (backend.c:1036-1043). -/
  | slot (i : Nat)
  /-- log_inflight publishes it (backend.c:1045). -/
  | publish
  /-- io_completed, without error: the slot is invalidated (io_u.c:2169, backend.c:1082). -/
  | done (i : Nat)
  /-- io_completed, with an error: the slot is invalidated … -/
  | failBegin (i : Nat)
  /-- … and the number recorded (io_u.c:2182-2194). -/
  | failRecord
  /-- io_queue_event, a synchronous engine reports an error: the slot is invalidated and nothing is
  recorded (backend.c:455-461). -/
  | failSync (i : Nat)
  /-- get_all_io_list reads the next slot (verify.c:1703-1704). -/
  | readSlot
  /-- get_all_io_list reads inflight_issued (verify.c:1727). -/
  | readIssued
  /-- get_all_io_list reads the failed writes (verify.c:1730-1737). -/
  | readFailed
deriving DecidableEq

def Act.isJob : Act → Bool
  | .readSlot | .readIssued | .readFailed => false
  | _ => true

/-- One action; `none` when it cannot happen.  `first` selects the order of the saver: `false` is the order
of the code (slots, then `inflight_issued`), `true` the opposite one. -/
def step (first : Bool) (s : Sys) : Act → Option Sys
  | .slot i => if s.pc = .idle ∧ s.slots[i]? = some none then some { s with slots := s.slots.set i (some s.issued), pc := .issuing } else none
  | .publish => if s.pc = .issuing then some { s with issued := s.issued + 1, pc := .idle } else none
  | .done i =>
    match s.slots[i]? with
    | some (some n) => if s.pc = .idle then some { s with slots := s.slots.set i none, ok := n :: s.ok } else none
    | _ => none
  | .failBegin i =>
    match s.slots[i]? with
    | some (some n) => if s.pc = .idle then some { s with slots := s.slots.set i none, bad := n :: s.bad, pc := .failing n } else none
    | _ => none
  | .failRecord =>
    match s.pc with
    | .failing n => some { s with failed := s.failed ++ [n], pc := .idle }
    | _ => none
  | .failSync i =>
    match s.slots[i]? with
    | some (some n) => if s.pc = .idle then some { s with slots := s.slots.set i none, bad := n :: s.bad } else none
    | _ => none
  | .readSlot =>
    if first = true ∧ s.capIssued = none then none
    else match s.slots[s.capSlots.length]? with
      | some x => some { s with capSlots := s.capSlots ++ [x] }
      | none => none
  | .readIssued =>
    if s.capIssued = none ∧ (first = true ∨ s.capSlots.length = s.slots.length) then some { s with capIssued := some s.issued } else none
  | .readFailed =>
    if s.capFailed = none ∧ s.capIssued ≠ none ∧ s.capSlots.length = s.slots.length then some { s with capFailed := some s.failed } else none

def run (first : Bool) (s : Sys) : List Act → Option Sys
  | [] => some s
  | a :: l => (step first s a).bind fun s => run first s l

/-- The saved state lets the verifier check write `n` (this is `C26_safe` and `C26_complete`: below the
limit, not in flight, not failed). -/
def Checkable (s : Sys) (n : Nat) : Prop :=
  ∃ lim fl, s.capIssued = some lim ∧ s.capFailed = some fl ∧ s.capSlots.length = s.slots.length ∧
    n < lim ∧ some n ∉ s.capSlots ∧ n ∉ fl

/-- **C26**, counterexample: the order in which get_all_io_list reads (slots, then `inflight_issued`) loses
a write that is issued in between: the saved state declares it complete while it is in flight. -/
theorem C26_race_counterexample :
    ∃ s, run false (start 1) [.readSlot, .slot 0, .publish, .readIssued, .readFailed] = some s ∧ Checkable s 0 ∧
      some 0 ∈ s.slots ∧ 0 ∉ s.ok :=
  ⟨_, rfl, ⟨1, [], rfl, rfl, rfl, by decide, by decide, by decide⟩, by decide, by decide⟩

/-- **C26**, counterexample: a failing write is neither in flight nor recorded for a moment. -/
theorem C26_fail_window_counterexample :
    ∃ s, run false (start 1) [.slot 0, .publish, .failBegin 0, .readSlot, .readIssued, .readFailed, .failRecord] = some s ∧
      Checkable s 0 ∧ 0 ∈ s.bad ∧ 0 ∉ s.ok :=
  ⟨_, rfl, ⟨1, [], rfl, rfl, rfl, by decide, by decide, by decide⟩, by decide, by decide⟩

/-- **C26**, counterexample: an error reported synchronously is never recorded. -/
theorem C26_sync_failure_counterexample :
    ∃ s, run false (start 1) [.slot 0, .publish, .failSync 0, .readSlot, .readIssued, .readFailed] = some s ∧
      Checkable s 0 ∧ 0 ∈ s.bad ∧ 0 ∉ s.ok :=
  ⟨_, rfl, ⟨1, [], rfl, rfl, rfl, by decide, by decide, by decide⟩, by decide, by decide⟩

/-! ## What does hold -/

theorem mem_set_of_ne {l : List (Option Nat)} {i : Nat} {x v : Option Nat} (h : x ∈ l) (hne : l[i]? ≠ some x) : x ∈ l.set i v := by
  obtain ⟨k, hk, e⟩ := List.getElem_of_mem h
  have : i ≠ k := fun e' => hne (by rw [e', List.getElem?_eq_getElem hk, e])
  exact List.mem_iff_getElem?.2 ⟨k, by rw [List.getElem?_set_ne this, List.getElem?_eq_getElem hk, e]⟩

/-- Where an issued write is. -/
def Where (s : Sys) (n : Nat) : Prop := some n ∈ s.slots ∨ n ∈ s.ok ∨ n ∈ s.bad

/-- Where it is, when no engine reports errors synchronously. -/
def Where' (s : Sys) (n : Nat) : Prop := some n ∈ s.slots ∨ n ∈ s.ok ∨ n ∈ s.failed ∨ s.pc = .failing n

structure Inv (s : Sys) : Prop where
  issued : ∀ n < s.issued, Where s n
  issuing : s.pc = .issuing → some s.issued ∈ s.slots

theorem Inv.step {first : Bool} {s s' : Sys} {a : Act} (h : Inv s) (hs : step first s a = some s') :
    Inv s' ∧ (∀ n, Where s n → Where s' n) ∧ s.issued ≤ s'.issued := by
  -- removing the number in a slot
  have hrem : ∀ i n m, s.slots[i]? = some (some n) → some m ∈ s.slots → m = n ∨ some m ∈ s.slots.set i none := by
    intro i n m h1 h2
    by_cases hmn : m = n
    · exact Or.inl hmn
    · exact Or.inr (mem_set_of_ne h2 (by rw [h1]; simpa using fun e => hmn e.symm))
  have hadd : ∀ i m v, s.slots[i]? = some none → some m ∈ s.slots → some m ∈ s.slots.set i v := by
    intro i m v h1 h2
    exact mem_set_of_ne h2 (by rw [h1]; simp)
  cases a with
  | slot i =>
    simp only [Race.step] at hs
    split at hs <;> [skip; exact absurd hs (by simp)]
    rename_i hc
    cases hs
    have hw : ∀ n, Where s n → Where { s with slots := s.slots.set i (some s.issued), pc := .issuing } n := by
      rintro n (h1 | h1 | h1)
      · exact Or.inl (hadd i n _ hc.2 h1)
      · exact Or.inr (Or.inl h1)
      · exact Or.inr (Or.inr h1)
    refine ⟨⟨fun n hn => hw n (h.issued n hn), fun _ => ?_⟩, hw, Nat.le_refl _⟩
    obtain ⟨hi, -⟩ := List.getElem?_eq_some_iff.1 hc.2
    exact List.mem_iff_getElem?.2 ⟨i, by simp [hi]⟩
  | publish =>
    simp only [Race.step] at hs
    split at hs <;> [skip; exact absurd hs (by simp)]
    rename_i hc
    cases hs
    refine ⟨⟨fun n hn => ?_, by simp⟩, fun n hn => hn, by dsimp only; omega⟩
    rcases Nat.lt_or_eq_of_le (Nat.lt_succ_iff.1 hn) with h1 | h1
    · exact h.issued n h1
    · subst h1; exact Or.inl (h.issuing hc)
  | done i =>
    simp only [Race.step] at hs
    split at hs <;> [skip; exact absurd hs (by simp)]
    rename_i n he
    split at hs <;> [skip; exact absurd hs (by simp)]
    rename_i hp
    cases hs
    have hw : ∀ m, Where s m → Where { s with slots := s.slots.set i none, ok := n :: s.ok } m := by
      rintro m (h1 | h1 | h1)
      · rcases hrem i n m he h1 with rfl | h2
        · exact Or.inr (Or.inl List.mem_cons_self)
        · exact Or.inl h2
      · exact Or.inr (Or.inl (List.mem_cons_of_mem _ h1))
      · exact Or.inr (Or.inr h1)
    exact ⟨⟨fun n hn => hw n (h.issued n hn), fun hpc => by rw [hp] at hpc; exact absurd hpc (by simp)⟩, hw, Nat.le_refl _⟩
  | failBegin i =>
    simp only [Race.step] at hs
    split at hs <;> [skip; exact absurd hs (by simp)]
    rename_i n he
    split at hs <;> [skip; exact absurd hs (by simp)]
    rename_i hp
    cases hs
    have hw : ∀ m, Where s m → Where { s with slots := s.slots.set i none, bad := n :: s.bad, pc := .failing n } m := by
      rintro m (h1 | h1 | h1)
      · rcases hrem i n m he h1 with rfl | h2
        · exact Or.inr (Or.inr List.mem_cons_self)
        · exact Or.inl h2
      · exact Or.inr (Or.inl h1)
      · exact Or.inr (Or.inr (List.mem_cons_of_mem _ h1))
    exact ⟨⟨fun n hn => hw n (h.issued n hn), by simp⟩, hw, Nat.le_refl _⟩
  | failSync i =>
    simp only [Race.step] at hs
    split at hs <;> [skip; exact absurd hs (by simp)]
    rename_i n he
    split at hs <;> [skip; exact absurd hs (by simp)]
    rename_i hp
    cases hs
    have hw : ∀ m, Where s m → Where { s with slots := s.slots.set i none, bad := n :: s.bad } m := by
      rintro m (h1 | h1 | h1)
      · rcases hrem i n m he h1 with rfl | h2
        · exact Or.inr (Or.inr List.mem_cons_self)
        · exact Or.inl h2
      · exact Or.inr (Or.inl h1)
      · exact Or.inr (Or.inr (List.mem_cons_of_mem _ h1))
    exact ⟨⟨fun n hn => hw n (h.issued n hn), fun hpc => by rw [hp] at hpc; exact absurd hpc (by simp)⟩, hw, Nat.le_refl _⟩
  | failRecord =>
    simp only [Race.step] at hs
    split at hs <;> [skip; exact absurd hs (by simp)]
    cases hs
    exact ⟨⟨fun n hn => h.issued n hn, by simp⟩, fun n hn => hn, Nat.le_refl _⟩
  | readSlot =>
    simp only [Race.step] at hs
    split at hs <;> [exact absurd hs (by simp); skip]
    split at hs <;> [skip; exact absurd hs (by simp)]
    cases hs
    exact ⟨⟨fun n hn => h.issued n hn, h.issuing⟩, fun n hn => hn, Nat.le_refl _⟩
  | readIssued =>
    simp only [Race.step] at hs
    split at hs <;> [skip; exact absurd hs (by simp)]
    cases hs
    exact ⟨⟨fun n hn => h.issued n hn, h.issuing⟩, fun n hn => hn, Nat.le_refl _⟩
  | readFailed =>
    simp only [Race.step] at hs
    split at hs <;> [skip; exact absurd hs (by simp)]
    cases hs
    exact ⟨⟨fun n hn => h.issued n hn, h.issuing⟩, fun n hn => hn, Nat.le_refl _⟩

theorem Inv.start (depth : Nat) : Inv (start depth) := ⟨fun n hn => absurd hn (by simp [Race.start]), by simp [Race.start]⟩

/-! ### Reading `inflight_issued` first -/

/-- With the opposite order: a write below the captured limit has been captured, has completed, or is in a
slot still to be read. -/
structure Cap (s : Sys) : Prop where
  empty : s.capIssued = none → s.capSlots = []
  below : ∀ lim, s.capIssued = some lim → lim ≤ s.issued ∧ ∀ n < lim,
    some n ∈ s.capSlots ∨ (n ∈ s.ok ∨ n ∈ s.bad) ∨ some n ∈ s.slots.drop s.capSlots.length

theorem mem_drop_set {l : List (Option Nat)} {i k n m : Nat} {v : Option Nat} (h : some m ∈ l.drop k)
    (hne : l[i]? = some (some n) ∨ l[i]? = some none) : (m = n ∧ l[i]? = some (some n)) ∨ some m ∈ (l.set i v).drop k := by
  obtain ⟨j, hj, e⟩ := List.getElem_of_mem h
  have hj' : l[k + j]? = some (some m) := by rw [← List.getElem?_drop, List.getElem?_eq_getElem hj, e]
  by_cases hik : i = k + j
  · subst hik
    rcases hne with h1 | h1
    · rw [hj'] at h1; cases h1; exact Or.inl ⟨rfl, hj'⟩
    · rw [hj'] at h1; cases h1
  · exact Or.inr (List.mem_iff_getElem?.2 ⟨j, by rw [List.getElem?_drop, List.getElem?_set_ne hik, hj']⟩)

theorem Cap.step {s s' : Sys} {a : Act} (hi : Inv s) (h : Cap s) (hs : step true s a = some s') : Cap s' := by
  obtain ⟨-, -, hmono⟩ := hi.step hs
  have hone := h.empty
  have hsome := h.below
  cases a with
  | slot i =>
    simp only [Race.step] at hs
    split at hs <;> [skip; exact absurd hs (by simp)]
    rename_i hc
    cases hs
    refine ⟨hone, fun lim hl => ⟨(hsome lim hl).1, fun n hn => ?_⟩⟩
    rcases (hsome lim hl).2 n hn with h1 | h1 | h1
    · exact Or.inl h1
    · exact Or.inr (Or.inl h1)
    · rcases mem_drop_set (n := n) (v := some s.issued) h1 (Or.inr hc.2) with ⟨-, h2⟩ | h2
      · rw [hc.2] at h2; cases h2
      · exact Or.inr (Or.inr h2)
  | publish =>
    simp only [Race.step] at hs
    split at hs <;> [skip; exact absurd hs (by simp)]
    cases hs
    exact ⟨hone, fun lim hl => ⟨by have := (hsome lim hl).1; dsimp only; omega, (hsome lim hl).2⟩⟩
  | done i =>
    simp only [Race.step] at hs
    split at hs <;> [skip; exact absurd hs (by simp)]
    rename_i n he
    split at hs <;> [skip; exact absurd hs (by simp)]
    cases hs
    refine ⟨hone, fun lim hl => ⟨(hsome lim hl).1, fun m hm => ?_⟩⟩
    rcases (hsome lim hl).2 m hm with h1 | (h1 | h1) | h1
    · exact Or.inl h1
    · exact Or.inr (Or.inl (Or.inl (List.mem_cons_of_mem _ h1)))
    · exact Or.inr (Or.inl (Or.inr h1))
    · rcases mem_drop_set (v := none) h1 (Or.inl he) with ⟨rfl, -⟩ | h2
      · exact Or.inr (Or.inl (Or.inl List.mem_cons_self))
      · exact Or.inr (Or.inr h2)
  | failBegin i =>
    simp only [Race.step] at hs
    split at hs <;> [skip; exact absurd hs (by simp)]
    rename_i n he
    split at hs <;> [skip; exact absurd hs (by simp)]
    cases hs
    refine ⟨hone, fun lim hl => ⟨(hsome lim hl).1, fun m hm => ?_⟩⟩
    rcases (hsome lim hl).2 m hm with h1 | (h1 | h1) | h1
    · exact Or.inl h1
    · exact Or.inr (Or.inl (Or.inl h1))
    · exact Or.inr (Or.inl (Or.inr (List.mem_cons_of_mem _ h1)))
    · rcases mem_drop_set (v := none) h1 (Or.inl he) with ⟨rfl, -⟩ | h2
      · exact Or.inr (Or.inl (Or.inr List.mem_cons_self))
      · exact Or.inr (Or.inr h2)
  | failSync i =>
    simp only [Race.step] at hs
    split at hs <;> [skip; exact absurd hs (by simp)]
    rename_i n he
    split at hs <;> [skip; exact absurd hs (by simp)]
    cases hs
    refine ⟨hone, fun lim hl => ⟨(hsome lim hl).1, fun m hm => ?_⟩⟩
    rcases (hsome lim hl).2 m hm with h1 | (h1 | h1) | h1
    · exact Or.inl h1
    · exact Or.inr (Or.inl (Or.inl h1))
    · exact Or.inr (Or.inl (Or.inr (List.mem_cons_of_mem _ h1)))
    · rcases mem_drop_set (v := none) h1 (Or.inl he) with ⟨rfl, -⟩ | h2
      · exact Or.inr (Or.inl (Or.inr List.mem_cons_self))
      · exact Or.inr (Or.inr h2)
  | failRecord =>
    simp only [Race.step] at hs
    split at hs <;> [skip; exact absurd hs (by simp)]
    cases hs
    exact ⟨hone, hsome⟩
  | readSlot =>
    simp only [Race.step] at hs
    split at hs <;> [exact absurd hs (by simp); skip]
    rename_i hc
    split at hs <;> [skip; exact absurd hs (by simp)]
    rename_i x he
    cases hs
    refine ⟨fun hn => absurd ⟨trivial, hn⟩ hc, fun lim hl => ⟨(hsome lim hl).1, fun n hn => ?_⟩⟩
    rcases (hsome lim hl).2 n hn with h1 | h1 | h1
    · exact Or.inl (List.mem_append_left _ h1)
    · exact Or.inr (Or.inl h1)
    · obtain ⟨hlt, hx⟩ := List.getElem?_eq_some_iff.1 he
      rw [List.drop_eq_getElem_cons hlt, hx] at h1
      rcases List.mem_cons.1 h1 with h1 | h1
      · exact Or.inl (List.mem_append_right _ (by rw [h1]; exact List.mem_singleton_self _))
      · right; right
        dsimp only
        rw [List.length_append, List.length_singleton]
        exact h1
  | readIssued =>
    simp only [Race.step] at hs
    split at hs <;> [skip; exact absurd hs (by simp)]
    rename_i hc
    cases hs
    refine ⟨fun h => absurd h (by simp), fun lim hl => ?_⟩
    cases hl
    refine ⟨Nat.le_refl _, fun n hn => ?_⟩
    rw [show ({ s with capIssued := some s.issued } : Sys).capSlots = [] from hone hc.1]
    rcases hi.issued n hn with h1 | h1 | h1
    · exact Or.inr (Or.inr (by simpa using h1))
    · exact Or.inr (Or.inl (Or.inl h1))
    · exact Or.inr (Or.inl (Or.inr h1))
  | readFailed =>
    simp only [Race.step] at hs
    split at hs <;> [skip; exact absurd hs (by simp)]
    cases hs
    exact ⟨hone, hsome⟩

/-- With the opposite reading order, through every interleaving: a write that the saved state declares
complete has left the in-flight set. -/
theorem C26_other_order (depth : Nat) (acts : List Act) (s : Sys) (hr : run true (start depth) acts = some s) (n : Nat)
    (hc : Checkable s n) : n ∈ s.ok ∨ n ∈ s.bad := by
  have key : ∀ (acts : List Act) (s0 s : Sys), Inv s0 → Cap s0 → run true s0 acts = some s → Inv s ∧ Cap s := by
    intro acts
    induction acts with
    | nil => intro s0 s h1 h2 hr; cases hr; exact ⟨h1, h2⟩
    | cons a l ih =>
      intro s0 s h1 h2 hr
      rw [run] at hr
      obtain ⟨s1, e1, e2⟩ := Option.bind_eq_some_iff.1 hr
      exact ih s1 s (h1.step e1).1 (h2.step h1 e1) e2
  obtain ⟨-, h⟩ := key acts _ s (Inv.start depth) ⟨fun _ => rfl, fun lim h => by simp [start] at h⟩ hr
  obtain ⟨lim, fl, h1, h2, h3, h4, h5, h6⟩ := hc
  rcases (h.below lim h1).2 n h4 with g | g | g
  · exact absurd g h5
  · exact g
  · rw [h3, List.drop_length] at g; exact absurd g (by simp)

/-! ### Saving while the job is quiet -/

/-- Jobs whose engine does not report errors synchronously. -/
def Async (acts : List Act) : Prop := ∀ i, Act.failSync i ∉ acts

theorem where'_step {first : Bool} {s s' : Sys} {a : Act} (ha : ∀ i, a ≠ .failSync i)
    (h : (∀ n < s.issued, Where' s n) ∧ (s.pc = .issuing → some s.issued ∈ s.slots))
    (hs : step first s a = some s') : (∀ n < s'.issued, Where' s' n) ∧ (s'.pc = .issuing → some s'.issued ∈ s'.slots) := by
  have hrem : ∀ i n m, s.slots[i]? = some (some n) → some m ∈ s.slots → m = n ∨ some m ∈ s.slots.set i none := by
    intro i n m h1 h2
    by_cases hmn : m = n
    · exact Or.inl hmn
    · exact Or.inr (mem_set_of_ne h2 (by rw [h1]; simpa using fun e => hmn e.symm))
  obtain ⟨h1, h2⟩ := h
  cases a with
  | slot i =>
    simp only [Race.step] at hs
    split at hs <;> [skip; exact absurd hs (by simp)]
    rename_i hc
    cases hs
    refine ⟨fun n hn => ?_, fun _ => ?_⟩
    · rcases h1 n hn with g | g | g | g
      · exact Or.inl (mem_set_of_ne g (by rw [hc.2]; simp))
      · exact Or.inr (Or.inl g)
      · exact Or.inr (Or.inr (Or.inl g))
      · rw [hc.1] at g; cases g
    · obtain ⟨hi, -⟩ := List.getElem?_eq_some_iff.1 hc.2
      exact List.mem_iff_getElem?.2 ⟨i, by simp [hi]⟩
  | publish =>
    simp only [Race.step] at hs
    split at hs <;> [skip; exact absurd hs (by simp)]
    rename_i hc
    cases hs
    refine ⟨fun n hn => ?_, by simp⟩
    rcases Nat.lt_or_eq_of_le (Nat.lt_succ_iff.1 hn) with g | g
    · rcases h1 n g with g | g | g | g
      · exact Or.inl g
      · exact Or.inr (Or.inl g)
      · exact Or.inr (Or.inr (Or.inl g))
      · rw [hc] at g; cases g
    · subst g; exact Or.inl (h2 hc)
  | done i =>
    simp only [Race.step] at hs
    split at hs <;> [skip; exact absurd hs (by simp)]
    rename_i n he
    split at hs <;> [skip; exact absurd hs (by simp)]
    rename_i hp
    cases hs
    refine ⟨fun m hm => ?_, fun hpc => by rw [hp] at hpc; exact absurd hpc (by simp)⟩
    rcases h1 m hm with g | g | g | g
    · rcases hrem i n m he g with rfl | g
      · exact Or.inr (Or.inl List.mem_cons_self)
      · exact Or.inl g
    · exact Or.inr (Or.inl (List.mem_cons_of_mem _ g))
    · exact Or.inr (Or.inr (Or.inl g))
    · rw [hp] at g; cases g
  | failBegin i =>
    simp only [Race.step] at hs
    split at hs <;> [skip; exact absurd hs (by simp)]
    rename_i n he
    split at hs <;> [skip; exact absurd hs (by simp)]
    rename_i hp
    cases hs
    refine ⟨fun m hm => ?_, by simp⟩
    rcases h1 m hm with g | g | g | g
    · rcases hrem i n m he g with rfl | g
      · exact Or.inr (Or.inr (Or.inr rfl))
      · exact Or.inl g
    · exact Or.inr (Or.inl g)
    · exact Or.inr (Or.inr (Or.inl g))
    · rw [hp] at g; cases g
  | failSync i => exact absurd rfl (ha i)
  | failRecord =>
    simp only [Race.step] at hs
    split at hs <;> [skip; exact absurd hs (by simp)]
    rename_i n hp
    cases hs
    refine ⟨fun m hm => ?_, by simp⟩
    rcases h1 m hm with g | g | g | g
    · exact Or.inl g
    · exact Or.inr (Or.inl g)
    · exact Or.inr (Or.inr (Or.inl (List.mem_append_left _ g)))
    · rw [hp] at g; cases g
      exact Or.inr (Or.inr (Or.inl (List.mem_append_right _ (List.mem_singleton_self _))))
  | readSlot =>
    simp only [Race.step] at hs
    split at hs <;> [exact absurd hs (by simp); skip]
    split at hs <;> [skip; exact absurd hs (by simp)]
    cases hs
    exact ⟨h1, h2⟩
  | readIssued =>
    simp only [Race.step] at hs
    split at hs <;> [skip; exact absurd hs (by simp)]
    cases hs
    exact ⟨h1, h2⟩
  | readFailed =>
    simp only [Race.step] at hs
    split at hs <;> [skip; exact absurd hs (by simp)]
    cases hs
    exact ⟨h1, h2⟩

/-- What the saver has read agrees with the state of a job that stands still. -/
structure Snap (s : Sys) : Prop where
  slots : s.capSlots = s.slots.take s.capSlots.length
  issued : ∀ x, s.capIssued = some x → x = s.issued
  failed : ∀ x, s.capFailed = some x → x = s.failed

theorem Snap.step {s s' : Sys} {a : Act} (ha : a.isJob = false) (h : Snap s) (hs : step false s a = some s') :
    Snap s' ∧ s'.slots = s.slots ∧ s'.issued = s.issued ∧ s'.failed = s.failed ∧ s'.ok = s.ok ∧ s'.pc = s.pc := by
  cases a with
  | readSlot =>
    simp only [Race.step] at hs
    split at hs <;> [exact absurd hs (by simp); skip]
    split at hs <;> [skip; exact absurd hs (by simp)]
    rename_i x he
    cases hs
    refine ⟨⟨?_, h.issued, h.failed⟩, rfl, rfl, rfl, rfl, rfl⟩
    dsimp only
    rw [List.length_append, List.length_singleton, List.take_add_one, ← h.slots, he]
    rfl
  | readIssued =>
    simp only [Race.step] at hs
    split at hs <;> [skip; exact absurd hs (by simp)]
    cases hs
    exact ⟨⟨h.slots, fun x hx => by cases hx; rfl, h.failed⟩, rfl, rfl, rfl, rfl, rfl⟩
  | readFailed =>
    simp only [Race.step] at hs
    split at hs <;> [skip; exact absurd hs (by simp)]
    cases hs
    exact ⟨⟨h.slots, h.issued, fun x hx => by cases hx; rfl⟩, rfl, rfl, rfl, rfl, rfl⟩
  | slot _ => cases ha
  | publish => cases ha
  | done _ => cases ha
  | failBegin _ => cases ha
  | failRecord => cases ha
  | failSync _ => cases ha

/-- **C26**, quiet job: if the job takes no step while its state is saved (and is not between the two steps
of recording a failure, and its engine does not fail synchronously), every write that the saved state lets
the verifier check has completed without error. -/
theorem C26_quiet_partial (depth : Nat) (job sav : List Act) (s0 s : Sys) (hj : ∀ a ∈ job, a.isJob = true) (hasync : Async job)
    (hsv : ∀ a ∈ sav, a.isJob = false) (h0 : run false (start depth) job = some s0) (hpc : ∀ n, s0.pc ≠ .failing n)
    (h1 : run false s0 sav = some s) (n : Nat) (hc : Checkable s n) : n ∈ s.ok := by
  have k1 : ∀ (acts : List Act) (a b : Sys), (∀ x ∈ acts, x.isJob = true) → (∀ i, Act.failSync i ∉ acts) →
      ((∀ n < a.issued, Where' a n) ∧ (a.pc = .issuing → some a.issued ∈ a.slots)) ∧ a.capSlots = [] ∧ a.capIssued = none ∧ a.capFailed = none →
      run false a acts = some b →
      ((∀ n < b.issued, Where' b n) ∧ (b.pc = .issuing → some b.issued ∈ b.slots)) ∧ b.capSlots = [] ∧ b.capIssued = none ∧ b.capFailed = none := by
    intro acts
    induction acts with
    | nil => intro a b _ _ h hr; cases hr; exact h
    | cons x l ih =>
      intro a b hx hy h hr
      rw [run] at hr
      obtain ⟨c, e1, e2⟩ := Option.bind_eq_some_iff.1 hr
      refine ih c b (fun y hy' => hx y (List.mem_cons_of_mem _ hy')) (fun i hi => hy i (List.mem_cons_of_mem _ hi)) ⟨where'_step (fun i e => hy i (by rw [e]; exact List.mem_cons_self)) h.1 e1, ?_⟩ e2
      have hxj := hx x List.mem_cons_self
      have hcap : c.capSlots = a.capSlots ∧ c.capIssued = a.capIssued ∧ c.capFailed = a.capFailed := by
        cases x with
        | slot i => simp only [step] at e1; split at e1 <;> cases e1; exact ⟨rfl, rfl, rfl⟩
        | publish => simp only [step] at e1; split at e1 <;> cases e1; exact ⟨rfl, rfl, rfl⟩
        | done i => simp only [step] at e1; split at e1 <;> [split at e1 <;> cases e1; cases e1]; exact ⟨rfl, rfl, rfl⟩
        | failBegin i => simp only [step] at e1; split at e1 <;> [split at e1 <;> cases e1; cases e1]; exact ⟨rfl, rfl, rfl⟩
        | failRecord => simp only [step] at e1; split at e1 <;> cases e1; exact ⟨rfl, rfl, rfl⟩
        | failSync i => simp only [step] at e1; split at e1 <;> [split at e1 <;> cases e1; cases e1]; exact ⟨rfl, rfl, rfl⟩
        | readSlot => exact absurd hxj (by decide)
        | readIssued => exact absurd hxj (by decide)
        | readFailed => exact absurd hxj (by decide)
      rw [hcap.1, hcap.2.1, hcap.2.2]
      exact h.2
  have k2 : ∀ (acts : List Act) (a b : Sys), (∀ x ∈ acts, x.isJob = false) → Snap a → run false a acts = some b →
      Snap b ∧ b.slots = a.slots ∧ b.issued = a.issued ∧ b.failed = a.failed ∧ b.ok = a.ok ∧ b.pc = a.pc := by
    intro acts
    induction acts with
    | nil => intro a b _ h hr; cases hr; exact ⟨h, rfl, rfl, rfl, rfl, rfl⟩
    | cons x l ih =>
      intro a b hx h hr
      rw [run] at hr
      obtain ⟨c, e1, e2⟩ := Option.bind_eq_some_iff.1 hr
      obtain ⟨g1, g2, g3, g4, g5, g6⟩ := h.step (hx x List.mem_cons_self) e1
      obtain ⟨f1, f2, f3, f4, f5, f6⟩ := ih c b (fun y hy' => hx y (List.mem_cons_of_mem _ hy')) g1 e2
      exact ⟨f1, f2.trans g2, f3.trans g3, f4.trans g4, f5.trans g5, f6.trans g6⟩
  obtain ⟨⟨hw, -⟩, c1, c2, c3⟩ := k1 job _ s0 hj hasync
    ⟨⟨fun n hn => absurd hn (by simp [start]), by simp [start]⟩, rfl, rfl, rfl⟩ h0
  obtain ⟨hsnap, e1, e2, e3, e4, e5⟩ := k2 sav s0 s hsv ⟨by simp [c1], fun x hx => (by rw [c2] at hx; cases hx), fun x hx => (by rw [c3] at hx; cases hx)⟩ h1
  obtain ⟨lim, fl, g1, g2, g3, g4, g5, g6⟩ := hc
  have hlim := hsnap.issued lim g1
  have hfl := hsnap.failed fl g2
  have hsl := hsnap.slots
  rw [g3, List.take_length] at hsl
  rw [e4]
  rcases hw n (by rw [← e2, ← hlim]; exact g4) with g | g | g | g
  · rw [← e1, ← hsl] at g; exact absurd g g5
  · exact g
  · rw [← e3, ← hfl] at g; exact absurd g g6
  · exact absurd g (hpc n)

/-! ### Non-trivial cases -/

def exS0 : Sys :=
  { slots := [some 2, none], issued := 3, failed := [1], pc := .idle, ok := [0], bad := [1], capSlots := [], capIssued := none, capFailed := none }
def exS : Sys := { exS0 with capSlots := [some 2, none], capIssued := some 3, capFailed := some [1] }

example : run false (start 2) [.slot 0, .publish, .slot 1, .publish, .done 0, .slot 0, .publish, .failBegin 1, .failRecord] = some exS0 ∧
    run false exS0 [.readSlot, .readSlot, .readIssued, .readFailed] = some exS := by decide

example : Checkable exS 0 ∧ ¬ Checkable exS 1 ∧ ¬ Checkable exS 2 := by
  refine ⟨⟨3, [1], rfl, rfl, rfl, by decide, by decide, by decide⟩, ?_, ?_⟩
  · rintro ⟨_, _, _, h2, _, _, _, h⟩
    cases h2
    exact h (by decide)
  · rintro ⟨_, _, _, _, _, _, h, _⟩
    exact h (by decide)

def exT : Sys :=
  { slots := [some 1], issued := 2, failed := [], pc := .idle, ok := [0], bad := [], capSlots := [some 1], capIssued := some 1, capFailed := some [] }

example : run true (start 1) [.slot 0, .publish, .readIssued, .done 0, .slot 0, .readSlot, .publish, .readFailed] = some exT ∧ Checkable exT 0 :=
  ⟨by decide, 1, [], rfl, rfl, rfl, by decide, by decide, by decide⟩

end Fio.VState.Race
