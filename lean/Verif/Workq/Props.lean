import Verif.Workq.Live
import Verif.Workq.Pick
import Mathlib.Data.List.Perm.Subperm
/-
C39: the work queue.
-/
namespace Fio.Workq

/-- Items with the worker they were given to. -/
def askedAt (t : List Ev) : List (Work × Nat) := t.filterMap fun | .enq w i => some (w, i) | _ => none

/-- Items with the worker that handled them. -/
def handledAt (t : List Ev) : List (Work × Nat) := t.filterMap fun | .finish w i => some (w, i) | _ => none

theorem askedAt_fst (t : List Ev) : (askedAt t).map (·.1) = asked t := by
  simp only [askedAt, asked, List.map_filterMap]
  congr 1; funext e; cases e <;> rfl

theorem handledAt_fst (t : List Ev) : (handledAt t).map (·.1) = handled t := by
  simp only [handledAt, handled, List.map_filterMap]
  congr 1; funext e; cases e <;> rfl

theorem count_askedAt (t : List Ev) (w i : Nat) : (askedAt t).count (w, i) = (enqd t i).count w := by
  induction t with
  | nil => rfl
  | cons e t ih =>
    unfold askedAt enqd at *
    cases e with
    | enq v k =>
      by_cases hk : k = i <;> by_cases hv : v = w <;>
        simp_all
    | _ => simpa [List.filterMap_cons] using ih

theorem count_handledAt (t : List Ev) (w i : Nat) :
    (handledAt t).count (w, i) = (finished t i).count w := by
  induction t with
  | nil => rfl
  | cons e t ih =>
    unfold handledAt finished at *
    cases e with
    | finish v k =>
      by_cases hk : k = i <;> by_cases hv : v = w <;>
        simp_all
    | _ => simpa [List.filterMap_cons] using ih

theorem inOrder_subperm {t : List Ev} (h : InOrder t) : (handled t).Subperm (asked t) := by
  rw [← askedAt_fst, ← handledAt_fst]
  have hp : (handledAt t).Subperm (askedAt t) := by
    rw [List.subperm_ext_iff]
    rintro ⟨w, i⟩ _
    rw [count_askedAt, count_handledAt]
    obtain ⟨h1, h2, _⟩ := h i
    exact (h1.trans h2).sublist.count_le w
  obtain ⟨l, h1, h2⟩ := hp
  exact ⟨l.map _, h1.map _, h2.map _⟩

theorem allDone_perm {t : List Ev} (h : AllDone t) : (handled t).Perm (asked t) := by
  rw [← askedAt_fst, ← handledAt_fst]
  refine List.Perm.map _ ?_
  rw [List.perm_iff_count]
  rintro ⟨w, i⟩
  rw [count_askedAt, count_handledAt, h i]

/-- C39, nothing twice, nothing invented, in order: at any time of any execution with any number of workers,
every worker has handled the items given to it in the order of workqueue_enqueue, one at a time; as
multisets the handled items are among the enqueued ones, which are in turn those the caller enqueued
so far, in order. -/
theorem C39_once {n : Nat} {prog : List Op} {as : List Act} {s : St}
    (hs : exec (init n prog) as = some s) :
    InOrder s.trace ∧ (handled s.trace).Subperm (asked s.trace) ∧ asked s.trace <+: works prog := by
  have h := inv_reach hs
  have ho : InOrder s.trace := by
    intro i
    have h1 := h.t.tr i
    have h2 := h.t.bg i
    refine ⟨⟨_, h2.symm⟩, ⟨_, by rw [h1, h2, List.append_assoc]⟩, ?_⟩
    rw [h2, List.length_append]
    have : (cur (s.w i).pc).length ≤ 1 := by cases (s.w i).pc <;> simp [cur]
    omega
  exact ⟨ho, inOrder_subperm ho, ⟨_, h.t.wk⟩⟩

/-- C39, workqueue_flush: when it returns, everything enqueued before was handled, in all
executions. -/
theorem C39_flush {n : Nat} {prog : List Op} {as : List Act} {s : St} {t1 t2 : List Ev}
    (hs : exec (init n prog) as = some s) (ht : s.trace = t1 ++ .flushRet :: t2) :
    AllDone t1 ∧ (handled t1).Perm (asked t1) :=
  ⟨(inv_reach hs).t.fl t1 t2 ht, allDone_perm ((inv_reach hs).t.fl t1 t2 ht)⟩

theorem fin_done {n : Nat} {prog : List Op} {s : St} (h : Inv n prog s) (hf : s.pc = .fin) :
    AllDone s.trace := by
  refine allDone_of_idle h.a h.b h.t ?_ (by rw [hf]; rfl)
  intro i hi
  have hd := h.c.jn i (by rw [hf]; exact hi)
  exact ⟨(h.c.dn i hd).1, h.b.loc i (by rw [hd]; rfl), by rw [hd]; rfl⟩

/-- C39, the end: when workqueue_exit has returned, everything enqueued was handled and all workers are
over; if workqueue_init succeeded, everything the caller wanted was enqueued and every flush returned. -/
theorem C39_exit {n : Nat} {prog : List Op} {as : List Act} {s : St}
    (hs : exec (init n prog) as = some s) (he : .exitRet ∈ s.trace) :
    AllDone s.trace ∧ (handled s.trace).Perm (asked s.trace) ∧
    (∀ i, (s.w i).pc = .none ∨ (s.w i).pc = .done) ∧
    ((.initFail ∈ s.trace ∧ asked s.trace = []) ∨
     (.initOk ∈ s.trace ∧ asked s.trace = works prog ∧ s.trace.count .flushRet = flushes prog)) := by
  have h := inv_reach hs
  have hf := h.t.ex.1 he
  have hd := fin_done h hf
  refine ⟨hd, allDone_perm hd, ?_, ?_⟩
  · intro i
    by_cases hi : i < s.maxw
    · exact Or.inr (h.c.jn i (by rw [hf]; exact hi))
    · exact Or.inl (none_of h.a (by rw [hf]; exact hi))
  · have sg := h.t.sg.2.2 (by rw [hf]; rfl) (by rw [hf]; rfl) (by rw [hf]; simp)
    rcases sg with ⟨h1, _, h2⟩ | ⟨h1, _, h2⟩
    · exact Or.inl ⟨h1, h2⟩
    · right
      have wk := h.t.wk
      have fc := h.t.fc
      rw [hf, h2] at wk fc
      simp [pend, inFlush, works, flushes] at wk fc
      exact ⟨h1, wk, fc⟩

/-- C39, no lost wakeup and no deadlock: as long as workqueue_exit has not returned, some thread can make a
step without a spurious wakeup. -/
theorem C39_progress {n : Nat} {prog : List Op} {as : List Act} {s : St}
    (hs : exec (init n prog) as = some s) :
    .exitRet ∈ s.trace ∨ ∃ t c s', step s (.run t c) = some s' := by
  have h := inv_reach hs
  by_cases hf : s.pc = .fin
  · exact Or.inl (h.t.ex.2 hf)
  · exact Or.inr (enabled_of_inv h hf)

/-- C39, termination: no execution is longer than this; spurious wakeups cost a bounded number of steps
each.  With `C39_progress`: whichever thread runs, after finitely many steps workqueue_exit has returned. -/
theorem C39_bound {n : Nat} {prog : List Op} {as : List Act} {s : St}
    (hs : exec (init n prog) as = some s) :
    as.length ≤ n * (4 * n + 97) + 10 + (4 * n + 80) * (works prog).length + (n + 9) * flushes prog +
      (2 * n + 21) * spurious as := by
  have := pot_exec (inv_init n prog) hs
  rw [pot_init] at this
  have e : n * (4 * n + 97) = n * (4 * n + 70) + 27 * n := by
    rw [Nat.mul_add, Nat.mul_add]; omega
  rw [e]
  omega

/-- C39, from every reachable state the run can be completed. -/
theorem C39_completes {n : Nat} {prog : List Op} {as : List Act} {s : St}
    (hs : exec (init n prog) as = some s) :
    ∃ bs s', spurious bs = 0 ∧ exec s bs = some s' ∧ .exitRet ∈ s'.trace := by
  have h := inv_reach hs
  clear hs
  generalize hp : pot n s = p
  induction p using Nat.strongRecOn generalizing s with
  | ind p ih =>
    by_cases hf : s.pc = .fin
    · exact ⟨[], s, rfl, rfl, h.t.ex.2 hf⟩
    · obtain ⟨t, c, s1, h1⟩ := enabled_of_inv h hf
      have hlt := pot_step h h1
      simp only [Nat.add_zero] at hlt
      obtain ⟨bs, s2, hb0, hb1, hb2⟩ := ih (pot n s1) (by omega) (inv_step h h1) rfl
      refine ⟨.run t c :: bs, s2, ?_, ?_, hb2⟩
      · simpa [spurious] using hb0
      · simp [exec, h1, hb1]

/-- C39, the assertions of lines 47 and 106 hold and `best` is never NULL at line 59. -/
theorem C39_safe {n : Nat} {prog : List Op} {as : List Act} {s : St}
    (hs : exec (init n prog) as = some s) : s.pc ≠ .crashed := by
  intro hc
  have := (inv_reach hs).a.rg
  rw [hc] at this
  exact this

/-! ### The hypotheses are met -/

/-- Two workers, five calls. -/
def exProg : List Op := [.enqueue 7, .enqueue 8, .enqueue 9, .flush, .enqueue 10]

/-- A schedule: 0 is the caller, 1 and 2 are the workers. -/
def toAct : Nat → Act
  | 0 => .run .main true
  | k + 1 => .run (.wk k) false

/-- A complete run of `exProg`. -/
def exSched : List Act := List.map toAct
  [0, 0, 0, 0, 0, 0, 0, 0, 0, 0, 0, 0, 0, 0, 1, 1, 1, 1, 0, 0, 0, 0, 0, 0, 0, 1, 1, 1, 1, 1, 2, 2, 2, 2, 0,
   0, 0, 0, 0, 0, 0, 0, 0, 0, 0, 0, 0, 0, 0, 0, 0, 0, 0, 0, 0, 0, 0, 0, 0, 0, 0, 0, 0, 0, 0, 0, 0, 0, 0,
   0, 0, 0, 0, 0, 0, 0, 0, 0, 1, 1, 1, 1, 1, 1, 1, 1, 1, 1, 1, 1, 1, 1, 1, 1, 1, 1, 1, 1, 1, 1, 0, 0, 0,
   1, 1, 2, 2, 2, 2, 2, 2, 2, 2, 2, 2, 2, 2, 2, 2, 2, 2, 2, 0, 0, 0, 0, 0, 0, 0, 0, 0, 0, 0, 0, 0, 0, 0,
   0, 0, 0, 0, 0, 0, 0, 0, 0, 0, 0, 0, 0, 0, 1, 1, 1, 1, 1, 1, 1, 0, 0, 0, 0, 2, 2, 2, 2, 2, 2, 2, 2, 2,
   2, 0, 0, 0]

/-- C39_once, C39_flush, C39_exit, C39_bound: a run with two workers; the flush returns after the three items
before it, the exit after all. -/
example : (exec (init 2 exProg) exSched).map (·.trace) = some
    [.initOk, .enq 7 0, .enq 8 1, .enq 9 0, .begin 7 0, .finish 7 0, .begin 9 0, .finish 9 0, .begin 8 1,
     .finish 8 1, .flushRet, .enq 10 1, .begin 10 1, .finish 10 1, .exitRet] := by decide +kernel

/-- The flush has to wait: after 78 steps the caller sleeps. -/
example : (exec (init 2 exProg) (exSched.take 78)).map (·.pc) = some .flWait := by decide +kernel

/-- C39_exit, failure: worker 0 cannot initialise itself. -/
example : (exec (init 2 [.enqueue 7]) (List.map (fun k => if k = 1 then .run (.wk 0) true else toAct k)
    [0, 0, 0, 0, 0, 0, 0, 0, 0, 0, 0, 0, 0, 0, 1, 1, 1, 1, 0, 0, 0, 0, 0, 0, 0, 0, 0, 0, 0, 0, 0, 0, 0, 0, 0,
     0, 0, 0, 1, 0, 0, 0, 0, 2, 2, 2, 2, 2, 2, 2, 2, 0, 0, 0])).map (·.trace) =
    some [.initFail, .exitRet] := by decide +kernel

/-- C39_pick, C39_idle: the first item goes to an idle worker, the third to the one with the oldest item. -/
example : (exec (init 2 exProg) (exSched.take 44)).map (fun s => (s.pc, (s.w 0).idle)) =
      some (.pick 7 (some 0), true) ∧
    (exec (init 2 exProg) (exSched.take 42)).map (fun s => (s.pc, (s.w 0).idle)) = some (.next, true) ∧
    (exec (init 2 exProg) (exSched.take 47)).map (fun s => (s.pc, asked s.trace)) =
      some (.enqAdd 7 0, []) ∧
    (exec (init 2 exProg) (exSched.take 66)).map
        (fun s => (s.pc, (s.w 0).idle, (s.w 0).seq, (s.w 1).idle, (s.w 1).seq)) =
      some (.pick 9 (some 0), false, 1, false, 2) := by decide +kernel

/-- The sleeping caller may wake up without a signal, and sleeps again. -/
example : (exec (init 2 exProg) (exSched.take 78 ++ [.spurious .main, .run .main true, .run .main true])).map
    (·.pc) = some .flWait := by decide +kernel

end Fio.Workq
