import Verif.Libaio.Props

/-! Examples and counterexamples for C81. -/

namespace Fio.Libaio

deriving instance DecidableEq for Ld
deriving instance DecidableEq for St

/-- **C81** Queueing: a unit is taken as the last of those waiting, or refused (the ring is full, or a trim or `syncfs` while
units wait), or, a trim or `syncfs` with nothing waiting, done at once. -/
theorem C81_queue {depth : Nat} {s : St} {q : List Nat} (h : Inv depth s q) (k : Kind) (u : Nat) :
    (∃ s', queue depth s k u = some (s', .queued) ∧ Inv depth s' (q ++ [u]) ∧ k = .data ∧ s'.acc = s.acc ++ [u] ∧
      s'.back = s.back ∧ s'.dropped = s.dropped) ∨
    (queue depth s k u = some (s, .busy) ∧ q ≠ []) ∨ (queue depth s k u = some (s, .completed) ∧ k ≠ .data ∧ q = []) :=
  queue_inv h k u

/-- Ring of 3: around the end of the array, partial submissions, events out of order. -/
def exOps : List Op :=
  [.queue .data 1, .queue .data 2, .commit [.took 1, .intr, .took 5], .queue .data 3, .queue .data 4, .queue .data 5,
   .commit [.took 1, .took 1, .again], .get 1 2 8 3 [(.evs [(1, 4096)], []), (.evs [], [.took 2]), (.evs [(2, -5)], [])],
   .queue .trim 9]

example : run 3 (init 3) exOps = .ok
    { ld := { entries := 3, pow2 := false, iocbs := [some 4, some 5, some 3], head := 2, tail := 2, queued := 0 }
      fly := [1, 3, 5], sub := [1, 2, 3, 4, 5], acc := [1, 2, 3, 4, 5], back := [⟨2, 4096⟩, ⟨4, -5⟩], dropped := [] } := by
  decide +kernel

example := C81_kept 3 (by decide) exOps (by simp [exOps, OpOk])
example := C81_none_dropped_partial 3 (by decide) exOps (by simp [exOps, OpOk]) (by
  simp only [exOps, List.mem_cons, List.not_mem_nil, or_false]
  rintro o (h | h | h | h | h | h | h | h | h) <;> subst h <;> simp only [OpSoft]
  simp only [List.mem_cons, List.not_mem_nil, or_false]
  rintro g (h | h | h) <;> subst h <;> trivial)
example := C81_commit [.took 1] (Inv_init 4 (by decide)) (s' := init 4) rfl (by simp [GaveUp])

/-- One unit waiting in the ring of 2. -/
def one : St := { init 2 with ld := { (init 2).ld with iocbs := [some 7, none], head := 1, queued := 1 }, acc := [7] }

theorem one_inv : Inv 2 one [7] := by
  rcases queue_inv (Inv_init 2 (by decide)) .data 7 with ⟨s', h1, h2, _⟩ | ⟨h1, h⟩ | ⟨h1, h, _⟩
  · have : s' = one := by
      have h3 : queue 2 (init 2) .data 7 = some (one, .queued) := by decide +kernel
      rw [h3] at h1
      simp at h1; exact h1.symm
    rw [this] at h2; exact h2
  · exact absurd rfl h
  · exact absurd rfl h

example := C81_commit_ends [.took 3] one_inv (by simp) (by simp) (by simp)
example := @C81_min 2 1 1 2 (by decide) [(.evs [(0, 0)], [.took 1]), (.evs [(0, 0)], [])] one _ _ one_inv _ (by rfl)

/-- Two units in flight. -/
def two : St :=
  { init 2 with ld := { (init 2).ld with iocbs := [some 1, some 2] }, acc := [1, 2], sub := [1, 2], fly := [1, 2] }

/-- **C81** is false if `io_getevents` fails after it handed over some events: these are dropped, their units never come
back. -/
theorem C81_dropped_counterexample :
    getevents 1 2 2 [(.evs [(0, 4096)], []), (.err 22, [])] two =
      .ok ({ two with fly := [2], dropped := [⟨1, 4096⟩] }, .error (-22)) := by decide +kernel

/-- **C81** The kernel out of resources while it works on no unit at all: the commit returns without error and without
having submitted anything (the wait meant for this case needs an empty ring, and the ring is never empty there), and the
wait that follows is for the event of a unit the kernel does not have. -/
theorem C81_stall_counterexample : ∀ as : List SRes, commit (.again :: as) one = .ok (one, 0) ∧ one.fly = [] ∧
    one.ld.queued = 1 := by
  intro as
  exact ⟨rfl, rfl, rfl⟩

/-- That wait in commit is never reached: a refusal for lack of resources always ends the commit. -/
theorem C81_wait_unreachable {depth : Nat} {s : St} {q : List Nat} (h : Inv depth s q) (hne : q ≠ []) (as : List SRes) :
    commitLoop (.again :: as) s = .ok (s, 0) := by
  have hr := h.r
  have hz : s.ld.queued ≠ 0 := by
    rw [← hr.cnt]; exact fun h0 => hne (List.length_eq_zero_iff.1 h0)
  have htail := hr.tail
  have hcnt := hr.cnt
  have hs := slots_eq hr (min s.ld.queued (s.ld.entries - s.ld.tail)) 0 (by rw [hr.ent]; omega) (by omega)
  simp only [Nat.add_zero, List.drop_zero] at hs
  unfold commitLoop
  dsimp only
  rw [hs]
  dsimp only
  rw [if_pos hz]

/-- Four units in flight. -/
def four : St :=
  { init 4 with
    ld := { (init 4).ld with iocbs := [some 1, some 2, some 3, some 4] }
    acc := [1, 2, 3, 4]
    sub := [1, 2, 3, 4]
    fly := [1, 2, 3, 4] }

/-- **C81** `actual_min`, the number of events `io_getevents` is to wait for, is decreased by all events so far each time:
with three of four events handed over one by one it is 0, and the wait for the fourth is a busy loop. -/
theorem C81_busy_counterexample (gs : List (GRes × List SRes)) :
    getevents 1 4 4 ((.evs [(0, 0)], []) :: (.evs [(0, 0)], []) :: (.evs [(0, 0)], []) :: gs) four =
      getLoop 4 4 gs { four with fly := [4] } [⟨1, 0⟩, ⟨2, 0⟩, ⟨3, 0⟩] 0 := rfl

example := C81_result 4096 (by decide)
example : eventResult 4096 (-5) = (0, 5) := by decide +kernel
example : eventResult 4096 512 = (3584, 0) := by decide +kernel

end Fio.Libaio
