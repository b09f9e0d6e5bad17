import Verif.IoU.Quiesce
import Verif.IoU.Tile

/-!
# Properties of the life of I/O units
-/

namespace Fio.IoU

/-! ## C48: no unit is lost or used twice -/

/-- Whatever the engine and the job answer, in any sequence of `do_io` and `do_verify`: no assertion fails, each unit is
in exactly one place, the flags and `cur_depth` agree with the places, and between the phases the main thread holds no
unit, but for those `fio_io_sync` lost to an error. -/
theorem units_conserved_partial (c : Cfg) (hn : c.n < 4294967296) (ps : List Phase) :
    match phases c (init c) ps with
    | .crash => False
    | .more s => ∃ fl hl, Inv c s fl hl
    | .ok s _ => ∃ lost, Inv c s lost [] ∧ lost.length ≤ (ps.map Phase.errs).sum := by
  have h := phases_ok (c := c) ps ⟨[], init_inv c hn, Nat.le_refl 0⟩
  rw [Nat.zero_add] at h
  cases hr : phases c (init c) ps with
  | crash => rw [hr] at h; exact h
  | more s => rw [hr] at h; exact h
  | ok s _ => rw [hr] at h; exact h

/-- Without errors of syncs nothing is lost. -/
theorem units_back (c : Cfg) (hn : c.n < 4294967296) (ps : List Phase) (he : ∀ p ∈ ps, p.errs = 0) {s : St}
    (h : phases c (init c) ps = .ok s ()) :
    (s.freeq ++ (s.reqs ++ (s.ver ++ s.eng))).Perm (List.range c.n) ∧ s.depth = s.eng.length := by
  have h1 := units_conserved_partial c hn ps
  rw [h] at h1
  obtain ⟨lost, h2, h3⟩ := h1
  have h0 : (ps.map Phase.errs).sum = 0 := by
    clear h h3
    induction ps with
    | nil => rfl
    | cons p ps ih =>
      rw [List.map_cons, List.sum_cons, he p (by simp), ih fun q hq => he q (by simp [hq])]
  have : lost = [] := List.length_eq_zero_iff.mp (by omega)
  subst this
  exact ⟨by simpa using h2.perm, by simpa using h2.depth⟩

/-- In order means: below `n`, and in one place only. -/
theorem one_place {c : Cfg} {s : St} {fl hl : List Nat} (h : Inv c s fl hl) (i : Nat) :
    s.freeq.count i + s.reqs.count i + s.ver.count i + s.eng.count i + fl.count i + hl.count i =
      if i < c.n then 1 else 0 := by
  have hp := perm_count.mp h.perm i
  have hd : (List.range c.n).count i = if i < c.n then 1 else 0 := by
    rw [List.Nodup.count List.nodup_range]; simp [List.mem_range]
  rw [hd] at hp
  simp only [List.count_append] at hp
  omega

/-- The unit `__get_io_u` hands out is with no one else. -/
theorem get_exclusive {c : Cfg} {s s' : St} {fl hl : List Nat} {i : Nat} (h : Inv c s fl hl) {vd : List Nat} {lat : Bool}
    (hg : getU c s vd lat = .ok s' (some i)) :
    i < c.n ∧ i ∉ s'.eng ∧ i ∉ s'.ver ∧ i ∉ s'.freeq ∧ i ∉ s'.reqs ∧ i ∉ fl ∧ i ∉ hl := by
  have h1 := getU_ok h vd lat
  rw [hg] at h1
  have h2 : Inv c s' fl (i :: hl) := h1
  have h3 := one_place h2 i
  rw [List.count_cons_self] at h3
  split at h3
  · simp only [← List.count_eq_zero]
    refine ⟨by assumption, ?_, ?_, ?_, ?_, ?_, ?_⟩ <;> omega
  · omega

/-! ### A run -/

/-- Three units, commits of two, three completions at a time. -/
def c3 : Cfg := ⟨3, 2, 3, 3, 3, true, true, false, false, false⟩
def full : Comp := ⟨false, 4096, false, false, false, false⟩
def ev3 : Ev := ⟨false, false, [(0, full), (0, full), (0, full)]⟩
/-- A turn of `do_io` with a read the engine takes. -/
def turn (off : Nat) (q : Q) (think : Option (Bool × List Ev)) : It :=
  ⟨false, [], false, none, some ⟨.read, none, 4096, off, false, false⟩, false, false, false, false, false, false, q, false,
   .stop, [], false, [ev3], think⟩
def stopTurn : It := { turn 0 .queued none with stop := true }
/-- The state a run ends in. -/
def Res.st {α : Type} : Res α → St → St
  | .crash, d => d
  | .more s, _ => s
  | .ok s _, _ => s
def Res.isOk {α : Type} : Res α → Bool
  | .ok _ _ => true
  | _ => false

/-- Four reads and a sync. -/
def run4 : Res Unit := phases c3 (init c3)
  [.io [turn 0 .queued none, turn 4096 .queued none, turn 8192 .queued none, turn 12288 .queued none, stopTurn]
    ev3 [⟨[], false, false, [(.busy, false), (.completed full, false)], ev3⟩] false false]

example : run4.isOk = true ∧ (run4.st (init c3)).freeq = [0, 1, 2] ∧ (run4.st (init c3)).depth = 0 ∧
    (run4.st (init c3)).ioBytes .read = 16384 ∧ (run4.st (init c3)).moved .read = 16384 ∧
    (run4.st (init c3)).issues .read = 4 := by decide +kernel

/-- The hypotheses of `units_back` are met by that run. -/
example : ∃ ps, (∀ p ∈ ps, Phase.errs p = 0) ∧ (phases c3 (init c3) ps).isOk = true ∧ ps ≠ [] :=
  ⟨[.io [turn 0 .queued none, stopTurn] ev3 [] false false], by simp [Phase.errs], by decide +kernel, by simp⟩

/-! ### The unit `fio_io_sync` loses -/

def c1 : Cfg := ⟨1, 1, 1, 1, 1, true, true, false, false, false⟩
/-- The sync before verification fails at once. -/
def leakPhases : List Phase :=
  [.verify [⟨[], false, false, [(.completed ⟨true, 0, false, false, false, false⟩, false)], ev3⟩] [] ev3]

/-- The only unit of the job is nowhere any more, though `cur_depth` still counts it; from then on `__get_io_u` finds
nothing. -/
theorem sync_leak_counterexample : ∃ s, phases c1 (init c1) leakPhases = .ok s () ∧ s.freeq = [] ∧ s.reqs = [] ∧
    s.ver = [] ∧ s.eng = [] ∧ s.depth = 1 ∧ ∀ vd lat, getU c1 s vd lat = .ok s none := by
  refine ⟨(phases c1 (init c1) leakPhases).st (init c1), rfl, by decide +kernel, by decide +kernel, by decide +kernel,
    by decide +kernel, by decide +kernel, ?_⟩
  intro vd lat
  have hv : ∀ (ks : List Nat) (s : St), s.ver = [] → verDones c1 s ks = .ok s () := by
    intro ks
    induction ks with
    | nil => intro s _; rfl
    | cons k ks ih => intro s h; simp only [verDones, verDone, h, List.getElem?_nil, Res.bind]; exact ih s h
  generalize hs : (phases c1 (init c1) leakPhases).st (init c1) = s
  have h1 : s.freeq = [] := by rw [← hs]; decide +kernel
  have h2 : s.reqs = [] := by rw [← hs]; decide +kernel
  have h3 : s.ver = [] := by rw [← hs]; decide +kernel
  unfold getU
  rw [hv vd s h3]
  simp [Res.bind, h1, h2, queueFull]

/-! ## C49: waiting for what is in flight -/

/-- At every point `io_u_in_flight` and `io_u_queued` together are the number of the engine's units (modulo 2 ^ 32). -/
theorem in_flight_count {c : Cfg} {s : St} {fl hl : List Nat} (h : Inv c s fl hl) :
    (s.inFlight + s.queued) % 4294967296 = s.eng.length := h.count

theorem quiesce_start {c : Cfg} {s : St} {fl hl : List Nat} (h : Inv c s fl hl) (hq : s.depth ≠ 0 ∨ s.queued = 0)
    (cf : Bool) : ∃ t, (if s.queued ≠ 0 ∨ s.depth ≠ 0 then tdIoCommit c s cf else s) = t ∧ Inv c t fl hl ∧
      t.queued = 0 ∧ t.eng = s.eng ∧ t.done = s.done := by
  refine ⟨_, rfl, ?_, ?_⟩
  · split
    · exact commit_inv h cf
    · exact h
  · split
    · unfold tdIoCommit
      split
      · rename_i h1
        exact ⟨by omega, rfl, rfl⟩
      · refine ⟨rfl, ?_, ?_⟩ <;> (simp only; split <;> rfl)
    · rename_i h1
      exact ⟨by omega, rfl, rfl⟩

/-- `io_u_quiesce` ends if the engine answers each time with at least one event (while it has any), and no unit is with
the engine then. -/
theorem quiesce_ends {c : Cfg} {s : St} {fl hl : List Nat} (h : Inv c s fl hl) (hq : s.depth ≠ 0 ∨ s.queued = 0)
    (hev : c.hasEvents = true) (hd : s.done = false) (cf : Bool) (as : List Ev) (ha : ∀ a ∈ as, Prompt 1 a)
    (hl' : s.eng.length ≤ as.length) :
    ∃ s', quiesce c s cf as = .ok s' () ∧ Inv c s' fl hl ∧ s'.eng = [] ∧ s'.inFlight = 0 ∧ s'.queued = 0 := by
  obtain ⟨t, h1, h2, h3, h4, h5⟩ := quiesce_start h hq cf
  unfold quiesce
  rw [h1]
  exact quiesceLoop_ends hev as h2 (by rw [h5]; exact hd) h3 ha (by rw [h4]; exact hl')

/-- Whatever the engine answers: when `io_u_quiesce` returns, no unit is with the engine. -/
theorem quiesce_means {c : Cfg} {s s' : St} {fl hl : List Nat} (h : Inv c s fl hl) (hq : s.depth ≠ 0 ∨ s.queued = 0)
    (cf : Bool) (as : List Ev) (hr : quiesce c s cf as = .ok s' ()) : s'.eng = [] ∧ s'.inFlight = 0 := by
  have h0 := quiesce_ok h cf as
  rw [hr] at h0
  have h0 : Inv c s' fl hl := h0
  obtain ⟨t, h1, h2, h3, h4, h5⟩ := quiesce_start h hq cf
  unfold quiesce at hr
  rw [h1] at hr
  obtain ⟨h6, h7⟩ := quiesceLoop_exit as hr
  have hc := h0.count
  refine ⟨List.length_eq_zero_iff.mp ?_, h6⟩
  rw [← hc, h6, h7, h3]

/-- After its loop `do_io` waits for all units the engine has. -/
theorem drains {c : Cfg} {s : St} {fl hl : List Nat} (h : Inv c s fl hl) (hev : c.hasEvents = true)
    (hd : s.done = false) {a : Ev} (ha : Prompt c.n a) :
    ∃ s' r, queuedComplete c s s.depth a = .ok s' r ∧ Inv c s' fl hl ∧ s'.eng = [] := by
  obtain ⟨s', r, h1, h2, _, _, h5⟩ := queuedComplete_progress h hev hd ha s.depth
  have h6 := h.depth
  have h7 := h.len
  exact ⟨s', r, h1, h2, List.length_eq_zero_iff.mp (by omega)⟩

/-- An engine that returns the oldest units is prompt. -/
theorem prompt_replicate (k : Nat) (cp : Comp) : Prompt k ⟨false, false, List.replicate k (0, cp)⟩ := by
  refine ⟨rfl, rfl, ?_⟩
  induction k with
  | zero => intro m eng; omega
  | succ k ih =>
    intro m eng
    cases m with
    | zero => omega
    | succ m =>
      cases eng with
      | nil => simp
      | cons i eng =>
        have := ih m eng
        simp only [List.replicate_succ, pull, List.getElem?_cons_zero, List.eraseIdx_cons_zero, List.length_cons] at this ⊢
        omega

/-- After two reads were taken by the engine, both are in flight and `io_u_quiesce` waits for them. -/
example : let s := (doIoLoop c3 (init c3) .completed [turn 0 .queued none, turn 4096 .queued none]).st (init c3)
    s.eng = [2, 1] ∧ s.depth = 2 ∧ s.inFlight = 2 ∧
    ((quiesce c3 s false [⟨false, false, [(0, full)]⟩, ⟨false, false, [(0, full)]⟩]).st s).eng = [] := by decide +kernel

/-- If all units came back before the last were counted as in flight, `io_u_quiesce` never returns: `td_io_commit` does
nothing when `cur_depth` is 0, so `io_u_in_flight` stays at `- io_u_queued`. -/
theorem quiesce_hangs {c : Cfg} {s : St} (h : Inv c s [] []) (hd : s.depth = 0) (hq : s.queued ≠ 0) (cf : Bool)
    (as : List Ev) : quiesce c s cf as = .more s := by
  have hdep := h.depth
  have hc := h.count
  have hb := h.bnd
  have hi : s.inFlight ≠ 0 := by intro e; rw [e] at hc; simp only [List.length_nil] at hdep; omega
  have ht : tdIoCommit c s cf = s := by simp [tdIoCommit, hd]
  unfold quiesce
  rw [ht]
  split <;> exact quiesceLoop_hangs as hd hi

/-- A turn with and without a think time. -/
theorem turn_think {c : Cfg} {s s' : St} {r r' : Ret} {a : It} (hv : a.verify = false) (x : Bool × List Ev)
    (h : doIoTurn c s r { a with think := none } = .ok s' (.again r')) :
    doIoTurn c s r { a with think := some x } = (quiesce c s' x.1 x.2).bind fun s _ => .ok s (.again r') := by
  have hre : ∀ {R : Res Ret}, (R.bind fun s r => turnEnd c s r { a with think := none }) = .ok s' (.again r') →
      (R.bind fun s r => turnEnd c s r { a with think := some x }) =
        (quiesce c s' x.1 x.2).bind fun s _ => .ok s (.again r') := by
    intro R h
    cases R with
    | crash => exact absurd h (by simp [Res.bind])
    | more _ => exact absurd h (by simp [Res.bind])
    | ok s1 r1 =>
      simp only [Res.bind, turnEnd] at h ⊢
      split at h
      · exact absurd h (by simp)
      · rename_i hne
        simp only [Res.ok.injEq, Next.again.injEq] at h
        rw [if_neg hne, h.1, h.2]
  have hg : getIoU c s { a with think := some x } = getIoU c s { a with think := none } := rfl
  unfold doIoTurn at h ⊢
  simp only at h ⊢
  split at h
  · exact absurd h (by simp)
  · rename_i hstop
    rw [if_neg hstop, hg]
    cases hr : getIoU c s { a with think := none } with
    | crash => rw [hr] at h; exact absurd h (by simp [Res.bind])
    | more _ => rw [hr] at h; exact absurd h (by simp [Res.bind])
    | ok s1 g =>
      rw [hr] at h
      simp only [Res.bind] at h ⊢
      cases g with
      | none =>
        simp only at h ⊢
        split at h
        · rename_i hl
          rw [if_pos hl]
          exact hre h
        · exact absurd h (by simp)
      | busy => exact hre h
      | unit i =>
        simp only [hv, Bool.false_and, Bool.false_eq_true, if_false] at h ⊢
        generalize submit c _ i a.overlap a.q a.cf = R1 at h ⊢
        cases R1 with
        | crash => exact absurd h (by simp)
        | more _ => exact absurd h (by simp)
        | ok s2 r2 =>
          simp only at h ⊢
          generalize ioQueueEvent c s2 i r2 false a.q.comp a.cf a.brk = R2 at h ⊢
          cases R2 with
          | crash => exact absurd h (by simp)
          | more _ => exact absurd h (by simp)
          | ok s3 y =>
            simp only at h ⊢
            split at h
            · exact absurd h (by simp)
            · rename_i hy
              rw [if_neg hy]
              exact hre h

def Res.nxt : Res Next → Option Ret
  | .ok _ (.again r) => some r
  | _ => none

theorem nxt_ok {R : Res Next} {r : Ret} (d : St) (h : R.nxt = some r) : R = .ok (R.st d) (.again r) := by
  cases R with
  | crash => exact absurd h (by simp [Res.nxt])
  | more _ => exact absurd h (by simp [Res.nxt])
  | ok s n =>
    cases n with
    | again r' => simp only [Res.nxt, Option.some.injEq] at h; rw [h]; rfl
    | leave => exact absurd h (by simp [Res.nxt])

/-- The states after one, two and three reads. -/
def h1 : St := (doIoTurn c3 (init c3) .completed (turn 0 .queued none)).st (init c3)
def h2 : St := (doIoTurn c3 h1 .queued (turn 4096 .queued none)).st (init c3)
def h3 : St := (doIoTurn c3 h2 .queued (turn 8192 .queued none)).st (init c3)

/-- Such a state is reached by `do_io`: `iodepth=3`, `iodepth_batch=2`, completions three at a time, and a think time
after three I/Os.  Whatever the engine answers to `getevents` and `commit`, the job never goes on. -/
theorem quiesce_hang_counterexample (as : List Ev) (ev : Ev) (syncs : List Sy) (cl nob : Bool) :
    ∃ s, phase c3 (init c3) (.io [turn 0 .queued none, turn 4096 .queued none, turn 8192 .queued (some (false, as))]
      ev syncs cl nob) = .more s ∧ s.eng = [] ∧ s.depth = 0 ∧ s.ioBytes .read = 12288 := by
  have e1 : doIoTurn c3 (init c3) .completed (turn 0 .queued none) = .ok h1 (.again .queued) :=
    nxt_ok (init c3) (by decide +kernel)
  have e2 : doIoTurn c3 h1 .queued (turn 4096 .queued none) = .ok h2 (.again .queued) :=
    nxt_ok (init c3) (by decide +kernel)
  have e3 : doIoTurn c3 h2 .queued (turn 8192 .queued none) = .ok h3 (.again .completed) :=
    nxt_ok (init c3) (by decide +kernel)
  have hd : h3.depth = 0 := by decide +kernel
  have hi : h3.inFlight ≠ 0 := by decide +kernel
  have hq : quiesce c3 h3 false as = .more h3 := by
    have ht : tdIoCommit c3 h3 false = h3 := by simp [tdIoCommit, hd]
    unfold quiesce
    rw [ht]
    split <;> exact quiesceLoop_hangs as hd hi
  have e4 : doIoTurn c3 h2 .queued (turn 8192 .queued (some (false, as))) = .more h3 := by
    have := turn_think (a := turn 8192 .queued none) rfl (false, as) e3
    rw [hq] at this
    exact this
  refine ⟨h3, ?_, by decide +kernel, hd, by decide +kernel⟩
  simp only [phase, doIoLoop, e1, e2, e4, Res.bind]

/-! ## C50: transfers in parts -/

/-- At every point of every run: what is left of a transfer is the end of the buffer, at the place in the file where it
belongs. -/
theorem pieces_tile (c : Cfg) (hn : c.n < 4294967296) (ps : List Phase) :
    match phases c (init c) ps with
    | .crash => False
    | .more s => ∀ i, (s.u i).file = true → (s.u i).ddir.rw = true →
        (s.u i).xferLen + (s.u i).bufOff = (s.u i).buflen ∧ (s.u i).offset = (s.u i).off0 + (s.u i).bufOff
    | .ok s _ => ∀ i, (s.u i).file = true → (s.u i).ddir.rw = true →
        (s.u i).xferLen + (s.u i).bufOff = (s.u i).buflen ∧ (s.u i).offset = (s.u i).off0 + (s.u i).bufOff := by
  have h := phases_ok (c := c) ps ⟨[], init_inv c hn, Nat.le_refl 0⟩
  have ht := phases_ti (c := c) ps ⟨[], init_inv c hn, Nat.le_refl 0⟩ (init_ti c)
  cases hr : phases c (init c) ps with
  | crash => rw [hr] at h; exact h
  | more s => rw [hr] at ht; exact fun i hf hw => ⟨(ht i).len hf hw, (ht i).off hf hw⟩
  | ok s _ => rw [hr] at ht; exact fun i hf hw => ⟨(ht i).len hf hw, (ht i).off hf hw⟩

/-- A transfer that ended early, with some bytes, before the end of the file, and without an error, is put on the ring to
be issued again for the rest; nothing is counted yet. -/
theorem short_continues {c : Cfg} {s : St} {i : Nat} {e : Bool} {cp : Comp} (hf : (s.u i).flight = true)
    (hrw : (s.u i).ddir.rw = true) (herr : (s.u i).err = false) (h1 : 0 < (s.u i).resid)
    (h2 : (s.u i).resid < (s.u i).xferLen) (heof : cp.eof = false) (hroom : s.reqs.length < c.n) :
    ∃ s', ioCompleted c s i e cp = .ok s' (false, e) ∧ s'.reqs = s.reqs ++ [i] ∧ s'.ioBytes = s.ioBytes ∧
      (s'.u i).xferLen = (s.u i).resid ∧
      (s'.u i).offset = (s.u i).offset + ((s.u i).xferLen - (s.u i).resid) ∧
      (s'.u i).bufOff = (s.u i).bufOff + ((s.u i).xferLen - (s.u i).resid) ∧
      (s'.u i).buflen = (s.u i).buflen ∧ (s'.u i).ddir = (s.u i).ddir ∧ (s'.u i).file = (s.u i).file := by
  have hne : (s.u i).xferLen - (s.u i).resid ≠ 0 := by omega
  have hne2 : (s.u i).resid ≠ 0 := by omega
  unfold ioCompleted requeueIoU
  simp only [hf, hrw, herr, heof, clearInflight, set_u, if_true, hne, hne2, unissue, Bool.not_true, Bool.false_eq_true,
    if_false, ne_eq, not_false_eq_true, decide_true, Bool.and_self, Bool.not_false, set_reqs]
  split
  · simp [Res.bind, St.set]
  · simp [hroom, Res.bind, St.set]

/-- The same for an engine that completes at once. -/
theorem short_continues_sync {c : Cfg} {s : St} {i : Nat} {fv : Bool} {cp : Comp} {cf : Bool} {b : Brk}
    (herr : (s.u i).err = false) (hok : s.error = false) (h1 : 0 < (s.u i).resid)
    (h2 : (s.u i).resid < (s.u i).xferLen) (heof : cp.eof = false) (hroom : s.reqs.length < c.n) :
    ∃ s', ioQueueEvent c s i .completed fv cp cf b = .ok s' (.completed, false) ∧ s'.reqs = s.reqs ++ [i] ∧
      s'.ioBytes = s.ioBytes ∧ (s'.u i).xferLen = (s.u i).resid ∧
      (s'.u i).offset = (s.u i).offset + ((s.u i).xferLen - (s.u i).resid) ∧
      (s'.u i).bufOff = (s.u i).bufOff + ((s.u i).xferLen - (s.u i).resid) ∧
      (s'.u i).buflen = (s.u i).buflen ∧ (s'.u i).ddir = (s.u i).ddir ∧ (s'.u i).file = (s.u i).file := by
  have hne : (s.u i).xferLen - (s.u i).resid ≠ 0 := by omega
  have hne2 : (s.u i).resid ≠ 0 := by omega
  unfold ioQueueEvent requeueIoU
  simp only [herr, heof, hne, hne2, unissue, Bool.false_eq_true, if_false, ne_eq, not_false_eq_true, if_true, set_u]
  cases fv <;> split <;> simp [hroom, Res.bind, St.set, breakOn, hok]

/-- Units on the ring are issued before any other, and as they were put there. -/
theorem ring_first {c : Cfg} {s : St} {fl hl : List Nat} {i : Nat} {rest : List Nat} (h : Inv c s fl hl)
    (hr : s.reqs = i :: rest) (hs : s.stopIo = false) (hfs : s.fsyncing = false) (lat : Bool) :
    ∃ s', getU c s [] lat = .ok s' (some i) ∧ s'.reqs = rest ∧ s'.freeq = s.freeq ∧
      (s'.u i).xferLen = (s.u i).xferLen ∧ (s'.u i).offset = (s.u i).offset ∧ (s'.u i).bufOff = (s.u i).bufOff ∧
      (s'.u i).buflen = (s.u i).buflen ∧ (s'.u i).ddir = (s.u i).ddir ∧ (s'.u i).file = (s.u i).file := by
  have hf := (h.idle i (Or.inr (by simp [hr]))).1
  unfold getU verDones
  simp [Res.bind, hs, hr, takeU, hf, hfs, St.set]

/-- When a transfer is finished the bytes of its last part are counted. -/
theorem bytes_counted {c : Cfg} {s s' : St} {i : Nat} {e : Bool} {cp : Comp} {b : Bool} (hrw : (s.u i).ddir.rw = true)
    (herr : (s.u i).err = false) (hres : (s.u i).resid = 0)
    (h : ioCompleted c s i e cp = .ok s' (true, b)) :
    s'.ioBytes = upd s.ioBytes (s.u i).ddir (s.ioBytes (s.u i).ddir + (s.u i).xferLen) := by
  unfold ioCompleted at h
  simp only [hrw, herr, hres, clearInflight, set_u, if_true, Bool.not_true, Bool.false_eq_true, if_false, ne_eq,
    not_true, decide_false, Bool.and_false, Bool.not_false, Bool.false_and, Nat.sub_zero] at h
  split at h
  · exact absurd h (by simp)
  · split at h
    · split at h
      · unfold compErr at h
        split at h
        · split at h <;> simp at h
        · simp at h
      · unfold compErr at h
        split at h
        · split at h
          · simp only [if_true, Res.ok.injEq, Prod.mk.injEq] at h; rw [← h.1]; rfl
          · simp only [Res.ok.injEq, Prod.mk.injEq] at h; rw [← h.1]; rfl
        · simp only [Res.ok.injEq, Prod.mk.injEq] at h; rw [← h.1]; rfl
    · unfold compErr at h
      split at h
      · split at h
        · simp only [if_true, Res.ok.injEq, Prod.mk.injEq] at h; rw [← h.1]; rfl
        · simp only [Res.ok.injEq, Prod.mk.injEq] at h; rw [← h.1]; rfl
      · simp only [Res.ok.injEq, Prod.mk.injEq] at h; rw [← h.1]; rfl

/-! ### What goes wrong with transfers in parts -/

def part (n : Nat) (eof : Bool) : Comp := ⟨false, n, eof, false, false, false⟩
/-- A turn where the engine reports what `cp` says. -/
def turnA (cp : Comp) : It := { turn 0 .queued none with evs := [⟨false, false, [(0, cp)]⟩] }
def turnS (cp : Comp) : It := turn 0 (.completed cp) none
/-- A job with one unit. -/
def job (ts : List It) : Res Unit := phase c1 (init c1) (.io (ts ++ [stopTurn]) ev3 [] false false)
/-- Result, `error`, bytes transferred, bytes counted, I/Os counted. -/
def sees (r : Res Unit) : Bool × Bool × Nat × Nat × Nat :=
  (r.isOk, (r.st (init c1)).error, (r.st (init c1)).moved .read, (r.st (init c1)).ioBytes .read,
   (r.st (init c1)).issues .read)

/-- A read of 4096 bytes in one part: counted right, by both kinds of engines. -/
example : sees (job [turnA (part 4096 false)]) = (true, false, 4096, 4096, 1) ∧
    sees (job [turnS (part 4096 false)]) = (true, false, 4096, 4096, 1) := by decide +kernel

/-- In two parts: the bytes of the first are never counted, and with an asynchronous engine it is counted as two I/Os. -/
theorem short_bytes_counterexample :
    sees (job [turnA (part 1024 false), turnA (part 4096 false)]) = (true, false, 4096, 3072, 2) ∧
    sees (job [turnS (part 1024 false), turnS (part 4096 false)]) = (true, false, 4096, 3072, 1) := by decide +kernel

/-- At the end of the file: an asynchronous engine's bytes are counted, a synchronous engine's are not. -/
theorem eof_bytes_counterexample :
    sees (job [turnA (part 1024 true)]) = (true, false, 1024, 1024, 1) ∧
    sees (job [turnS (part 1024 true)]) = (true, false, 1024, 0, 1) := by decide +kernel

/-- An asynchronous engine that transfers nothing: the job goes on as if all were well; with a synchronous engine it is
an error. -/
theorem zero_bytes_counterexample :
    sees (job [turnA (part 0 false)]) = (true, false, 0, 0, 1) ∧
    sees (job [turnS (part 0 false)]) = (true, true, 0, 0, 1) := by decide +kernel

/-- A short transfer found after the loop of `do_io` is never finished: it stays on the ring. -/
theorem short_at_end_counterexample :
    let r := phases c3 (init c3) [.io [turn 0 .queued none, stopTurn] ⟨false, false, [(0, part 1024 false)]⟩ [] false false]
    r.isOk = true ∧ (r.st (init c3)).error = false ∧ (r.st (init c3)).reqs = [2] ∧ (r.st (init c3)).moved .read = 1024 ∧
      ((r.st (init c3)).u 2).xferLen = 3072 := by decide +kernel

/-- A unit that is issued again has lost the marks that it is to be verified, and verified as trimmed. -/
theorem marks_lost_counterexample :
    let f : Fill := ⟨.read, none, 4096, 0, true, true⟩
    let r := doIoLoop c1 (init c1) .completed [{ turn 0 .busy none with fill := some f }]
    let s := r.st (init c1)
    (s.u 0).verList = true ∧ (s.u 0).trimmed = true ∧ s.reqs = [0] ∧
      (((getU c1 s [] false).st s).u 0).verList = false ∧ (((getU c1 s [] false).st s).u 0).trimmed = false ∧
      s.issues .read = 18446744073709551615 := by decide +kernel

/-- The hypotheses of `short_continues` are met in a run: the unit after its first part. -/
example : let s := (doIoLoop c3 (init c3) .completed [turn 0 .queued none]).st (init c3)
    let s := engDone s 2 (part 1024 false)
    (s.u 2).flight = true ∧ (s.u 2).ddir.rw = true ∧ (s.u 2).err = false ∧ (s.u 2).resid = 3072 ∧
      (s.u 2).xferLen = 4096 ∧ s.reqs.length < c3.n := by decide +kernel

end Fio.IoU
