import Verif.Vsync.Props

/-! Examples and counterexamples for C80. -/

namespace Fio.Vsync

def w (id off : Nat) : U × Res := (⟨id, 0, off, 4096, .write, 0, 0⟩, .ok 0)
def r (id off : Nat) : U × Res := (⟨id, 0, off, 4096, .read, 0, 0⟩, .ok 0)

/-- The kernel moves everything. -/
def full : Nat → Res := fun _ => .ok 1000000

/-- The second call is short. -/
def short : Nat → Res := fun n => if n = 1 then .ok 5000 else .ok 1000000

example : GoodEnv full := fun _ => ⟨1000000, rfl, by decide⟩
example : GoodEnv short := fun n => by
  unfold short; split
  · exact ⟨5000, rfl, by decide⟩
  · exact ⟨1000000, rfl, by decide⟩

def exUs : List (U × Res) :=
  [w 1 0, w 2 4096, w 3 8192, r 4 12288, r 5 16384, (⟨6, 0, 0, 0, .sync, 0, 0⟩, .ok 0), w 7 0]

/-- Three writes as one, then two reads (short in the second), a sync, a write. -/
example : (runJob (fixOpt 4 0 0) short 1 exUs).map (fun j => (j.comp.map (fun u => (u.id, u.resid)), j.calls)) =
    some ([(1, 0), (2, 0), (3, 0), (4, 0), (5, 3192), (6, 0), (7, 0)],
      [⟨true, 0, 0, 12288, [(1, 4096), (2, 4096), (3, 4096)]⟩, ⟨false, 0, 12288, 5000, [(4, 4096), (5, 4096)]⟩,
       ⟨true, 0, 0, 4096, [(7, 4096)]⟩]) := by decide +kernel

example := C80_once_partial 4 0 0 (by decide) (Or.inl rfl) short (fun n => by
  unfold short; split
  · exact ⟨5000, rfl, by decide⟩
  · exact ⟨1000000, rfl, by decide⟩) exUs (by decide) 1 (by decide)

/-- **C80** is false with the default `iodepth_batch=1` and a depth of 2: the first unit is committed (and its data
written), the next one takes its slot before it was reaped, and it is never handed back. -/
theorem C80_lost_counterexample :
    (runJob (fixOpt 2 1 0) full 5 [w 1 0, w 2 4096, w 3 8192, w 4 12288]).map (fun j => (j.comp.map (·.id), j.cur)) =
      some ([2, 3, 4], 1) := by decide +kernel

theorem wait_stuck (o : Opt) (env : Nat → Res) (j : Job) (h : reap env j 1 = some (j, some 0)) (hc : j.cur > o.low) :
    ∀ fuel, waitLoop o env true fuel j = none := by
  intro fuel
  induction fuel with
  | zero => rfl
  | succ fuel ih =>
    unfold waitLoop
    rw [h]
    dsimp only
    rw [if_pos (by simpa using hc)]
    exact ih

theorem quiesce_stuck (env : Nat → Res) (j : Job) (h : reap env j 1 = some (j, some 0)) (hc : j.infl ≠ 0) :
    ∀ fuel, quiesce env fuel j = none := by
  intro fuel
  induction fuel with
  | zero => rfl
  | succ fuel ih =>
    unfold quiesce
    rw [if_neg hc, h]
    exact ih

/-- The job above after two units. -/
def stuckSd : SD :=
  { ious := [some ⟨2, 0, 4096, 4096, .write, 0, 0⟩, none], queued := 0, events := 0, qbytes := 8192,
    lastOff := some 8192, lastFile := some 0, lastDir := .write }

def stuckJob : Job :=
  { sd := stuckSd, cur := 1, ioq := 0, infl := 1, comp := [⟨2, 0, 4096, 4096, .write, 0, 0⟩],
    calls := [⟨true, 0, 0, 4096, [(1, 4096)]⟩, ⟨true, 0, 4096, 4096, [(2, 4096)]⟩], asked := 2 }

deriving instance DecidableEq for SD
deriving instance DecidableEq for Job

/-- **C80** A job in this state that waits for its units to complete before it sleeps (rate limit, think time, think of
`io_u_quiesce`) waits for ever. -/
theorem C80_quiesce_counterexample :
    issueAll (fixOpt 2 1 0) full 5 (jobInit (fixOpt 2 1 0)) [w 1 0, w 2 4096] = some stuckJob ∧
      ∀ fuel, quiesce full fuel stuckJob = none :=
  ⟨by decide +kernel, quiesce_stuck full stuckJob (by decide +kernel) (by decide)⟩

def stuckSd3 : SD :=
  { ious := [some ⟨3, 0, 8192, 4096, .write, 0, 0⟩, none, none], queued := 0, events := 0, qbytes := 12288,
    lastOff := some 12288, lastFile := some 0, lastDir := .write }

def stuckJob3 : Job :=
  { sd := stuckSd3, cur := 2, ioq := 0, infl := 2, comp := [⟨3, 0, 8192, 4096, .write, 0, 0⟩],
    calls := [⟨true, 0, 0, 4096, [(1, 4096)]⟩, ⟨true, 0, 4096, 4096, [(2, 4096)]⟩, ⟨true, 0, 8192, 4096, [(3, 4096)]⟩],
    asked := 3 }

/-- The engine after the third unit was committed, before it is reaped. -/
def preJob3 : Job :=
  { stuckJob3 with sd := { stuckSd3 with events := 1 }, cur := 3, infl := 3, comp := [] }

/-- **C80** With a low water mark below the depth the issuing loop itself never ends: the queue is full, it waits for
units that were overwritten. -/
theorem C80_low_counterexample : ∀ fuel, waitLoop (fixOpt 3 1 1) full true fuel preJob3 = none := by
  intro fuel
  cases fuel with
  | zero => rfl
  | succ fuel =>
    have h1 : reap full preJob3 1 = some (stuckJob3, some 1) := by decide +kernel
    unfold waitLoop
    rw [h1]
    dsimp only
    rw [if_pos (by decide)]
    exact wait_stuck _ _ stuckJob3 (by decide +kernel) (by decide) fuel

/-- That state is reached: after three units with depth 3 (here the third is queued by hand). -/
example : (do
    let j ← issueAll (fixOpt 3 1 1) full 5 (jobInit (fixOpt 3 1 1)) [w 1 0, w 2 4096]
    let q ← tdQueue (fixOpt 3 1 1) full { j with cur := j.cur + 1 } (w 3 8192).1 (.ok 0)
    pure q.1) = some preJob3 := by decide +kernel

/-- **C80** A trim is executed as a write: `writev` with the buffer of the unit. -/
theorem C80_trim_counterexample :
    (runJob (fixOpt 1 1 0) full 5 [(⟨1, 0, 8192, 4096, .trim, 0, 0⟩, .ok 0)]).map (fun j => j.calls) =
      some [⟨true, 0, 8192, 4096, [(1, 4096)]⟩] := by decide +kernel

example := @C80_error 2 { sdInit 2 with ious := [some ⟨1, 0, 0, 512, .read, 0, 0⟩, none], queued := 1, qbytes := 512, lastOff := some 512, lastFile := some 0 }
  [⟨1, 0, 0, 512, .read, 0, 0⟩]
  { len := rfl, ev := rfl, q := rfl, sl := rfl, adj := by intro u v h; cases h; exact ⟨512, rfl, rfl, rfl⟩,
    fd := by intro u h; simp at h; subst h; exact ⟨rfl, rfl⟩, qb := by decide,
    fresh := by intro u h; simp at h; subst h; exact ⟨rfl, rfl⟩, dirs := by intro u h; simp at h; subst h; exact Or.inl rfl }
  (by simp) 5

end Fio.Vsync
