import Verif.Jobs.Spec
namespace Fio.Jobs

theorem cnt_congr {p q : Nat → Bool} : ∀ {n}, (∀ k, k < n → p k = q k) → cnt n p = cnt n q
  | 0, _ => rfl
  | n + 1, h => by
    rw [cnt, cnt, cnt_congr (n := n) (fun k hk => h k (by omega)), h n (by omega)]

theorem cnt_le (p : Nat → Bool) : ∀ n, cnt n p ≤ n
  | 0 => Nat.le_refl _
  | n + 1 => by have := cnt_le p n; rw [cnt]; split <;> omega

theorem cnt_upd {p q : Nat → Bool} {j : Nat} : ∀ {n}, j < n → (∀ k, k ≠ j → q k = p k) →
    cnt n q + (if p j then 1 else 0) = cnt n p + (if q j then 1 else 0)
  | 0, h, _ => by omega
  | n + 1, h, hq => by
    by_cases hj : j = n
    · subst hj
      have : cnt j q = cnt j p := cnt_congr (fun k hk => hq k (by omega))
      rw [cnt, cnt, this]; omega
    · have := cnt_upd (p := p) (q := q) (j := j) (n := n) (by omega) hq
      rw [cnt, cnt, hq n (fun h => hj h.symm)]; omega

theorem cnt_zero {p : Nat → Bool} : ∀ {n}, cnt n p = 0 → ∀ k, k < n → p k = false
  | 0, _, k, hk => by omega
  | n + 1, h, k, hk => by
    rw [cnt] at h
    by_cases hkn : k = n
    · subst hkn; cases hp : p k
      · rfl
      · rw [hp] at h; simp at h
    · exact cnt_zero (n := n) (by omega) k (by omega)

theorem cnt_pos {p : Nat → Bool} {n k : Nat} (hk : k < n) (hp : p k = true) : 0 < cnt n p := by
  rcases Nat.eq_zero_or_pos (cnt n p) with h | h
  · rw [cnt_zero h k hk] at hp; cases hp
  · exact h

theorem cnt_add {p q : Nat → Bool} : ∀ {n}, (∀ k, k < n → p k = !q k) → cnt n p + cnt n q = n
  | 0, _ => rfl
  | n + 1, h => by
    have := cnt_add (p := p) (q := q) (n := n) (fun k hk => h k (by omega))
    have h' := h n (by omega)
    rw [cnt, cnt, h']; cases q n <;> simp <;> omega

/-- Sum of `f j` for `j < n`. -/
def sum (n : Nat) (f : Nat → Nat) : Nat :=
  match n with
  | 0 => 0
  | n + 1 => sum n f + f n

theorem sum_congr {p q : Nat → Nat} : ∀ {n}, (∀ k, k < n → p k = q k) → sum n p = sum n q
  | 0, _ => rfl
  | n + 1, h => by
    rw [sum, sum, sum_congr (n := n) (fun k hk => h k (by omega)), h n (by omega)]

theorem sum_upd {p q : Nat → Nat} {j : Nat} : ∀ {n}, j < n → (∀ k, k ≠ j → q k = p k) →
    sum n q + p j = sum n p + q j
  | 0, h, _ => by omega
  | n + 1, h, hq => by
    by_cases hj : j = n
    · subst hj
      have : sum j q = sum j p := sum_congr (fun k hk => hq k (by omega))
      rw [sum, sum, this]; omega
    · have := sum_upd (p := p) (q := q) (j := j) (n := n) (by omega) hq
      rw [sum, sum, hq n (fun h => hj h.symm)]; omega

theorem sum_le {p : Nat → Nat} {b : Nat} : ∀ {n}, (∀ k, k < n → p k ≤ b) → sum n p ≤ b * n
  | 0, _ => Nat.zero_le _
  | n + 1, h => by
    have := sum_le (p := p) (b := b) (n := n) (fun k hk => h k (by omega))
    have := h n (by omega)
    rw [sum, Nat.mul_succ]; omega

/-- In the loop that starts or before it. -/
def Rs.isStarted : Rs → Bool
  | .created => true
  | .initialized => true
  | _ => false

def Rs.isRunning : Rs → Bool
  | .running => true
  | .exited => true
  | _ => false

/-- What holds of a job by itself. -/
structure JobOk (failed : Bool) (q : Job) (l : List Ev) (j : Nat) : Prop where
  fail : failed = true → q.rs = .reaped ∧ q.pid = false
  unborn : q.rs = .notCreated → failed = false
  pid : q.pid = true ↔ (q.rs ≠ .notCreated ∧ q.rs ≠ .created ∧ failed = false)
  go : q.go = true ↔ (q.rs ≠ .notCreated ∧ q.rs ≠ .created ∧ q.rs ≠ .initialized ∧ failed = false)
  live : q.rs ≠ .exited → q.rs ≠ .reaped → q.ended = false
  endx : q.rs = .exited → q.ended = true
  gone : q.rs = .reaped → failed = false → q.ended = true ∨ q.dead = true
  calm : q.stuck = false
  deadp : q.dead = true → q.pid = true
  endp : q.ended = true → q.go = true
  ndead : q.dead = true → q.ended = false
  lc : l.count (.create j) = if q.rs ≠ .notCreated ∧ failed = false then 1 else 0
  lr : l.count (.reap j) = if q.rs = .reaped ∧ failed = false then 1 else 0
  le : .exit j ∈ l ↔ q.ended = true
  ld : .die j ∈ l ↔ q.dead = true

/-- What holds of the place where the main thread is. -/
def PcOk (c : Cfg) (s : St) : Prop :=
  match s.pc with
  | .top | .reap _ _ _ | .drain | .done => ∀ k, k < c.n → (s.job k).rs.isStarted = false
  | .create _ map => (∀ k, (s.job k).rs ≠ .created) ∧ ∀ k ∈ map, (s.job k).rs = .initialized
  | .sem i map => i < c.n ∧ (s.job i).rs.isStarted = true ∧ (∀ k, k ≠ i → (s.job k).rs ≠ .created) ∧
      ∀ k ∈ map, k = i ∨ (s.job k).rs = .initialized
  | .wait map => (∀ k, (s.job k).rs ≠ .created) ∧ ∀ k ∈ map, (s.job k).rs = .initialized
  | .start i => (∀ k, (s.job k).rs ≠ .created) ∧ ∀ k, k < i → k < c.n → (s.job k).rs ≠ .initialized

/-- Number of events of a job. -/
def evs (failed : Bool) (q : Job) : Nat :=
  (decide (q.rs ≠ .notCreated) && !failed).toNat + q.ended.toNat + q.dead.toNat +
    (decide (q.rs = .reaped) && !failed).toNat

structure Inv (c : Cfg) (s : St) : Prop where
  job : ∀ j, JobOk (c.job j).failed (s.job j) s.log j
  pc : PcOk c s
  started : s.nrStarted = cnt c.n (fun j => (s.job j).rs.isStarted)
  running : s.nrRunning = cnt c.n (fun j => (s.job j).rs.isRunning)
  abort : s.abort = false
  alone : StonewallAlone c s.log
  waits : WaitsFor c s.log
  done : s.pc = .done → s.nrRunning = 0
  far : ∀ j, c.n ≤ j → (s.job j).rs = .notCreated ∨ (s.job j).rs = .reaped
  len : s.log.length = sum c.n (fun j => evs (c.job j).failed (s.job j))

/-- The job of an event. -/
def Ev.job : Ev → Nat
  | .create j => j
  | .exit j => j
  | .die j => j
  | .reap j => j

theorem JobOk.push {f : Bool} {q : Job} {l : List Ev} {j : Nat} {e : Ev} (h : JobOk f q l j) (he : e.job ≠ j) :
    JobOk f q (e :: l) j := by
  have h1 : e ≠ .create j := fun h => he (by rw [h]; rfl)
  have h2 : e ≠ .exit j := fun h => he (by rw [h]; rfl)
  have h3 : e ≠ .die j := fun h => he (by rw [h]; rfl)
  have h4 : e ≠ .reap j := fun h => he (by rw [h]; rfl)
  exact { h with
    lc := by rw [List.count_cons_of_ne h1]; exact h.lc
    lr := by rw [List.count_cons_of_ne h4]; exact h.lr
    le := by rw [List.mem_cons, ← h.le]; exact ⟨fun h => h.resolve_left (fun e => h2 e.symm), Or.inr⟩
    ld := by rw [List.mem_cons, ← h.ld]; exact ⟨fun h => h.resolve_left (fun e => h3 e.symm), Or.inr⟩ }

theorem JobOk.term {f : Bool} {q : Job} {l : List Ev} {j : Nat} (h : JobOk f q l j) (t : Bool) :
    JobOk f { q with terminate := t } l j := by
  obtain ⟨a1, a2, a3, a4, a5, a6, a7, a8, a9, a10, a11, a12, a13, a14, a15⟩ := h
  exact ⟨a1, a2, a3, a4, a5, a6, a7, a8, a9, a10, a11, a12, a13, a14, a15⟩

theorem split_cons {l : List Ev} {e : Ev} {post pre : List Ev} {j : Nat}
    (h : e :: l = post ++ .create j :: pre) :
    (e = .create j ∧ l = pre) ∨ ∃ post', l = post' ++ .create j :: pre := by
  cases post with
  | nil => rw [List.nil_append] at h; injection h with h1 h2; exact Or.inl ⟨h1, h2⟩
  | cons x xs => rw [List.cons_append] at h; injection h with h1 h2; exact Or.inr ⟨xs, h2⟩

theorem alone_cons {c : Cfg} {l : List Ev} {e : Ev} (h : StonewallAlone c l)
    (he : ∀ j, e = .create j → (c.job j).stonewall = true → ∀ k, .create k ∈ l → Over c l k ∧ .reap k ∈ l) :
    StonewallAlone c (e :: l) := by
  intro post pre j hl hs k hk
  rcases split_cons hl with ⟨h1, h2⟩ | ⟨post', h2⟩
  · subst h2; exact he j h1 hs k hk
  · exact h post' pre j h2 hs k hk

theorem waits_cons {c : Cfg} {l : List Ev} {e : Ev} (h : WaitsFor c l)
    (he : ∀ j w, e = .create j → (c.job j).waitFor = some w →
      ∀ k, k < c.n → (c.job k).name = w → (c.job j).name ≠ w → Over c l k) :
    WaitsFor c (e :: l) := by
  intro post pre j w hl hs k hk
  rcases split_cons hl with ⟨h1, h2⟩ | ⟨post', h2⟩
  · subst h2; exact he j w h1 hs k hk
  · exact h post' pre j w h2 hs k hk

theorem b2n (b : Bool) : (if b = true then 1 else 0 : Nat) = b.toNat := by cases b <;> rfl

theorem upd_ne (s : St) {j k : Nat} (f : Job → Job) (h : k ≠ j) : (s.upd j f).job k = s.job k := if_neg h
theorem upd_eq (s : St) (j : Nat) (f : Job → Job) : (s.upd j f).job j = f (s.job j) := if_pos rfl

/-- A step that changes one job and may add one event about it. -/
theorem Inv.upd {c : Cfg} {s s' : St} (hI : Inv c s) (i : Nat) (f : Job → Job) (hi : i < c.n)
    (hjob' : s'.job = (s.upd i f).job)
    (hlog : s'.log = s.log ∨ ∃ e : Ev, e.job = i ∧ s'.log = e :: s.log)
    (hok : JobOk (c.job i).failed (f (s.job i)) s'.log i)
    (hpc : PcOk c s')
    (hst : s'.nrStarted + (s.job i).rs.isStarted.toNat = s.nrStarted + (f (s.job i)).rs.isStarted.toNat)
    (hrun : s'.nrRunning + (s.job i).rs.isRunning.toNat = s.nrRunning + (f (s.job i)).rs.isRunning.toNat)
    (habort : s'.abort = s.abort)
    (halone : StonewallAlone c s'.log) (hwaits : WaitsFor c s'.log)
    (hdone : s'.pc = .done → s'.nrRunning = 0)
    (hlen : s'.log.length + evs (c.job i).failed (s.job i) =
      s.log.length + evs (c.job i).failed (f (s.job i))) : Inv c s' := by
  have hjob : ∀ k, k ≠ i → s'.job k = s.job k := fun k hk => by rw [hjob', upd_ne s f hk]
  have hji : s'.job i = f (s.job i) := by rw [hjob', upd_eq]
  refine { job := ?_, pc := hpc, started := ?_, running := ?_, abort := by rw [habort]; exact hI.abort,
           alone := halone, waits := hwaits, done := hdone, far := ?_, len := ?_ }
  · intro j
    by_cases hj : j = i
    · subst hj; rw [hji]; exact hok
    · rw [hjob j hj]
      rcases hlog with h | ⟨e, he, h⟩
      · rw [h]; exact hI.job j
      · rw [h]; exact (hI.job j).push (by rw [he]; exact fun h => hj h.symm)
  · have := cnt_upd (p := fun j => (s.job j).rs.isStarted) (q := fun j => (s'.job j).rs.isStarted) hi
      (fun k hk => by show (s'.job k).rs.isStarted = (s.job k).rs.isStarted; rw [hjob k hk])
    rw [b2n, b2n, ← hI.started, hji] at this
    omega
  · have := cnt_upd (p := fun j => (s.job j).rs.isRunning) (q := fun j => (s'.job j).rs.isRunning) hi
      (fun k hk => by show (s'.job k).rs.isRunning = (s.job k).rs.isRunning; rw [hjob k hk])
    rw [b2n, b2n, ← hI.running, hji] at this
    omega
  · intro j hj
    rw [hjob j (by omega)]; exact hI.far j hj
  · have := sum_upd (p := fun j => evs (c.job j).failed (s.job j)) (q := fun j => evs (c.job j).failed (s'.job j))
      hi (fun k hk => by show evs _ (s'.job k) = evs _ (s.job k); rw [hjob k hk])
    rw [← hI.len, hji] at this
    omega

/-- A step that changes no job, but for `terminate`. -/
theorem Inv.same {c : Cfg} {s s' : St} (hI : Inv c s)
    (hjob : ∀ k, ∃ t, s'.job k = { s.job k with terminate := t })
    (hlog : s'.log = s.log)
    (hpc : PcOk c s')
    (hst : s'.nrStarted = s.nrStarted)
    (hrun : s'.nrRunning = s.nrRunning)
    (habort : s'.abort = s.abort)
    (hdone : s'.pc = .done → s'.nrRunning = 0) : Inv c s' := by
  have hrs : ∀ k, (s'.job k).rs = (s.job k).rs := by
    intro k; obtain ⟨t, ht⟩ := hjob k; rw [ht]
  refine { job := ?_, pc := hpc, started := ?_, running := ?_, abort := by rw [habort]; exact hI.abort,
           alone := by rw [hlog]; exact hI.alone, waits := by rw [hlog]; exact hI.waits, done := hdone,
           far := ?_, len := ?_ }
  · intro j
    obtain ⟨t, ht⟩ := hjob j
    rw [ht, hlog]; exact (hI.job j).term t
  · rw [hst, hI.started]; exact cnt_congr (fun k _ => by rw [hrs])
  · rw [hrun, hI.running]; exact cnt_congr (fun k _ => by rw [hrs])
  · intro j hj; rw [hrs]; exact hI.far j hj
  · rw [hlog, hI.len]
    refine sum_congr (fun k _ => ?_)
    obtain ⟨t, ht⟩ := hjob k
    rw [ht]; rfl

theorem PcOk.of_rs {c : Cfg} {s s' : St} (h : PcOk c s) (hrs : ∀ k, (s'.job k).rs = (s.job k).rs)
    (hpc : s'.pc = s.pc) : PcOk c s' := by
  unfold PcOk at *
  rw [hpc]
  simp only [hrs]
  exact h

theorem dec_succ {x : Nat} (h : 0 < x) (h' : x ≤ 4294967295) : dec x + 1 = x := by unfold dec; omega

theorem inc_eq {x : Nat} (h : x < 4294967295) : inc x = x + 1 := by unfold inc; omega

theorem inv_init (c : Cfg) : Inv c (init c) := by
  refine { job := ?_, pc := ?_, started := ?_, running := ?_, abort := rfl, alone := ?_, waits := ?_,
           done := (fun h => by cases h), far := ?_, len := ?_ }
  · intro j
    cases hf : (c.job j).failed <;> constructor <;> simp [init, hf]
  · intro k _
    show ((init c).job k).rs.isStarted = false
    cases hf : (c.job k).failed <;> simp [init, hf, Rs.isStarted]
  · show 0 = _
    have : cnt c.n (fun j => ((init c).job j).rs.isStarted) = cnt c.n (fun _ => false) :=
      cnt_congr (fun k _ => by cases hf : (c.job k).failed <;> simp [init, hf, Rs.isStarted])
    rw [this]; generalize c.n = n; induction n with
    | zero => rfl
    | succ n ih => rw [cnt, ← ih]; rfl
  · show 0 = _
    have : cnt c.n (fun j => ((init c).job j).rs.isRunning) = cnt c.n (fun _ => false) :=
      cnt_congr (fun k _ => by cases hf : (c.job k).failed <;> simp [init, hf, Rs.isRunning])
    rw [this]; generalize c.n = n; induction n with
    | zero => rfl
    | succ n ih => rw [cnt, ← ih]; rfl
  · intro post pre j h; simp [init] at h
  · intro post pre j w h; simp [init] at h
  · intro j _
    cases hf : (c.job j).failed <;> simp [init, hf]
  · show 0 = _
    have : sum c.n (fun j => evs (c.job j).failed ((init c).job j)) = sum c.n (fun _ => 0) :=
      sum_congr (fun k _ => by cases hf : (c.job k).failed <;> simp [init, hf, evs])
    rw [this]; generalize c.n = n; induction n with
    | zero => rfl
    | succ n ih => rw [sum, ← ih]

end Fio.Jobs
