import Verif.Vsync.Lemmas

/-! C80: the `vsync` engine moves the bytes of every unit at their own place and hands every unit back once. -/

namespace Fio.Vsync

/-- The kernel never fails and moves less than 4 GiB at a time (Linux: at most `0x7ffff000` bytes). -/
def GoodEnv (env : Nat → Res) : Prop := ∀ n, ∃ k, env n = .ok k ∧ k < 2 ^ 32

/-- What is right about the units handed back, for the calls made. -/
structure Right (comp : List U) (calls : List Call) : Prop where
  served : ∀ u ∈ comp, u.dir ≠ .sync → u.err = 0 ∧ ∃ c ∈ calls, Served c u
  pure : ∀ c ∈ calls, Pure c comp
  sum : ((comp.filter fun u => u.dir ≠ .sync).map moved).sum = (calls.map fun c => c.got).sum

/-- The job between two turns of the loop, units `v` queued in the engine, `done` issued so far. -/
structure JInv (o : Opt) (j : Job) (v : List U) (done : List U) : Prop where
  sd : SdInv o.depth j.sd v
  cur : j.cur = v.length
  ioq : j.ioq = v.length
  all : (j.comp ++ v).map plain = done.map plain
  right : Right j.comp j.calls

theorem Pure_mono {c : Call} {us ws : List U} (h : Pure c us) (hs : ∀ u ∈ us, u ∈ ws) : Pure c ws := by
  intro p b hb
  obtain ⟨u, hu, h1⟩ := h p b hb
  exact ⟨u, hs u hu, h1⟩

theorem Right_append {comp us : List U} {calls : List Call} {c : Call} (h : Right comp calls)
    (hs : ∀ u ∈ us, Served c u ∧ u.err = 0) (hp : Pure c us) (hsum : (us.map moved).sum = c.got)
    (hd : ∀ u ∈ us, u.dir ≠ .sync) : Right (comp ++ us) (calls ++ [c]) := by
  constructor
  · intro u hu hns
    rcases List.mem_append.1 hu with hu | hu
    · obtain ⟨h1, c', h2, h3⟩ := h.served u hu hns
      exact ⟨h1, c', List.mem_append_left _ h2, h3⟩
    · exact ⟨(hs u hu).2, c, by simp, (hs u hu).1⟩
  · intro c' hc'
    rcases List.mem_append.1 hc' with hc' | hc'
    · exact Pure_mono (h.pure c' hc') fun u hu => List.mem_append_left _ hu
    · simp at hc'; subst hc'
      exact Pure_mono hp fun u hu => List.mem_append_right _ hu
  · have hfilt : us.filter (fun u => u.dir ≠ .sync) = us := by
      apply List.filter_eq_self.2
      intro u hu; simpa using hd u hu
    simp only [List.filter_append, List.map_append, List.sum_append, hfilt, hsum, h.sum]
    simp

/-- Units `us` committed but not yet handed back. -/
structure Committed (o : Opt) (j : Job) (us : List U) (done : List U) : Prop where
  len : j.sd.ious.length = o.depth
  ev : j.sd.events = us.length
  q : j.sd.queued = 0
  sl : slots j.sd.ious us.length = some us
  cur : j.cur = us.length
  all : (j.comp ++ us).map plain = done.map plain
  right : Right (j.comp ++ us) j.calls
  ne : us ≠ []

theorem doCommit_ok {o : Opt} {env : Nat → Res} (he : GoodEnv env) {j : Job} {v done : List U} (h : JInv o j v done)
    (hne : v ≠ []) (hvd : v.length ≤ o.depth) :
    ∃ j' us, doCommit env j = some (j', false) ∧ Committed o j' us done ∧ j'.ioq = j.ioq := by
  obtain ⟨k, hk, hk2⟩ := he j.asked
  obtain ⟨sd', c, us, h1, h2, h3, h4, h5, h6, h7, h8, h9, h10, h11⟩ := commit_ok h.sd hne k hk2 hvd
  refine ⟨{ j with sd := sd', calls := j.calls ++ [c], asked := if j.sd.queued = 0 then j.asked else j.asked + 1 }, us,
    ?_, ?_, ?_⟩
  · unfold doCommit
    rw [hk, h1]
    rfl
  · constructor
    · exact h10
    · rw [h11]; exact h7
    · exact h8
    · rw [h11]; exact h9
    · show j.cur = us.length
      rw [h11]; exact h.cur
    · show (j.comp ++ us).map plain = done.map plain
      rw [← h.all, List.map_append, List.map_append, h2]
    · refine Right_append h.right h3 h4 h5 ?_
      intro u hu hd
      have hm : plain u ∈ v.map plain := by rw [← h2]; exact List.mem_map_of_mem hu
      obtain ⟨w, hw, hpw⟩ := List.mem_map.1 hm
      have : u.dir = w.dir := by have := congrArg U.dir hpw; exact this.symm
      rcases h.sd.dirs w hw with h | h <;> rw [this, h] at hd <;> cases hd
    · intro h0
      rw [h0] at h11
      exact hne (List.length_eq_zero_iff.1 h11.symm)
  · rfl

theorem take_ok {o : Opt} {j : Job} {us done : List U} (h : Committed o j us done) (m : Nat) (hm : 0 < m)
    (hioq : j.ioq = 0) :
    ∃ sd, getevents j.sd m = (sd, us.length) ∧
      JInv o { j with sd := sd, infl := sub32 j.infl us.length, cur := j.cur - us.length, comp := j.comp ++ us } [] done := by
  refine ⟨{ j.sd with events := 0 }, ?_, ?_⟩
  · unfold getevents
    rw [if_pos (by omega), h.ev]
  · constructor
    · constructor
      · exact h.len
      · rfl
      · exact h.q
      · show slots j.sd.ious j.sd.queued = some []
        rw [h.q]; simp [slots]
      · intro u v hv; cases hv
      · intro u hu; simp at hu
      · simp [total]
      · intro u hu; simp at hu
      · intro u hu; simp at hu
    · show j.cur - us.length = 0
      rw [h.cur]; omega
    · exact hioq
    · simpa using h.all
    · exact h.right

/-- Reaping what is committed. -/
theorem reap_committed {o : Opt} {env : Nat → Res} {j : Job} {us done : List U} (h : Committed o j us done)
    (hioq : j.ioq = 0) (m : Nat) (hm : 0 < m) :
    ∃ j' n, reap env j m = some (j', some n) ∧ JInv o j' [] done := by
  have hpos : 0 < us.length := by
    cases us with
    | nil => exact absurd rfl h.ne
    | cons u us => simp
  have hm' : 0 < (if m > j.cur then j.cur else m) := by have := h.cur; split <;> omega
  have hc : doCommit env j = some (j, false) := by
    unfold doCommit commit
    rw [if_pos h.q]
    simp [h.q]
  obtain ⟨sd, h1, h2⟩ := take_ok h _ hm' hioq
  refine ⟨_, us.length, ?_, h2⟩
  unfold reap
  dsimp only
  rw [if_pos hm', hc]
  dsimp only
  rw [h1]
  dsimp only
  rw [h.sl]

/-- Reaping when units are queued: they are committed first.  (`io_u_queued` is left behind then, so this is only for
the end of the job.) -/
theorem reap_queued {o : Opt} {env : Nat → Res} (he : GoodEnv env) {j : Job} {v done : List U} (h : JInv o j v done)
    (hne : v ≠ []) (hvd : v.length ≤ o.depth) (m : Nat) (hm : 0 < m) :
    ∃ j' n, reap env j m = some (j', some n) ∧ j'.cur = 0 ∧ j'.sd.queued = 0 ∧ j'.comp.map plain = done.map plain ∧
      Right j'.comp j'.calls := by
  obtain ⟨j1, us, h1, h2, h3⟩ := doCommit_ok he h hne hvd
  have hcur : 0 < j.cur := by
    rw [h.cur]
    cases v with
    | nil => exact absurd rfl hne
    | cons u v => simp
  have hm' : 0 < (if m > j.cur then j.cur else m) := by split <;> omega
  have hg : getevents j1.sd (if m > j.cur then j.cur else m) = ({ j1.sd with events := 0 }, us.length) := by
    unfold getevents
    rw [if_pos (by omega), h2.ev]
  refine ⟨{ j1 with sd := { j1.sd with events := 0 }, infl := sub32 j1.infl us.length, cur := j1.cur - us.length, comp := j1.comp ++ us },
    us.length, ?_, ?_, h2.q, h2.all, h2.right⟩
  · unfold reap
    dsimp only
    rw [if_pos hm', h1]
    dsimp only
    rw [hg]
    dsimp only
    rw [h2.sl]
  · show j1.cur - us.length = 0
    rw [h2.cur]; omega

theorem wait_ok {o : Opt} {env : Nat → Res} {j : Job} {us done : List U} (h : Committed o j us done)
    (hioq : j.ioq = 0) (full : Bool) (fuel : Nat) (hf : 0 < fuel) :
    ∃ j', waitLoop o env full fuel j = some j' ∧ JInv o j' [] done := by
  obtain ⟨j', n, h1, h2⟩ := reap_committed (env := env) h hioq 1 (by omega)
  cases fuel with
  | zero => omega
  | succ fuel =>
    refine ⟨j', ?_, h2⟩
    unfold waitLoop
    rw [h1]
    dsimp only
    have : j'.cur = 0 := h2.cur
    rw [this]
    simp

theorem JInv_congr {o : Opt} {j : Job} {v done done' : List U} (h : JInv o j v done)
    (hd : done.map plain = done'.map plain) : JInv o j v done' :=
  { h with all := by rw [← hd]; exact h.all }

/-- Commit of the queued units followed by waiting for them. -/
theorem flush_ok {o : Opt} {env : Nat → Res} (he : GoodEnv env) {j : Job} {v done : List U} (h : JInv o j v done)
    (hne : v ≠ []) (hvd : v.length ≤ o.depth) :
    ∃ j1 us, tdCommit env j = some j1 ∧ Committed o j1 us done ∧ j1.ioq = 0 := by
  obtain ⟨j1, us, h1, h2, h3⟩ := doCommit_ok he h hne hvd
  have hl : v.length ≠ 0 := fun h0 => hne (List.length_eq_zero_iff.1 h0)
  refine ⟨{ j1 with infl := (j1.infl + j.ioq) % 2 ^ 32, ioq := 0 }, us, ?_, ?_, rfl⟩
  · unfold tdCommit
    rw [if_neg (by rw [h.cur, h.ioq]; simp; exact hne), h1]
    rfl
  · exact { len := h2.len, ev := h2.ev, q := h2.q, sl := h2.sl, cur := h2.cur, all := h2.all, right := h2.right, ne := h2.ne }

/-- One turn with a read or write when the batch is the depth: it is taken, or everything before it is flushed. -/
theorem turn_data {o : Opt} {env : Nat → Res} (he : GoodEnv env) (hb : o.batch = o.depth) {j : Job} {v done : List U}
    (h : JInv o j v done) (hv : v.length < o.depth) (u : U) (hu : u.dir = .read ∨ u.dir = .write) (sync : Res)
    (fuel : Nat) (hf : 0 < fuel) :
    (∃ j' v', turn o env fuel j u sync = some (j', false) ∧ JInv o j' v' (done ++ [u]) ∧ v'.length < o.depth) ∨
    (∃ j', turn o env fuel j u sync = some (j', true) ∧ JInv o j' [] done ∧ v ≠ []) := by
  have hpl : (done ++ [plain u]).map plain = (done ++ [u]).map plain := by simp [plain]
  rcases queue_inv h.sd hv (plain u) hu ⟨rfl, rfl⟩ sync with ⟨sd', hq, hi⟩ | ⟨hq, hne⟩
  · left
    have hj : JInv o { j with cur := j.cur + 1, sd := sd', ioq := j.ioq + 1 } (v ++ [plain u]) (done ++ [u]) := by
      refine JInv_congr ?_ hpl
      constructor
      · exact hi
      · show j.cur + 1 = _; rw [h.cur]; simp
      · show j.ioq + 1 = _; rw [h.ioq]; simp
      · show (j.comp ++ (v ++ [plain u])).map plain = _
        rw [← List.append_assoc, List.map_append, h.all]; simp
      · exact h.right
    have hlen : (v ++ [plain u]).length ≤ o.depth := by simp; omega
    by_cases hfull : v.length + 1 = o.depth
    · obtain ⟨j1, us, h1, h2, h3⟩ := flush_ok he hj (by simp) hlen
      obtain ⟨j', h4, h5⟩ := wait_ok (env := env) h2 h3 true fuel hf
      refine ⟨j', [], ?_, h5, by simp; omega⟩
      have htq : tdQueue o env { j with cur := j.cur + 1 } u sync = some (j1, plain u, .queued) := by
        unfold tdQueue
        dsimp only
        rw [show ({ u with err := 0, resid := 0 } : U) = plain u from rfl, hq]
        dsimp only
        rw [if_pos rfl, if_pos (by rw [hb, h.ioq]; omega)]
        rw [h1]; rfl
      unfold turn
      dsimp only
      rw [htq]
      dsimp only
      have hqf : queueFull o j1 0 = true := by
        unfold queueFull
        have := h2.cur
        have h6 : j1.cur = (v ++ [plain u]).length := by
          have := congrArg List.length h2.all
          have h7 := congrArg List.length hj.all
          simp only [List.length_map, List.length_append] at this h7
          have hcomp : j1.comp = j.comp := by
            have := h1
            unfold tdCommit doCommit at this
            split at this
            · rw [← Option.some.inj this]
            · simp only [Option.map_map, Option.map_eq_some_iff] at this
              obtain ⟨x, _, hx⟩ := this
              rw [← hx]; rfl
          rw [h2.cur]
          rw [hcomp] at this
          simp only [List.length_append]
          omega
        rw [h6]; simp; omega
      rw [hqf, if_pos rfl, h4]; rfl
    · refine ⟨_, v ++ [plain u], ?_, hj, by simp; omega⟩
      have htq : tdQueue o env { j with cur := j.cur + 1 } u sync =
          some ({ j with cur := j.cur + 1, sd := sd', ioq := j.ioq + 1 }, plain u, .queued) := by
        unfold tdQueue
        dsimp only
        rw [show ({ u with err := 0, resid := 0 } : U) = plain u from rfl, hq]
        dsimp only
        rw [if_pos rfl, if_neg (by rw [hb, h.ioq]; omega)]
      unfold turn
      dsimp only
      rw [htq]
      dsimp only
      rw [if_neg (by unfold queueFull; simp; rw [h.cur]; omega)]
  · right
    have htq : tdQueue o env { j with cur := j.cur + 1 } u sync = some ({ j with cur := j.cur + 1 }, plain u, .busy) := by
      unfold tdQueue
      dsimp only
      rw [show ({ u with err := 0, resid := 0 } : U) = plain u from rfl, hq]
      dsimp only
      rw [if_neg (by simp)]
    obtain ⟨j1, us, h1, h2, h3⟩ := flush_ok he h hne (by omega)
    have hj' : ({ j with cur := j.cur + 1 - 1 } : Job) = j := by cases j; simp
    have hcur : j1.cur ≠ 0 := by
      rw [h2.cur]; exact fun h0 => h2.ne (List.length_eq_zero_iff.1 h0)
    obtain ⟨j', h4, h5⟩ := wait_ok (env := env) h2 h3 (queueFull o j1 1) fuel hf
    refine ⟨j', ?_, h5, hne⟩
    unfold turn
    dsimp only
    rw [htq]
    dsimp only
    rw [hj', h1]
    dsimp only
    rw [if_pos (Or.inr hcur), h4]; rfl

/-- One turn with a sync. -/
theorem turn_sync {o : Opt} {env : Nat → Res} (he : GoodEnv env) {j : Job} {v done : List U}
    (h : JInv o j v done) (hv : v.length < o.depth) (u : U) (hu : u.dir = .sync) (sync : Res)
    (fuel : Nat) (hf : 0 < fuel) :
    (∃ j', turn o env fuel j u sync = some (j', false) ∧ JInv o j' [] (done ++ [u]) ∧ v = []) ∨
    (∃ j', turn o env fuel j u sync = some (j', true) ∧ JInv o j' [] done ∧ v ≠ []) := by
  have ha : append j.sd (plain u) = false := by unfold append; rw [if_pos (show (plain u).dir = .sync from hu)]
  cases v with
  | nil =>
    left
    have hq0 : j.sd.queued = 0 := h.sd.q
    have key : ∀ w : U, plain w = plain u → w.dir = .sync →
        JInv o { j with cur := j.cur + 1 - 1, comp := j.comp ++ [w] } [] (done ++ [u]) := by
      intro w hw hd
      constructor
      · exact h.sd
      · exact h.cur
      · exact h.ioq
      · have := h.all
        simp only [List.append_nil] at this
        simp [this, hw]
      · constructor
        · intro x hx hns
          rcases List.mem_append.1 hx with hx | hx
          · exact h.right.served x hx hns
          · simp at hx; subst hx; exact absurd hd hns
        · intro c hc
          exact Pure_mono (h.right.pure c hc) fun u hu => List.mem_append_left _ hu
        · have : ([w].filter fun u => decide (u.dir ≠ .sync)) = [] := by simp [hd]
          show (((j.comp ++ [w]).filter fun u => decide (u.dir ≠ .sync)).map moved).sum = _
          rw [List.filter_append, this, List.append_nil]
          exact h.right.sum
    cases sync with
    | ok k =>
      refine ⟨{ j with cur := j.cur + 1 - 1, comp := j.comp ++ [plain u] }, ?_, key (plain u) rfl hu, rfl⟩
      have htq : tdQueue o env { j with cur := j.cur + 1 } u (.ok k) =
          some ({ j with cur := j.cur + 1 }, plain u, .completed) := by
        have hq : queue o.depth j.sd (plain u) (.ok k) = some (j.sd, plain u, .completed) := by
          unfold queue
          rw [if_pos ha, if_neg (by omega), if_pos (show (plain u).dir = .sync from hu)]
        unfold tdQueue
        dsimp only
        rw [show ({ u with err := 0, resid := 0 } : U) = plain u from rfl, hq]
        rfl
      unfold turn
      dsimp only
      rw [htq]
    | fail e =>
      refine ⟨{ j with cur := j.cur + 1 - 1, comp := j.comp ++ [{ plain u with err := e }] }, ?_, key _ rfl hu, rfl⟩
      have htq : tdQueue o env { j with cur := j.cur + 1 } u (.fail e) =
          some ({ j with cur := j.cur + 1 }, { plain u with err := e }, .completed) := by
        have hq : queue o.depth j.sd (plain u) (.fail e) = some (j.sd, { plain u with err := e }, .completed) := by
          unfold queue
          rw [if_pos ha, if_neg (by omega), if_pos (show (plain u).dir = .sync from hu)]
        unfold tdQueue
        dsimp only
        rw [show ({ u with err := 0, resid := 0 } : U) = plain u from rfl, hq]
        rfl
      unfold turn
      dsimp only
      rw [htq]
  | cons x v =>
    right
    have htq : tdQueue o env { j with cur := j.cur + 1 } u sync = some ({ j with cur := j.cur + 1 }, plain u, .busy) := by
      have hq : queue o.depth j.sd (plain u) sync = some (j.sd, plain u, .busy) := by
        unfold queue
        rw [if_pos ha, if_pos (by rw [h.sd.q]; simp)]
      unfold tdQueue
      dsimp only
      rw [show ({ u with err := 0, resid := 0 } : U) = plain u from rfl, hq]
      rfl
    obtain ⟨j1, us, h1, h2, h3⟩ := flush_ok he h (by simp) (by omega)
    have hj' : ({ j with cur := j.cur + 1 - 1 } : Job) = j := by cases j; simp
    have hcur : j1.cur ≠ 0 := by
      rw [h2.cur]; exact fun h0 => h2.ne (List.length_eq_zero_iff.1 h0)
    obtain ⟨j', h4, h5⟩ := wait_ok (env := env) h2 h3 (queueFull o j1 1) fuel hf
    refine ⟨j', ?_, h5, by simp⟩
    unfold turn
    dsimp only
    rw [htq]
    dsimp only
    rw [hj', h1]
    dsimp only
    rw [if_pos (Or.inr hcur), h4]; rfl

theorem issue_ok {o : Opt} {env : Nat → Res} (he : GoodEnv env) (hb : o.batch = o.depth) (h0 : 0 < o.depth) {j : Job}
    {v done : List U} (h : JInv o j v done) (hv : v.length < o.depth) (u : U) (hu : u.dir ≠ .trim) (sync : Res)
    (fuel : Nat) (hf : 0 < fuel) :
    ∃ j' v', issue o env fuel 2 j u sync = some j' ∧ JInv o j' v' (done ++ [u]) ∧ v'.length < o.depth := by
  have step : ∀ {j : Job} {v : List U}, JInv o j v done → v.length < o.depth →
      (∃ j' v', turn o env fuel j u sync = some (j', false) ∧ JInv o j' v' (done ++ [u]) ∧ v'.length < o.depth) ∨
      (∃ j', turn o env fuel j u sync = some (j', true) ∧ JInv o j' [] done ∧ v ≠ []) := by
    intro j v h hv
    cases hd : u.dir with
    | trim => exact absurd hd hu
    | read => exact turn_data he hb h hv u (Or.inl hd) sync fuel hf
    | write => exact turn_data he hb h hv u (Or.inr hd) sync fuel hf
    | sync =>
      rcases turn_sync he h hv u hd sync fuel hf with ⟨j', h1, h2, _⟩ | h1
      · exact Or.inl ⟨j', [], h1, h2, by simpa using h0⟩
      · exact Or.inr h1
  rcases step h hv with ⟨j', v', h1, h2, h3⟩ | ⟨j', h1, h2, _⟩
  · refine ⟨j', v', ?_, h2, h3⟩
    unfold issue; rw [h1]
  · rcases step h2 (by simpa using h0) with ⟨j'', v', h4, h5, h6⟩ | ⟨j'', h4, h5, h6⟩
    · refine ⟨j'', v', ?_, h5, h6⟩
      unfold issue; rw [h1]
      dsimp only
      unfold issue; rw [h4]
    · exact absurd rfl h6

theorem issueAll_ok {o : Opt} {env : Nat → Res} (he : GoodEnv env) (hb : o.batch = o.depth) (h0 : 0 < o.depth)
    (fuel : Nat) (hf : 0 < fuel) (us : List (U × Res)) : ∀ {j : Job} {v done : List U}, JInv o j v done →
    v.length < o.depth → (∀ u ∈ us, u.1.dir ≠ .trim) →
    ∃ j' v', issueAll o env fuel j us = some j' ∧ JInv o j' v' (done ++ us.map (·.1)) ∧ v'.length < o.depth := by
  induction us with
  | nil => intro j v done h hv _; exact ⟨j, v, rfl, by simpa using h, hv⟩
  | cons u us ih =>
    intro j v done h hv ht
    obtain ⟨j1, v1, h1, h2, h3⟩ := issue_ok he hb h0 h hv u.1 (ht u (List.mem_cons_self ..)) u.2 fuel hf
    obtain ⟨j2, v2, h4, h5, h6⟩ := ih h2 h3 fun w hw => ht w (List.mem_cons_of_mem _ hw)
    refine ⟨j2, v2, ?_, by simpa using h5, h6⟩
    unfold issueAll; rw [h1]; exact h4

/-- **C80** With `iodepth_batch` equal to `iodepth` (set to 0, or to the depth or more), a kernel that does not fail and
no trims, a `vsync` job runs to its end and hands back every unit exactly once, in the order of issue; every unit
reports as moved exactly the bytes that were moved between its buffer and its own place in its file, in its direction,
and every byte moved is reported by a unit; the numbers add up.  However short the transfers.  Missing for the full
claim: other batch sizes, where units are lost (`C80_lost_counterexample`), trims, which are written
(`C80_trim_counterexample`), and errors, for which see `C80_error`. -/
theorem C80_once_partial (depth low batch : Nat) (h0 : 0 < depth) (hb : batch = 0 ∨ depth ≤ batch) (env : Nat → Res)
    (he : GoodEnv env) (us : List (U × Res)) (ht : ∀ u ∈ us, u.1.dir ≠ .trim) (fuel : Nat) (hf : 0 < fuel) :
    ∃ j, runJob (fixOpt depth batch low) env fuel us = some j ∧ j.cur = 0 ∧
      j.comp.map plain = us.map (fun u => plain u.1) ∧ Right j.comp j.calls := by
  have hbd : (fixOpt depth batch low).batch = (fixOpt depth batch low).depth := by
    show (if batch > depth ∨ batch = 0 then depth else batch) = depth
    split <;> omega
  have hinit : JInv (fixOpt depth batch low) (jobInit (fixOpt depth batch low)) [] [] := by
    constructor
    · exact SdInv_init depth
    · rfl
    · rfl
    · rfl
    · constructor
      · intro u hu; simp [jobInit] at hu
      · intro c hc; simp [jobInit] at hc
      · simp [jobInit]
  obtain ⟨j, v, h1, h2, h3⟩ := issueAll_ok he hbd h0 fuel hf us hinit (show 0 < depth from h0) ht
  have hfin : (List.map plain ([] ++ us.map (·.1))) = us.map (fun u => plain u.1) := by simp
  by_cases hv : v = []
  · subst hv
    have hc : j.cur = 0 := h2.cur
    refine ⟨j, ?_, hc, ?_, h2.right⟩
    · unfold runJob finish; rw [h1]; dsimp only; rw [if_pos hc]
    · have := h2.all; rw [hfin] at this; simpa using this
  · have hpos : 0 < j.cur := by
      rw [h2.cur]
      cases v with
      | nil => exact absurd rfl hv
      | cons u v => simp
    obtain ⟨j', n, h4, h5, h6, h7, h8⟩ := reap_queued he h2 hv (by omega) j.cur hpos
    refine ⟨j', ?_, h5, by rw [h7, hfin], h8⟩
    unfold runJob finish; rw [h1]; dsimp only; rw [if_neg (by omega), h4]; rfl

/-- **C80** When the kernel refuses a vector, every unit of it gets the error, and they are the next events. -/
theorem C80_error {depth : Nat} {sd : SD} {v : List U} (h : SdInv depth sd v) (hne : v ≠ []) (e : Nat) :
    ∃ sd', commit sd (.fail e) = some (sd', none, true) ∧ sd'.events = v.length ∧ sd'.queued = 0 ∧
      slots sd'.ious v.length = some (v.map fun u => { u with err := e }) := by
  cases v with
  | nil => exact absurd rfl hne
  | cons u0 v' =>
    have hfd := h.fd u0 (List.mem_cons_self ..)
    have hq : sd.queued = (u0 :: v').length := h.q
    refine ⟨{ sd with ious := putBack sd.ious ((u0 :: v').map fun u => { u with err := e }), events := sd.queued, queued := 0 },
      ?_, hq, rfl, ?_⟩
    · unfold commit
      rw [if_neg (by rw [hq]; simp), h.sl, hfd.1]
      rfl
    · have := slots_putBack ((u0 :: v').map fun u => { u with err := e }) sd.ious
      simpa using this

/-- Units never lie outside the arrays, whatever is queued and committed: a unit taken keeps the invariant, so `C80_error`
and `C80_once_partial` speak of all states reached while nothing committed is left behind. -/
theorem C80_queue {depth : Nat} {sd : SD} {v : List U} (h : SdInv depth sd v) (hv : v.length < depth) (u : U)
    (hu : u.dir = .read ∨ u.dir = .write) (hf : u.resid = 0 ∧ u.err = 0) (r : Res) :
    (∃ sd', queue depth sd u r = some (sd', u, .queued) ∧ SdInv depth sd' (v ++ [u])) ∨
    (queue depth sd u r = some (sd, u, .busy) ∧ v ≠ []) := queue_inv h hv u hu hf r

end Fio.Vsync
