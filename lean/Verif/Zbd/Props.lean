import Verif.Zbd.Lemmas
import Verif.Common.Total
/-
C28: the limits on write target zones.  C35: the count of valid data bytes.
-/
namespace Fio.Zbd

/-! ### Specification -/

/-- The zones marked as write targets. -/
def Dev.marked (d : Dev) : List Nat := (List.range d.zones.length).filter d.flag

/-- Before any job runs: nothing is marked and nothing counted. -/
structure Init (s : St) : Prop where
  arr : s.dev.arr.length = maxWriteZones
  max : s.dev.max ≤ maxWriteZones
  num : s.dev.num = 0
  zones : ∀ z ∈ s.dev.zones, z.write = false
  jobs : ∀ j ∈ s.jobs, j.num = 0

/-! ### C28, the part about the device -/

theorem Init.inv {s : St} (h : Init s) : Inv s.dev := by
  refine ⟨h.arr, h.max, by rw [h.num]; omega, by simp [Dev.used, h.num], ?_⟩
  intro i
  simp only [Dev.used, h.num, List.take_zero, List.not_mem_nil, false_iff]
  unfold Dev.flag
  cases hz : s.dev.zones[i]? with
  | none => simp
  | some z => simp [h.zones z (List.mem_of_getElem? hz)]

theorem step_eff {s s' : St} {o : Op} (h : step s o = some s') :
    ∃ j j', s.jobs[o.job]? = some j ∧ s'.jobs = s.jobs.set o.job j' ∧ Eff j s.dev o.zone j' s'.dev := by
  unfold step at h
  split at h
  · cases h
  next j hj =>
  simp only [Option.map_eq_some_iff] at h
  obtain ⟨⟨j', d'⟩, ha, rfl⟩ := h
  exact ⟨j, j', hj, rfl, eff_act ha⟩

theorem run_induct {P : St → Prop} (hstep : ∀ s s' o, P s → step s o = some s' → P s') :
    ∀ (ops : List Op) (s s' : St), P s → run s ops = some s' → P s'
  | [], s, s', h, hr => by cases hr; exact h
  | o :: os, s, s', h, hr => by
    unfold run at hr
    rw [Option.bind_eq_some_iff] at hr
    obtain ⟨s1, h1, h2⟩ := hr
    exact run_induct hstep os s1 s' (hstep _ _ _ h h1) h2

theorem inv_run {s s' : St} {ops : List Op} (hi : Inv s.dev) (hr : run s ops = some s') :
    Inv s'.dev ∧ s'.dev.max = s.dev.max := by
  refine run_induct (P := fun t => Inv t.dev ∧ t.dev.max = s.dev.max) ?_ ops s s' ⟨hi, rfl⟩ hr
  intro a b o h hs
  obtain ⟨j, j', _, _, he⟩ := step_eff hs
  refine ⟨h.1.eff he, ?_⟩
  cases he <;> (rw [← h.2]; assumption)

theorem used_perm {d : Dev} (h : Inv d) : d.used.Perm d.marked := by
  have hn : d.marked.Nodup := List.nodup_range.filter _
  rw [List.perm_ext_iff_of_nodup h.nodup hn]
  intro i
  rw [h.mem i]
  simp only [Dev.marked, List.mem_filter, List.mem_range]
  constructor
  · intro hf
    refine ⟨?_, hf⟩
    apply Classical.byContradiction
    intro hn
    rw [Dev.flag, List.getElem?_eq_none (by omega)] at hf
    cases hf
  · exact And.right

/-- **C28**: after any sequence of steps by any jobs, the used part of the array lists exactly the
marked zones, each once; the recorded number is the number of marked zones; and it does not exceed
the limit. -/
theorem C28 {s s' : St} {ops : List Op} (hi : Init s) (hr : run s ops = some s') :
    (s'.dev.arr.take s'.dev.num).Perm s'.dev.marked ∧ (s'.dev.arr.take s'.dev.num).Nodup ∧
    s'.dev.num = s'.dev.marked.length ∧ s'.dev.num ≤ s.dev.max := by
  obtain ⟨h, hm⟩ := inv_run hi.inv hr
  refine ⟨used_perm h, h.nodup, ?_, hm ▸ h.num⟩
  rw [← (used_perm h).length_eq]
  simp only [Dev.used, List.length_take, h.len]
  exact (Nat.min_eq_left (Nat.le_trans h.num h.max)).symm

/-- **C28**, obtaining a zone never stores behind the array. -/
theorem C28_defined {s s' : St} {ops : List Op} (hi : Init s) (hr : run s ops = some s')
    (j : Job) (z : Nat) (hz : z < s'.dev.zones.length) : getIn j s'.dev z ≠ none := by
  obtain ⟨h, hm⟩ := inv_run hi.inv hr
  unfold getIn
  rw [List.getElem?_eq_getElem hz]
  simp only
  repeat' split
  all_goals first | (simp; done) | skip
  unfold add
  rw [if_pos (by have := h.max; have := h.len; omega)]
  simp

/-- **C28**, what obtaining a zone promises when zones are tracked: after success the zone is
marked, after a refusal nothing changes. -/
theorem C28_get {s s' : St} {ops : List Op} (hi : Init s) (hr : run s ops = some s')
    (j j' : Job) (z : Nat) (d' : Dev) (hmax : s.dev.max ≠ 0) :
    (getIn j s'.dev z = some (true, j', d') → z ∈ d'.marked) ∧
    (getIn j s'.dev z = some (false, j', d') → j' = j ∧ d' = s'.dev) := by
  obtain ⟨h, hm⟩ := inv_run hi.inv hr
  constructor
  · intro hg
    have he := eff_getIn hg
    have hi' := h.eff he
    rw [← (used_perm hi').mem_iff, hi'.mem]
    unfold getIn at hg
    split at hg
    · cases hg
    next zn hz =>
    split at hg
    · cases hg
    split at hg
    · cases hg
    split at hg
    · next h0 => omega
    split at hg
    · next hw =>
      simp only [Option.some.injEq, Prod.mk.injEq] at hg
      rw [← hg.2.2, flag_eq hz]; exact hw
    split at hg
    · cases hg
    split at hg
    · cases hg
    unfold add at hg
    split at hg
    · cases hg
      unfold Dev.flag
      simp only
      rw [flag_set hz]
      simp
    · cases hg
  · intro hg
    unfold getIn at hg
    split at hg
    · cases hg
    repeat' split at hg
    all_goals first
      | (simp only [Option.some.injEq, Prod.mk.injEq] at hg; exact ⟨hg.2.1.symm, hg.2.2.symm⟩)
      | skip
    unfold add at hg
    split at hg <;> cases hg

/-- **C28**, the counters of all jobs add up to the number of write target zones, modulo 2^32. -/
theorem C28_sum {s s' : St} {ops : List Op} (hi : Init s) (hr : run s ops = some s') :
    total (fun j => j.num.toNat) s'.jobs % 2 ^ 32 = s'.dev.num := by
  have hsum := run_induct
    (P := fun t => Inv t.dev ∧ (total (fun j => j.num.toNat) t.jobs : Nat) % 2 ^ 32 = t.dev.num)
    ?_ ops s s' ⟨hi.inv, ?_⟩ hr
  · exact hsum.2
  · intro a b o h hs
    obtain ⟨j, j', hj, hjs, he⟩ := step_eff hs
    refine ⟨h.1.eff he, ?_⟩
    have ht := total_set (fun j : Job => j.num.toNat) a.jobs o.job j j' hj
    rw [← hjs] at ht
    have h2 := h.2
    have hb := h.1.num
    have hb2 := h.1.max
    unfold maxWriteZones at hb2
    have one : (1 : BitVec 32).toNat = 1 := rfl
    cases he with
    | same _ hm hn => rw [hn]; omega
    | add _ hm h0 hz hl hj' hlt hal hn =>
      rw [hn]
      simp only [BitVec.toNat_add, one] at ht
      have := j.num.isLt
      omega
    | del _ hm h0 zi hzi hl hi' hn =>
      rw [hn]
      simp only [BitVec.toNat_sub, one] at ht
      have := j.num.isLt
      omega
  · rw [total_zero (fun t ht => by simp [hi.jobs t ht]), hi.num]
    rfl

/-! ### C28, the part about the jobs -/

/-- Who obtained each zone last. -/
def noteOwner (s : St) (ow : Nat → Nat) (o : Op) (s' : St) : Nat → Nat :=
  if s.dev.flag o.zone = false ∧ s'.dev.flag o.zone = true then
    fun k => if k = o.zone then o.job else ow k
  else ow

/-- Every zone is released by the job that obtained it. -/
def disciplined (s : St) (ow : Nat → Nat) : List Op → Bool
  | [] => true
  | o :: os => match step s o with
    | none => true
    | some s' =>
      (!(s.dev.flag o.zone && !s'.dev.flag o.zone) || ow o.zone == o.job) &&
      disciplined s' (noteOwner s ow o s') os

/-- Who obtained each zone after the steps. -/
def owners (s : St) (ow : Nat → Nat) : List Op → Nat → Nat
  | [] => ow
  | o :: os => match step s o with
    | none => ow
    | some s' => owners s' (noteOwner s ow o s') os

/-- The number of write target zones that job `j` obtained. -/
def holds (s : St) (ow : Nat → Nat) (j : Nat) : Nat :=
  s.dev.marked.countP fun z => decide (ow z = j)

structure JInv (s : St) (ow : Nat → Nat) : Prop where
  inv : Inv s.dev
  num : ∀ (k : Nat) (j : Job), s.jobs[k]? = some j →
    j.num.toNat = s.dev.used.countP (fun z => decide (ow z = k)) ∧
    (j.jobMax > 0 → j.num ≤ j.jobMax)

theorem countP_erase_mem {l : List Nat} {p : Nat → Bool} {i : Nat} (h : i ∈ l) :
    (l.erase i).countP p + (if p i then 1 else 0) = l.countP p := by
  have := (List.perm_cons_erase h).countP_eq p
  rw [this, List.countP_cons]

theorem JInv.step {s s' : St} {ow : Nat → Nat} {o : Op} (h : JInv s ow) (hs : step s o = some s')
    (hd : s.dev.flag o.zone = true ∧ s'.dev.flag o.zone = false → ow o.zone = o.job) :
    JInv s' (noteOwner s ow o s') := by
  obtain ⟨j, j', hj, hjs, he⟩ := step_eff hs
  refine ⟨h.inv.eff he, ?_⟩
  intro k t hk
  have hjlt : o.job < s.jobs.length := by
    rw [List.getElem?_eq_some_iff] at hj; exact hj.1
  rw [hjs, List.getElem?_set] at hk
  have hno := (h.num o.job j hj)
  have hlen : ∀ p, s.dev.used.countP p ≤ maxWriteZones := fun p => by
    have := s.dev.used.countP_le_length (p := p)
    have h1 := h.inv.num
    have h2 := h.inv.max
    have : s.dev.used.length ≤ s.dev.num := by simp [Dev.used]
    omega
  cases he with
  | same _ hm hn ha hl hf =>
    have hu : s'.dev.used = s.dev.used := by simp [Dev.used, hn, ha]
    have hno : noteOwner s ow o s' = ow := by
      unfold noteOwner
      rw [if_neg]
      rw [hf]; grind
    rw [hno, hu]
    by_cases hko : o.job = k
    · subst hko
      simp only [if_true, if_pos hjlt, Option.some.injEq] at hk
      subst hk; exact h.num _ _ hj
    · rw [if_neg hko] at hk; exact h.num _ _ hk
  | add _ hm h0 hz hl hj' hlt hal hn ha hf =>
    have hu := used_add hal hn ha
    have hno' : noteOwner s ow o s' = fun k => if k = o.zone then o.job else ow k := by
      unfold noteOwner
      rw [if_pos]
      exact ⟨h0, by rw [hf]; simp⟩
    have hcnt : s'.dev.used.countP (fun z => decide ((if z = o.zone then o.job else ow z) = k)) =
        s.dev.used.countP (fun z => decide (ow z = k)) + if o.job = k then 1 else 0 := by
      rw [hu, List.countP_append]
      congr 1
      · apply List.countP_congr
        intro z hz
        have : z ≠ o.zone := by
          rintro rfl
          have := (h.inv.mem _).mp hz
          rw [h0] at this; cases this
        simp [this]
      · simp only [List.countP_cons, List.countP_nil, if_true, Nat.zero_add, decide_eq_true_eq]
    rw [hno', hcnt]
    by_cases hko : o.job = k
    · subst hko
      simp only [if_true, if_pos hjlt, Option.some.injEq] at hk
      subst hk
      simp only [if_true]
      have hle := hlen (fun z => decide (ow z = o.job))
      rw [← hno.1] at hle
      unfold maxWriteZones at hle
      constructor
      · rw [← hno.1, BitVec.toNat_add]; simp; omega
      · intro hpos
        have := hno.2 hpos
        have h1 : j.num < j.jobMax := by
          apply Classical.byContradiction
          intro hc
          exact hj' ⟨hpos, BitVec.not_lt.mp hc⟩
        rw [BitVec.le_def, BitVec.toNat_add]
        rw [BitVec.lt_def] at h1
        simp; omega
    · rw [if_neg hko] at hk ⊢; exact h.num _ _ hk
  | del _ hm h0 zi hzi hl hi hn ha hf =>
    have hu := used_del' h.inv hzi hi hn ha
    have hfl : s'.dev.flag o.zone = false := by rw [hf]; simp
    have how := hd ⟨h0, hfl⟩
    have hno' : noteOwner s ow o s' = ow := by
      unfold noteOwner
      rw [if_neg]
      rw [h0]; simp
    have hmem : o.zone ∈ s.dev.used := (h.inv.mem _).mpr h0
    have hcnt := countP_erase_mem (p := fun z => decide (ow z = k)) hmem
    rw [← hu] at hcnt
    rw [hno']
    by_cases hko : o.job = k
    · subst hko
      simp only [if_true, if_pos hjlt, Option.some.injEq] at hk
      subst hk
      simp only [how, decide_true, if_true] at hcnt
      have hle := hlen (fun z => decide (ow z = o.job))
      rw [← hno.1] at hle hcnt
      unfold maxWriteZones at hle
      have hsub : (j.num - 1#32).toNat = j.num.toNat - 1 := by
        rw [BitVec.toNat_sub]; simp; omega
      constructor
      · simp only; rw [show (1 : BitVec 32) = 1#32 from rfl, hsub]; omega
      · intro hpos
        have := hno.2 hpos
        rw [BitVec.le_def] at this ⊢
        simp only; rw [show (1 : BitVec 32) = 1#32 from rfl, hsub]; omega
    · have : decide (ow o.zone = k) = false := by rw [how]; simpa using hko
      rw [this] at hcnt
      simp only [Bool.false_eq_true, if_false, Nat.add_zero] at hcnt
      rw [if_neg hko] at hk
      rw [hcnt]
      exact h.num _ _ hk

theorem jinv_run : ∀ (ops : List Op) (s s' : St) (ow : Nat → Nat), JInv s ow →
    disciplined s ow ops = true → run s ops = some s' → JInv s' (owners s ow ops)
  | [], s, s', ow, h, _, hr => by cases hr; exact h
  | o :: os, s, s', ow, h, hd, hr => by
    unfold run at hr
    rw [Option.bind_eq_some_iff] at hr
    obtain ⟨s1, h1, h2⟩ := hr
    simp only [disciplined, h1, Bool.and_eq_true] at hd
    obtain ⟨hd1, hd2⟩ := hd
    replace hd1 : s.dev.flag o.zone = true ∧ s1.dev.flag o.zone = false → ow o.zone = o.job := by
      intro h; simpa [h.1, h.2] using hd1
    have := jinv_run os s1 s' _ (h.step h1 hd1) hd2 h2
    simp only [owners, h1]
    exact this

/-- **C28** for jobs: if every zone is released by the job that obtained it, a job's counter is the
number of write target zones it obtained, and that does not exceed job_max_open_zones. -/
theorem C28_job {s s' : St} {ops : List Op} {ow : Nat → Nat} (hi : Init s)
    (hd : disciplined s ow ops = true) (hr : run s ops = some s') (k : Nat) (j : Job)
    (hj : s'.jobs[k]? = some j) :
    j.num.toNat = holds s' (owners s ow ops) k ∧
    (j.jobMax ≠ 0 → holds s' (owners s ow ops) k ≤ j.jobMax.toNat) := by
  have h0 : JInv s ow := by
    refine ⟨hi.inv, ?_⟩
    intro k t hk
    have hn := hi.jobs t (List.mem_of_getElem? hk)
    rw [hn]
    constructor
    · simp [Dev.used, hi.num]
    · intro _; rw [BitVec.le_def]; simp
  have h := jinv_run ops s s' ow h0 hd hr
  obtain ⟨h1, h2⟩ := h.num k j hj
  have he : holds s' (owners s ow ops) k = j.num.toNat := by
    rw [h1, holds, (used_perm h.inv).countP_eq]
  refine ⟨he.symm, ?_⟩
  intro hne
  rw [he, ← BitVec.le_def]
  exact h2 (by
    rw [gt_iff_lt, BitVec.lt_def]
    have : j.jobMax.toNat ≠ 0 := fun h0 => hne (BitVec.eq_of_toNat_eq (by simpa using h0))
    simp; omega)

/-! ### Concrete cases -/

/-- Three zones of 1 MiB with 768 KiB capacity. -/
def exDev : Dev :=
  { max := 3, num := 0, arr := List.replicate maxWriteZones 0, vdb := 0,
    zones := [⟨0, 0, 786432, true, false, false⟩, ⟨1048576, 1048576, 786432, true, false, false⟩,
      ⟨2097152, 2097152, 786432, true, false, false⟩, ⟨3145728, 0, 0, false, false, false⟩] }

/-- A job that may have one open zone. -/
def exJob : Job := { num := 0, jobMax := 1, verify := false, wzr := false, minBs := 4096, acct := true }

def exSt : St := { dev := exDev, jobs := [exJob, exJob] }

theorem exSt_init : Init exSt :=
  ⟨List.length_replicate, by decide, rfl, by decide, by decide⟩

/-- Each job fills a zone and goes on to the next; the second job is refused once. -/
def exOps : List Op :=
  [.get 0 0, .queued 0 0 0 786432, .get 1 1, .get 1 2, .endIo 0 0 0 786432, .get 0 2,
   .queued 0 2 2097152 4096, .endIo 0 2 2097152 4096]

/-- The hypotheses of `C28` and of its companions are met by a run that obtains three zones and
releases one. -/
example : Init exSt ∧ ((run exSt exOps).any fun s => s.dev.used = [1, 2] ∧ s.dev.marked = [1, 2] ∧
    s.jobs.map Job.num = [1, 1]) = true := ⟨exSt_init, by decide +kernel⟩

/-- The hypotheses of `C28_job` are met by that run. -/
example : disciplined exSt (fun _ => 0) exOps = true := by decide +kernel

/-- **C28** is false for jobs in general.  Job 1 obtains zone 1, its only one allowed, then fills
zone 0, which job 0 had obtained.  Filling the zone releases it, and zbd_write_zone_put lowers the
counter of job 1 instead of that of job 0, so that job 1 may obtain zone 2 while it still has
zone 1. -/
theorem C28_job_counterexample : ∃ (s s' : St) (ops : List Op) (k : Nat) (j : Job), Init s ∧
    run s ops = some s' ∧ s'.jobs[k]? = some j ∧ j.jobMax ≠ 0 ∧
    j.jobMax.toNat < holds s' (owners s (fun _ => 0) ops) k := by
  have h : ((run exSt [.get 0 0, .get 1 1, .get 1 0, .queued 1 0 0 786432, .endIo 1 0 0 786432,
      .get 1 2]).any fun s' => (s'.jobs[1]?).any fun j => j.jobMax ≠ 0 ∧
      j.jobMax.toNat < holds s' (owners exSt (fun _ => 0) [.get 0 0, .get 1 1, .get 1 0,
        .queued 1 0 0 786432, .endIo 1 0 0 786432, .get 1 2]) 1) = true := by decide +kernel
  rw [Option.any_eq_true] at h
  obtain ⟨s', hr, h⟩ := h
  rw [Option.any_eq_true] at h
  obtain ⟨j, hj, h⟩ := h
  simp only [decide_eq_true_eq] at h
  exact ⟨exSt, s', _, 1, j, exSt_init, hr, hj, h.1, h.2⟩

/-- **C28**, the counter of a job may wrap below zero; the job is then refused any zone. -/
theorem C28_job_wraps : ∃ (s s' : St) (ops : List Op) (j : Job), Init s ∧ run s ops = some s' ∧
    s'.jobs[1]? = some j ∧ j.num = -1 ∧
    ∀ z ∈ List.range 3, (getIn j s'.dev z).map (·.1) = some false := by
  have h : ((run exSt [.get 0 0, .get 1 0, .queued 1 0 0 786432, .endIo 1 0 0 786432]).any
      fun s' => (s'.jobs[1]?).any fun j => j.num = -1 ∧
        ∀ z ∈ List.range 3, (getIn j s'.dev z).map (·.1) = some false) = true := by
    decide +kernel
  rw [Option.any_eq_true] at h
  obtain ⟨s', hr, h⟩ := h
  rw [Option.any_eq_true] at h
  obtain ⟨j, hj, h⟩ := h
  simp only [decide_eq_true_eq] at h
  exact ⟨exSt, s', _, j, exSt_init, hr, hj, h.1, h.2⟩

/-! ### C35 -/

/-- The data in a zone, as zbd_verify_and_set_vdb counts it. -/
def Zone.data (z : Zone) : Nat := if z.hasWp then z.wp - z.start else 0

/-- The data in the zones `lo .. hi`. -/
def Dev.data (d : Dev) (lo hi : Nat) : Nat := total Zone.data ((d.zones.take hi).drop lo)

/-- Every step is by a job that accounts for its writes, on a sequential zone in the range; zones are
neither finished nor repaired after a write error; and no write moves the write pointer back. -/
def accounted (lo hi : Nat) (s : St) : List Op → Bool
  | [] => true
  | o :: os =>
    (s.jobs[o.job]?).any Job.acct && decide (lo ≤ o.zone ∧ o.zone < hi) &&
    (s.dev.zones[o.zone]?).any (fun z => z.hasWp && decide (z.start ≤ z.wp) && match o with
      | .queued _ _ off len => decide (z.wp ≤ off + len ∧ z.wp ≤ z.capEnd)
      | .finish .. | .recover .. => false
      | _ => true) &&
    match step s o with
    | none => true
    | some s' => accounted lo hi s' os

theorem data_set {d : Dev} {lo hi i : Nat} {z : Zone} (hz : d.zones[i]? = some z) (hlo : lo ≤ i)
    (hhi : i < hi) (z' : Zone) :
    total Zone.data (((d.zones.set i z').take hi).drop lo) + z.data = d.data lo hi + z'.data := by
  have : ((d.zones.take hi).drop lo)[i - lo]? = some z := by
    rw [List.getElem?_drop, show lo + (i - lo) = i by omega, List.getElem?_take_of_lt hhi, hz]
  rw [List.take_set, List.drop_set, if_neg (by omega)]
  exact total_set Zone.data _ _ _ _ this

theorem Dev.data_congr {d d' : Dev} (h : d'.zones = d.zones) (lo hi : Nat) :
    d'.data lo hi = d.data lo hi := by simp [Dev.data, h]

theorem put_data {j : Job} {d : Dev} {i lo hi : Nat} {r : Job × Dev} (h : put j d i = some r)
    (hlo : lo ≤ i) (hhi : i < hi) :
    r.2.data lo hi = d.data lo hi ∧ r.2.vdb = d.vdb ∧ r.1.acct = j.acct := by
  unfold put at h
  split at h
  · cases h
  next z hz =>
  split at h
  · cases h; exact ⟨rfl, rfl, rfl⟩
  simp only at h
  split at h
  · cases h; exact ⟨rfl, rfl, rfl⟩
  cases h
  refine ⟨?_, rfl, rfl⟩
  have := data_set hz hlo hhi { z with write := false }
  simp only [Zone.data] at this
  simp only [Dev.data] at this ⊢
  omega

theorem getIn_data {j : Job} {d : Dev} {i lo hi : Nat} {r : Bool × Job × Dev}
    (h : getIn j d i = some r) (hlo : lo ≤ i) (hhi : i < hi) :
    r.2.2.data lo hi = d.data lo hi ∧ r.2.2.vdb = d.vdb ∧ r.2.1.acct = j.acct := by
  unfold getIn at h
  split at h
  · cases h
  next z hz =>
  repeat' split at h
  all_goals first
    | (simp only [Option.some.injEq] at h; subst h; exact ⟨rfl, rfl, rfl⟩)
    | skip
  unfold add at h
  split at h
  · cases h
    refine ⟨?_, rfl, rfl⟩
    have := data_set hz hlo hhi { z with write := true }
    simp only [Zone.data] at this
    simp only [Dev.data] at this ⊢
    omega
  · cases h

theorem get_data {j : Job} {d : Dev} {i lo hi : Nat} {r : Bool × Job × Dev}
    (h : get j d i = some r) (hlo : lo ≤ i) (hhi : i < hi) :
    r.2.2.data lo hi = d.data lo hi ∧ r.2.2.vdb = d.vdb ∧ r.2.1.acct = j.acct := by
  unfold get at h
  split at h
  · cases h
  split at h
  · split at h
    · cases h
    · cases h; exact ⟨rfl, rfl, rfl⟩
    · exact getIn_data h hlo hhi
  · exact getIn_data h hlo hhi

/-- **C35**: if all jobs that write to the zones set zone_reset_threshold, no zone is finished or
repaired and no write moves a write pointer back, then after any sequence of steps
`wp_valid_data_bytes` is the amount of data in the zones (modulo 2^64). -/
theorem C35_partial (lo hi : Nat) : ∀ (ops : List Op) (s s' : St),
    s.dev.vdb = BitVec.ofNat 64 (s.dev.data lo hi) → accounted lo hi s ops = true →
    run s ops = some s' → s'.dev.vdb = BitVec.ofNat 64 (s'.dev.data lo hi)
  | [], s, s', h, _, hr => by cases hr; exact h
  | o :: os, s, s', h, ha, hr => by
    unfold run at hr
    rw [Option.bind_eq_some_iff] at hr
    obtain ⟨s1, h1, h2⟩ := hr
    unfold accounted at ha
    rw [h1] at ha
    simp only [Bool.and_eq_true, decide_eq_true_eq] at ha
    obtain ⟨⟨⟨hjob, hlo, hhi⟩, hzone⟩, hrest⟩ := ha
    refine C35_partial lo hi os s1 s' ?_ hrest h2
    rw [Option.any_eq_true] at hjob hzone
    obtain ⟨j, hj, hacct⟩ := hjob
    obtain ⟨z, hz, hzone⟩ := hzone
    simp only [Bool.and_eq_true, decide_eq_true_eq] at hzone
    obtain ⟨⟨hwp, hsw⟩, hop⟩ := hzone
    unfold step at h1
    rw [hj] at h1
    simp only [Option.map_eq_some_iff] at h1
    obtain ⟨⟨j', d'⟩, hact, rfl⟩ := h1
    simp only
    have same : d'.data lo hi = s.dev.data lo hi ∧ d'.vdb = s.dev.vdb ∧ j'.acct = j.acct →
        d'.vdb = BitVec.ofNat 64 (d'.data lo hi) := fun hs => by rw [hs.1, hs.2.1, h]
    cases o with
    | getIn a i =>
      simp only [act, Option.map_eq_some_iff, Prod.mk.injEq] at hact
      obtain ⟨r, hr, rfl, rfl⟩ := hact
      exact same (getIn_data hr hlo hhi)
    | get a i =>
      simp only [act, Option.map_eq_some_iff, Prod.mk.injEq] at hact
      obtain ⟨r, hr, rfl, rfl⟩ := hact
      exact same (get_data hr hlo hhi)
    | put a i => exact same (put_data hact hlo hhi)
    | endIo a i off len =>
      simp only [act] at hact
      unfold endIo at hact
      split at hact
      · cases hact
      split at hact
      · exact same (put_data hact hlo hhi)
      · cases hact; exact same ⟨rfl, rfl, rfl⟩
    | finish a i => cases hop
    | recover a i wp => cases hop
    | resetWp a i =>
      simp only [act, Option.map_eq_some_iff, Prod.mk.injEq] at hact
      obtain ⟨r, hr, rfl, rfl⟩ := hact
      unfold resetWp at hr
      simp only [Op.zone] at hz hlo hhi
      rw [hz] at hr
      simp only at hr
      split at hr
      · cases hr; exact h
      cases hr
      have := data_set hz hlo hhi { z with wp := z.start }
      simp only [Zone.data, hwp, if_true, Nat.sub_self, Nat.add_zero] at this
      simp only [hwp, Dev.data] at this h ⊢
      rw [h, ← this, BitVec.ofNat_add, BitVec.add_sub_cancel]
    | queued a i off len =>
      simp only [act, Option.map_eq_some_iff, Prod.mk.injEq] at hact
      obtain ⟨r, hr, rfl, rfl⟩ := hact
      unfold queued at hr
      simp only [Op.zone] at hz hlo hhi
      rw [hz] at hr
      simp only at hr hop
      rw [decide_eq_true_eq] at hop
      have hle : z.wp ≤ Nat.min (off + len) z.capEnd := Nat.le_min.mpr hop
      cases hr
      have := data_set hz hlo hhi { z with wp := Nat.min (off + len) z.capEnd }
      simp only [Zone.data, hwp, if_true] at this
      simp only [hacct, hwp, if_true, Dev.data, hle, and_self] at this h ⊢
      rw [h, ← BitVec.ofNat_add]
      congr 1
      omega

/-- The hypotheses of `C35_partial` are met by a run with two jobs that writes, fills and resets. -/
example : exSt.dev.vdb = BitVec.ofNat 64 (exSt.dev.data 0 3) ∧
    accounted 0 3 exSt (exOps ++ [.resetWp 0 0, .put 0 0]) = true ∧
    ((run exSt (exOps ++ [.resetWp 0 0, .put 0 0])).any fun s => s.dev.vdb = 4096) = true := by
  decide +kernel

/-- **C35** is false in general: finishing a zone moves its write pointer to the end of the zone
without counting, and the reset that follows subtracts the whole zone; the count wraps to almost
2^64 although there is no data.  (A write leaves less than a block in the zone; then
zbd_convert_to_write_zone releases and finishes the zone, and it is reset when a later write
chooses it.) -/
theorem C35_counterexample : ∃ (s s' : St) (ops : List Op), Init s ∧
    (∀ j ∈ s.jobs, j.acct = true) ∧
    s.dev.vdb = BitVec.ofNat 64 (s.dev.data 0 3) ∧ run s ops = some s' ∧
    s'.dev.data 0 3 = 0 ∧ s'.dev.vdb.toNat ≥ 2 ^ 63 := by
  have h : ((run exSt [.get 0 0, .queued 0 0 0 784384, .endIo 0 0 0 784384, .put 0 0, .finish 0 0,
      .get 0 0, .resetWp 0 0]).any
      fun s' => s'.dev.data 0 3 = 0 ∧ s'.dev.vdb.toNat ≥ 2 ^ 63) = true := by decide +kernel
  rw [Option.any_eq_true] at h
  obtain ⟨s', hr, h⟩ := h
  simp only [decide_eq_true_eq] at h
  exact ⟨exSt, s', _, exSt_init, by decide, by decide +kernel, hr, h.1, h.2⟩

/-- **C35** is false as well if one of the jobs does not set zone_reset_threshold: the accounting
job subtracts what the other one wrote. -/
theorem C35_counterexample_jobs : ∃ (s s' : St) (ops : List Op), Init s ∧
    s.dev.vdb = BitVec.ofNat 64 (s.dev.data 0 3) ∧ run s ops = some s' ∧
    (∀ o ∈ ops, ∀ j z, o ≠ .finish j z) ∧
    s'.dev.data 0 3 = 0 ∧ s'.dev.vdb.toNat ≥ 2 ^ 63 := by
  have h : ((run { exSt with jobs := [exJob, { exJob with acct := false }] }
      [.get 1 0, .queued 1 0 0 4096, .endIo 1 0 0 4096, .resetWp 0 0, .put 0 0]).any
      fun s' => s'.dev.data 0 3 = 0 ∧ s'.dev.vdb.toNat ≥ 2 ^ 63) = true := by decide +kernel
  rw [Option.any_eq_true] at h
  obtain ⟨s', hr, h⟩ := h
  simp only [decide_eq_true_eq] at h
  refine ⟨_, s', _, ⟨List.length_replicate, by decide, rfl, by decide, by decide⟩,
    by decide +kernel, hr, ?_, h.1, h.2⟩
  intro o ho j z
  simp only [List.mem_cons, List.not_mem_nil, or_false] at ho
  rcases ho with rfl | rfl | rfl | rfl | rfl <;> simp

end Fio.Zbd
