import Verif.Rate.Spec
import Mathlib.Tactic.Ring
import Mathlib.Tactic.Linarith
/-
C55: rate limits.
-/
namespace Fio.Rate

@[simp] theorem upd_same (f : Dir → Nat) (d : Dir) (x : Nat) : upd f d x d = x := by simp [upd]
theorem upd_ne (f : Dir → Nat) {d e : Dir} (x : Nat) (h : e ≠ d) : upd f d x e = f e := by simp [upd, h]

theorem bps_eq {o : Opts} {d : Dir} (h : perSec o d < 2 ^ 64) : o.bps d = perSec o d := by
  unfold Opts.bps perSec at *
  by_cases hr : o.rate d = 0
  · simp only [hr, ne_eq, not_true, if_false, if_true] at *
    exact Nat.mod_eq_of_lt h
  · simp only [hr, ne_eq, not_false_iff, if_true, if_false]

theorem charge_bytes (s : St) (d : Dir) (len : Nat) (busy : Bool) (T : Int)
    (h : (s.bytes d : Int) = T % 2 ^ 64) :
    ((charge s d len busy).bytes d : Int) = (((if busy then 0 else len : Nat) : Int) + T) % 2 ^ 64 := by
  unfold charge
  cases busy <;> simp <;> omega

theorem charge_other (s : St) {d e : Dir} (len : Nat) (busy : Bool) (h : e ≠ d) :
    (charge s d len busy).bytes e = s.bytes e := by
  unfold charge
  cases busy <;> simp [upd_ne _ _ h]

@[simp] theorem charge_next (s : St) (d : Dir) (len : Nat) (busy : Bool) :
    (charge s d len busy).next = s.next := by
  unfold charge; cases busy <;> rfl
@[simp] theorem charge_now (s : St) (d : Dir) (len : Nat) (busy : Bool) :
    (charge s d len busy).now = s.now := by
  unfold charge; cases busy <;> rfl
@[simp] theorem charge_lastU (s : St) (d : Dir) (len : Nat) (busy : Bool) :
    (charge s d len busy).lastU = s.lastU := by
  unfold charge; cases busy <;> rfl

/-- The value for a plain byte rate. -/
theorem usec_linear {o : Opts} {s : St} {d : Dir} {val : Nat} (hl : Linear o d) (hb : 0 < perSec o d)
    (hm : 1000000 * perSec o d ≤ 2 ^ 64) :
    usecForIo o s d val = some (1000000 * s.bytes d / perSec o d, s.lastU d) := by
  have e := bps_eq (o := o) (d := d) (by omega)
  unfold usecForIo
  simp only [hl.1, Bool.false_eq_true, if_false, e]
  rw [if_neg (by omega), if_neg hl.2]
  generalize perSec o d = p at *
  congr 2
  have h1 : s.bytes d % p < p := Nat.mod_lt _ hb
  have h2 : s.bytes d % p * 1000000 % 2 ^ 64 = 1000000 * (s.bytes d % p) := by
    rw [Nat.mod_eq_of_lt (by omega)]; omega
  rw [h2]
  have h3 : 1000000 * s.bytes d = 1000000 * (s.bytes d % p) + (1000000 * (s.bytes d / p)) * p := by
    conv_lhs => rw [← Nat.mod_add_div (s.bytes d) p]
    ring
  rw [h3, Nat.add_mul_div_right _ _ hb]
  omega

/-- The invariant of a run for direction `d`. -/
structure Inv (o : Opts) (d : Dir) (st : St × List Ev) : Prop where
  bytes : (st.1.bytes d : Int) = total d st.2 % 2 ^ 64
  next : Linear o d → 0 < perSec o d → 1000000 * perSec o d ≤ 2 ^ 64 →
    (st.1.next d : Int) = 1000000 * (seen d st.2 % 2 ^ 64) / perSec o d

theorem inv_init (o : Opts) (d : Dir) : Inv o d (init, []) :=
  ⟨rfl, fun _ _ _ => by simp [init, seen]⟩

/-- Passing of time. -/
theorem inv_now {o : Opts} {d : Dir} {s : St} {l : List Ev} (h : Inv o d (s, l)) (t : Nat) :
    Inv o d ({ s with now := t }, l) := ⟨h.bytes, h.next⟩

theorem inv_issue {o : Opts} {d e : Dir} {s s' : St} {l : List Ev} {len t val : Nat} {busy c : Bool}
    (h : Inv o d (s, l)) (hi : issue o s e len busy val = some s') :
    Inv o d (s', .issue e (if busy then 0 else len) t c :: l) := by
  unfold issue at hi
  simp only at hi
  split at hi
  · cases hi
  · rename_i t' u hu
    obtain rfl := Option.some.inj hi
    by_cases hd : e = d
    · subst hd
      have hb := charge_bytes s e len busy _ h.bytes
      refine ⟨by simp only [total, if_pos]; exact hb, ?_⟩
      intro hl hp hm
      have := usec_linear (s := charge s e len busy) (val := val) hl hp hm
      rw [this] at hu
      obtain ⟨rfl, _⟩ := Prod.mk.inj (Option.some.inj hu)
      simp only [upd_same, seen, if_pos, total]
      push_cast
      rw [hb]
      push_cast
      rfl
    · have hd' : d ≠ e := fun x => hd x.symm
      refine ⟨?_, ?_⟩
      · simp only [total, if_neg hd, charge_other s len busy hd', zero_add]
        exact h.bytes
      · intro hl hp hm
        simp only [upd_ne _ _ hd', seen, if_neg hd, charge_next]
        exact h.next hl hp hm

theorem rateDdir_keeps (o : Opts) (s : St) (d : Dir) (e : Env) :
    ∃ t, (rateDdir o s d e).1 = { s with now := t } := by
  unfold rateDdir
  split
  · exact ⟨s.now, rfl⟩
  · exact ⟨s.now, rfl⟩
  · split
    · exact ⟨s.now, rfl⟩
    · dsimp only
      split
      · exact ⟨_, rfl⟩
      · exact ⟨_, rfl⟩

theorem inv_step {o : Opts} {d : Dir} {st st' : St × List Ev} {op : Op} (h : Inv o d st)
    (hs : step o st op = some st') : Inv o d st' := by
  obtain ⟨s, l⟩ := st
  cases op with
  | tick n => obtain rfl := Option.some.inj hs; exact inv_now h _
  | reset => obtain rfl := Option.some.inj hs; exact inv_init o d
  | io d0 e tw len busy val =>
    obtain ⟨t, ht⟩ := rateDdir_keeps o s d0 e
    cases hg : rateDdir o s d0 e with | mk s1 g =>
    simp only [step, hg] at hs
    have h1 : Inv o d (s1, l) := by
      rw [hg] at ht; simp only at ht; rw [ht]; exact inv_now h t
    split at hs
    · obtain rfl := Option.some.inj hs; exact h1
    · split at hs
      · cases hs
      · rename_i s2 hi
        obtain rfl := Option.some.inj hs
        exact inv_issue h1 hi
  | again e len busy val =>
    simp only [step] at hs
    split at hs
    · cases hs
    · rename_i s2 hi
      obtain rfl := Option.some.inj hs
      exact inv_issue h hi
  | verify len =>
    obtain rfl := Option.some.inj hs
    by_cases hd : Dir.read = d
    · subst hd
      have := charge_bytes s .read len false _ h.bytes
      refine ⟨?_, fun a b c => ?_⟩
      · simpa [total] using this
      · simpa [seen] using h.next a b c
    · have hd' : d ≠ Dir.read := fun x => hd x.symm
      refine ⟨?_, fun a b c => ?_⟩
      · simpa [total, hd, charge_other s len false hd'] using h.bytes
      · simpa [seen] using h.next a b c
  | think e n =>
    simp only [step] at hs
    unfold think at hs
    simp only at hs
    by_cases hc : n ≠ 0 ∧ o.bps e ≠ 0 ∧ o.ignThink = true
    · rw [if_pos hc] at hs
      simp only at hs
      obtain rfl := Option.some.inj hs
      refine ⟨?_, fun a b c => by simpa [seen] using h.next a b c⟩
      have hb := h.bytes
      by_cases hd : e = d
      · subst hd
        simp only [total, if_pos, upd_same] at hb ⊢
        generalize (if o.minBs e * 1000000 % 2 ^ 64 / o.bps e ≤ n then o.minBs e else _) = ov
        generalize o.bps e * n % 2 ^ 64 / 1000000 = ms
        omega
      · have hd' : d ≠ e := fun x => hd x.symm
        simp only [total, if_neg hd, upd_ne _ _ hd', zero_add]
        exact hb
    · rw [if_neg hc] at hs
      simp only at hs
      obtain rfl := Option.some.inj hs
      refine ⟨?_, fun a b c => by simpa [seen] using h.next a b c⟩
      have hb := h.bytes
      simpa [total] using hb

/-- When an I/O may go: its time has come, or the run time is just over. -/
theorem rateDdir_ready {o : Opts} {s s' : St} {d d' : Dir} {e : Env}
    (hp : e.cut = none ∨ e.term = true) (h : rateDdir o s d e = (s', .dir d')) :
    s.next d' ≤ s'.now ∨ (o.timeout ≠ 0 ∧ s'.now = o.timeout) := by
  unfold rateDdir at h
  have hplan : ∀ u x, plan o s d = some (u, x) → s.next x ≤ s.now + u := by
    intro u x hx
    unfold plan at hx
    split at hx
    · cases hx
    split at hx
    · split at hx
      · obtain ⟨rfl, rfl⟩ := Prod.mk.inj (Option.some.inj hx); omega
      split at hx
      · obtain ⟨rfl, rfl⟩ := Prod.mk.inj (Option.some.inj hx); omega
      · obtain ⟨rfl, rfl⟩ := Prod.mk.inj (Option.some.inj hx); omega
    · obtain ⟨rfl, rfl⟩ := Prod.mk.inj (Option.some.inj hx); omega
  split at h
  · rename_i hn
    obtain ⟨rfl, h2⟩ := Prod.mk.inj h
    obtain rfl := Got.dir.inj h2
    left
    unfold plan at hn
    split at hn
    · assumption
    · split at hn <;> (try split at hn) <;> (try split at hn) <;> cases hn
  · rename_i x hn
    obtain ⟨rfl, h2⟩ := Prod.mk.inj h
    obtain rfl := Got.dir.inj h2
    left
    exact hplan _ _ hn
  · rename_i u x _ hn
    have hb := hplan _ _ hn
    split at h
    · cases h
    · rename_i u' ha
      dsimp only at h
      split at h
      · cases h
      · rename_i hc
        obtain ⟨rfl, h2⟩ := Prod.mk.inj h
        obtain rfl := Got.dir.inj h2
        have hcut : e.cut = none := by
          rcases hp with h | h
          · exact h
          · exact absurd (Or.inr h) hc
        simp only [hcut, Option.getD_none] at hc ⊢
        unfold asked at ha
        split at ha
        · rename_i ht
          split at ha
          · cases ha
          · obtain rfl := Option.some.inj ha
            have hle : ¬(o.timeout ≠ 0 ∧ s.now + (o.timeout - s.now + e.extra) > o.timeout) :=
              fun y => hc (Or.inl y)
            right
            omega
        · obtain rfl := Option.some.inj ha
          left; omega

/-- C55 for the I/Os of one step. -/
theorem step_not_ahead {o : Opts} {st st' : St × List Ev} {op : Op} {d : Dir} {len t : Nat}
    {l : List Ev} (hI : Inv o d st) (hp : Patient op) (htw : o.trimwrite = false)
    (hl : Linear o d) (hb : 0 < perSec o d) (hm : 1000000 * perSec o d ≤ 2 ^ 64)
    (hs : step o st op = some st') (hev : st'.2 = .issue d len t true :: l) (hnew : l = st.2)
    (h0 : 0 ≤ seen d l) (h64 : seen d l < 2 ^ 64) (ht : o.timeout = 0 ∨ t ≠ o.timeout) :
    1000000 * seen d l < perSec o d * ((t : Int) + 1) := by
  subst hnew
  obtain ⟨s, l⟩ := st
  cases op with
  | tick n => obtain rfl := Option.some.inj hs; simp at hev
  | reset => obtain rfl := Option.some.inj hs; simp at hev
  | verify n => obtain rfl := Option.some.inj hs; simp at hev
  | think e n =>
    simp only [step] at hs
    split at hs
    · cases hs
    · obtain rfl := Option.some.inj hs; simp at hev
  | again e n b v =>
    simp only [step] at hs
    split at hs
    · cases hs
    · obtain rfl := Option.some.inj hs; simp at hev
  | io d0 e tw n busy val =>
    cases hg : rateDdir o s d0 e with | mk s1 g =>
    simp only [step, setDdir, htw, Bool.false_eq_true, if_false, hg] at hs
    split at hs
    · obtain rfl := Option.some.inj hs; simp at hev
    · rename_i d1
      split at hs
      · cases hs
      · obtain rfl := Option.some.inj hs
        simp only [List.cons.injEq, Ev.issue.injEq, and_true] at hev
        obtain ⟨rfl, _, rfl⟩ := hev
        have hr := rateDdir_ready hp hg
        have hnx := hI.next hl hb hm
        simp only at hnx h0 h64
        rw [Int.emod_eq_of_lt h0 h64] at hnx
        have hle : s.next d1 ≤ s1.now := by
          rcases hr with h | ⟨h1, h2⟩
          · exact h
          · rcases ht with h | h
            · exact absurd h h1
            · exact absurd h2 h
        have hq : (1000000 * seen d1 l) / (perSec o d1 : Int) ≤ (s1.now : Int) := by
          rw [← hnx]; exact_mod_cast hle
        have hpos : (0 : Int) < perSec o d1 := by exact_mod_cast hb
        have := Int.lt_mul_of_ediv_lt hpos (show (1000000 * seen d1 l) / (perSec o d1 : Int)
          < (s1.now : Int) + 1 by omega)
        rw [mul_comm ((s1.now : Int) + 1)] at this
        exact this

/-- How the trace grows. -/
theorem step_trace {o : Opts} {st st' : St × List Ev} {op : Op} (hs : step o st op = some st') :
    st'.2 = st.2 ∨ st'.2 = [] ∨ ∃ ev, st'.2 = ev :: st.2 := by
  cases op with
  | tick n => obtain rfl := Option.some.inj hs; exact .inl rfl
  | reset => obtain rfl := Option.some.inj hs; exact .inr (.inl rfl)
  | verify n => obtain rfl := Option.some.inj hs; exact .inr (.inr ⟨_, rfl⟩)
  | think e n =>
    simp only [step] at hs
    split at hs
    · cases hs
    · obtain rfl := Option.some.inj hs; exact .inr (.inr ⟨_, rfl⟩)
  | again e n b v =>
    simp only [step] at hs
    split at hs
    · cases hs
    · obtain rfl := Option.some.inj hs; exact .inr (.inr ⟨_, rfl⟩)
  | io d0 e tw n busy val =>
    simp only [step] at hs
    split at hs
    · obtain rfl := Option.some.inj hs; exact .inl rfl
    · split at hs
      · cases hs
      · obtain rfl := Option.some.inj hs; exact .inr (.inr ⟨_, rfl⟩)

/-- C55: a job never runs ahead of a byte rate: when it chooses to issue an I/O `t` microseconds
after its start, the bytes charged before it are fewer than the rate gives for `t + 1` microseconds.
This is for every run, with any mix of directions, block sizes, delays and answers of the engine. -/
theorem not_ahead {o : Opts} {ops : List Op} {s : St} {evs : List Ev} {d : Dir}
    (htw : o.trimwrite = false) (hl : Linear o d) (hb : 0 < perSec o d)
    (hm : 1000000 * perSec o d ≤ 2 ^ 64) (hp : ∀ op ∈ ops, Patient op)
    (hr : run o (init, []) ops = some (s, evs)) {a l : List Ev} {len t : Nat}
    (hev : evs = a ++ .issue d len t true :: l) (h0 : 0 ≤ seen d l) (h64 : seen d l < 2 ^ 64)
    (ht : o.timeout = 0 ∨ t ≠ o.timeout) :
    1000000 * seen d l < perSec o d * ((t : Int) + 1) := by
  suffices H : ∀ (ops : List Op) (st : St × List Ev), Inv o d st → (∀ op ∈ ops, Patient op) →
      (∀ a l len t, st.2 = a ++ Ev.issue d len t true :: l → 0 ≤ seen d l → seen d l < 2 ^ 64 →
        (o.timeout = 0 ∨ t ≠ o.timeout) → 1000000 * seen d l < perSec o d * ((t : Int) + 1)) →
      ∀ st', run o st ops = some st' →
      (∀ a l len t, st'.2 = a ++ Ev.issue d len t true :: l → 0 ≤ seen d l → seen d l < 2 ^ 64 →
        (o.timeout = 0 ∨ t ≠ o.timeout) → 1000000 * seen d l < perSec o d * ((t : Int) + 1)) by
    exact H ops _ (inv_init o d) hp (by simp) _ hr a l len t hev h0 h64 ht
  intro ops
  induction ops with
  | nil =>
    intro st _ _ h st' hr
    obtain rfl := Option.some.inj hr
    exact h
  | cons op ops ih =>
    intro st hI hp h st' hr
    simp only [run] at hr
    split at hr
    · cases hr
    · rename_i st1 hs
      refine ih st1 (inv_step hI hs) (fun x hx => hp x (by simp [hx])) ?_ st' hr
      intro a l len t hev
      rcases step_trace hs with h1 | h1 | ⟨ev, h1⟩
      · exact h a l len t (by rw [← h1]; exact hev)
      · rw [h1] at hev; simp at hev
      · cases a with
        | nil =>
          rw [h1] at hev
          simp only [List.nil_append, List.cons.injEq] at hev
          intro h0 h64 ht
          exact step_not_ahead hI (hp op (by simp)) htw hl hb hm hs
            (by rw [h1, hev.1, hev.2]) hev.2.symm h0 h64 ht
        | cons x a =>
          rw [h1] at hev
          simp only [List.cons_append, List.cons.injEq] at hev
          exact h a l len t hev.2

/-- C55: and it does not wait longer than the rate asks for: an I/O of direction `d0` that the mix
proposes at time `now` goes (or one of the other direction goes instead) at the latest when the
rate allows it, but for what the sleep takes too long. -/
theorem no_needless_wait {o : Opts} {st st' : St × List Ev} {d0 d tw : Dir} {e : Env} {n val : Nat}
    {busy : Bool} (hI : Inv o d0 st) (hl : Linear o d0) (hb : 0 < perSec o d0)
    (hm : 1000000 * perSec o d0 ≤ 2 ^ 64) (hcut : e.cut = none)
    (h0 : 0 ≤ seen d0 st.2) (h64 : seen d0 st.2 < 2 ^ 64)
    (hs : step o st (.io d0 e tw n busy val) = some st') {len t : Nat} {l : List Ev}
    (hev : st'.2 = .issue d len t true :: l) (hnew : l = st.2) :
    (t : Int) ≤ max (st.1.now : Int) (1000000 * seen d0 st.2 / perSec o d0) + e.extra := by
  subst hnew
  obtain ⟨s, l⟩ := st
  cases hg : rateDdir o s d0 e with | mk s1 g =>
  simp only [step, hg] at hs
  have hnx := hI.next hl hb hm
  simp only at hnx h0 h64
  rw [Int.emod_eq_of_lt h0 h64] at hnx
  simp only [← hnx]
  have hplan : ∀ u x, plan o s d0 = some (u, x) → s.now + u ≤ max s.now (s.next d0) := by
    intro u x hx
    unfold plan at hx
    split at hx
    · cases hx
    split at hx
    · split at hx
      · obtain ⟨rfl, rfl⟩ := Prod.mk.inj (Option.some.inj hx); omega
      split at hx
      · obtain ⟨rfl, rfl⟩ := Prod.mk.inj (Option.some.inj hx); omega
      · obtain ⟨rfl, rfl⟩ := Prod.mk.inj (Option.some.inj hx); omega
    · obtain ⟨rfl, rfl⟩ := Prod.mk.inj (Option.some.inj hx); omega
  have hnow : s1.now ≤ max s.now (s.next d0) + e.extra := by
    have e1 : (rateDdir o s d0 e).1 = s1 := by rw [hg]
    rw [← e1]
    unfold rateDdir
    split
    · simp only; omega
    · simp only; omega
    · rename_i u x _ hn
      have hb := hplan _ _ hn
      split
      · simp only; omega
      · rename_i u' ha
        have hu : u' ≤ u := by
          unfold asked at ha
          split at ha
          · split at ha
            · cases ha
            · obtain rfl := Option.some.inj ha; omega
          · obtain rfl := Option.some.inj ha; omega
        dsimp only
        split <;> simp only [hcut, Option.getD_none] <;> omega
  split at hs
  · obtain rfl := Option.some.inj hs; simp at hev
  · split at hs
    · cases hs
    · obtain rfl := Option.some.inj hs
      simp only [List.cons.injEq, Ev.issue.injEq, and_true] at hev
      obtain ⟨_, _, rfl⟩ := hev
      omega

/-- Every state of a run meets the invariant that `no_needless_wait` asks for. -/
theorem run_inv {o : Opts} {d : Dir} : ∀ {ops : List Op} {st st' : St × List Ev}, Inv o d st →
    run o st ops = some st' → Inv o d st'
  | [], _, _, h, hr => by obtain rfl := Option.some.inj hr; exact h
  | op :: ops, st, st', h, hr => by
    simp only [run] at hr
    split at hr
    · cases hr
    · rename_i hs; exact run_inv (inv_step h hs) hr

/-- A run ends by a division by zero only with the Poisson process or a block size of 0. -/
theorem run_total {o : Opts} (hp : o.poisson = false) (hb : ∀ d, o.minBs d ≠ 0) :
    ∀ (ops : List Op) (st : St × List Ev), ∃ st', run o st ops = some st'
  | [], st => ⟨st, rfl⟩
  | op :: ops, st => by
    have hus : ∀ s d v, ∃ x, usecForIo o s d v = some x := by
      intro s d v
      unfold usecForIo
      simp only [hp, Bool.false_eq_true, if_false]
      split
      · exact ⟨_, rfl⟩
      · split
        · rw [if_neg (hb d)]
          split
          · exact ⟨_, rfl⟩
          · exact ⟨_, rfl⟩
        · exact ⟨_, rfl⟩
    have his : ∀ s d n b v, ∃ x, issue o s d n b v = some x := by
      intro s d n b v
      unfold issue
      obtain ⟨x, hx⟩ := hus (charge s d n b) d v
      simp only [hx]
      exact ⟨_, rfl⟩
    have hstep : ∃ x, step o st op = some x := by
      cases op with
      | tick n => exact ⟨_, rfl⟩
      | reset => exact ⟨_, rfl⟩
      | verify n => exact ⟨_, rfl⟩
      | think d n =>
        simp only [step, think]
        split
        · rename_i h; split at h <;> cases h
        · exact ⟨_, rfl⟩
      | again d n b v =>
        obtain ⟨x, hx⟩ := his st.1 d n b v
        exact ⟨_, by simp only [step, hx]; rfl⟩
      | io d e tw n b v =>
        simp only [step]
        split
        · exact ⟨_, rfl⟩
        · rename_i d1 _
          obtain ⟨x, hx⟩ := his (rateDdir o st.1 d e).1 d1 n b v
          simp only [hx]
          exact ⟨_, rfl⟩
    obtain ⟨x, hx⟩ := hstep
    simp only [run, hx]
    exact run_total hp hb ops x

/-! `rate_iops` with `bssplit`. -/

/-- The options ask for a number of I/Os, with several block sizes. -/
def BySplit (o : Opts) (d : Dir) : Prop :=
  o.poisson = false ∧ o.rate d = 0 ∧ o.split d = true ∧ 0 < o.rateIops d ∧ 0 < o.minBs d ∧
    o.rateIops d * o.minBs d < 2 ^ 64

private structure Inv2 (o : Opts) (d : Dir) (st : St × List Ev) : Prop where
  last : issues d st.2 * (1000000 / o.rateIops d) ≤ st.1.lastU d
  next : issues d st.2 * (1000000 / o.rateIops d) ≤ st.1.next d

private theorem inv2_issue {o : Opts} {d e : Dir} {s s' : St} {l : List Ev} {len n t val : Nat} {busy c : Bool}
    (hS : BySplit o d) (h : Inv2 o d (s, l)) (hi : issue o s e len busy val = some s') :
    Inv2 o d (s', .issue e n t c :: l) := by
  unfold issue at hi
  simp only at hi
  split at hi
  · cases hi
  · rename_i t' u hu
    obtain rfl := Option.some.inj hi
    obtain ⟨h1, h2⟩ := h
    simp only at h1 h2
    by_cases hd : e = d
    · subst hd
      obtain ⟨a, b, c, p, q, r⟩ := hS
      have hbps : o.bps e = o.rateIops e * o.minBs e := by
        unfold Opts.bps; rw [b, if_neg (by simp)]; exact Nat.mod_eq_of_lt r
      have hpos : 0 < o.rateIops e * o.minBs e := Nat.mul_pos p q
      unfold usecForIo at hu
      simp only [a, Bool.false_eq_true, if_false, hbps] at hu
      rw [if_neg (by omega), if_pos ⟨b, c⟩, if_neg (by omega), Nat.mul_div_cancel _ q,
        if_neg (by omega)] at hu
      obtain ⟨rfl, rfl⟩ := Prod.mk.inj (Option.some.inj hu)
      simp only [charge_lastU]
      refine ⟨?_, ?_⟩ <;> simp only [issues, if_pos, upd_same, Nat.add_mul, Nat.one_mul] <;> omega
    · have hd' : d ≠ e := fun x => hd x.symm
      refine ⟨?_, ?_⟩
      · simp only [issues, if_neg hd, upd_ne _ _ hd', charge_lastU, Nat.zero_add]; exact h1
      · simp only [issues, if_neg hd, upd_ne _ _ hd', charge_next, Nat.zero_add]; exact h2

private theorem inv2_step {o : Opts} {d : Dir} {st st' : St × List Ev} {op : Op} (hS : BySplit o d)
    (h : Inv2 o d st) (hs : step o st op = some st') : Inv2 o d st' := by
  obtain ⟨s, l⟩ := st
  cases op with
  | tick n => obtain rfl := Option.some.inj hs; exact ⟨h.1, h.2⟩
  | reset => obtain rfl := Option.some.inj hs; exact ⟨by simp [issues], by simp [issues]⟩
  | verify n =>
    obtain rfl := Option.some.inj hs
    exact ⟨by simpa [issues] using h.1, by simpa [issues] using h.2⟩
  | think e n =>
    simp only [step, think] at hs
    by_cases hc : n ≠ 0 ∧ o.bps e ≠ 0 ∧ o.ignThink = true
    · rw [if_pos hc] at hs
      simp only at hs
      obtain rfl := Option.some.inj hs
      refine ⟨?_, by simpa [issues] using h.2⟩
      have := h.1
      simp only [issues] at this ⊢
      unfold upd
      split
      · rename_i hde; subst hde; omega
      · exact this
    · rw [if_neg hc] at hs
      simp only at hs
      obtain rfl := Option.some.inj hs
      exact ⟨by simpa [issues] using h.1, by simpa [issues] using h.2⟩
  | again e n b v =>
    simp only [step] at hs
    split at hs
    · cases hs
    · rename_i hi
      obtain rfl := Option.some.inj hs
      exact inv2_issue hS h hi
  | io d0 e tw n busy val =>
    obtain ⟨t, ht⟩ := rateDdir_keeps o s d0 e
    cases hg : rateDdir o s d0 e with | mk s1 g =>
    simp only [step, hg] at hs
    have h1 : Inv2 o d (s1, l) := by
      rw [hg] at ht; simp only at ht; rw [ht]; exact ⟨h.1, h.2⟩
    split at hs
    · obtain rfl := Option.some.inj hs; exact h1
    · split at hs
      · cases hs
      · rename_i hi
        obtain rfl := Option.some.inj hs
        exact inv2_issue hS h1 hi

/-- C55 with `bssplit`: the `n+1`-st I/O of direction `d` does not go before `n` times the interval
for one, in whole microseconds. -/
theorem not_ahead_split {o : Opts} {ops : List Op} {s : St} {evs : List Ev} {d : Dir}
    (htw : o.trimwrite = false) (hS : BySplit o d) (hp : ∀ op ∈ ops, Patient op)
    (hr : run o (init, []) ops = some (s, evs)) {a l : List Ev} {len t : Nat}
    (hev : evs = a ++ .issue d len t true :: l) (ht : o.timeout = 0 ∨ t ≠ o.timeout) :
    issues d l * (1000000 / o.rateIops d) ≤ t := by
  suffices H : ∀ (ops : List Op) (st : St × List Ev), Inv2 o d st → (∀ op ∈ ops, Patient op) →
      (∀ a l len t, st.2 = a ++ Ev.issue d len t true :: l →
        (o.timeout = 0 ∨ t ≠ o.timeout) → issues d l * (1000000 / o.rateIops d) ≤ t) →
      ∀ st', run o st ops = some st' →
      (∀ a l len t, st'.2 = a ++ Ev.issue d len t true :: l →
        (o.timeout = 0 ∨ t ≠ o.timeout) → issues d l * (1000000 / o.rateIops d) ≤ t) by
    exact H ops _ ⟨by simp [issues], by simp [issues]⟩ hp (by simp) _ hr a l len t hev ht
  intro ops
  induction ops with
  | nil =>
    intro st _ _ h st' hr
    obtain rfl := Option.some.inj hr
    exact h
  | cons op ops ih =>
    intro st hI hp h st' hr
    simp only [run] at hr
    split at hr
    · cases hr
    · rename_i st1 hs
      refine ih st1 (inv2_step hS hI hs) (fun x hx => hp x (by simp [hx])) ?_ st' hr
      intro a l len t hev
      rcases step_trace hs with h1 | h1 | ⟨ev, h1⟩
      · exact h a l len t (by rw [← h1]; exact hev)
      · rw [h1] at hev; simp at hev
      · cases a with
        | cons x a =>
          rw [h1] at hev
          simp only [List.cons_append, List.cons.injEq] at hev
          exact h a l len t hev.2
        | nil =>
          rw [h1] at hev
          simp only [List.nil_append, List.cons.injEq] at hev
          obtain ⟨rfl, hev2⟩ := hev
          intro ht
          have hpo := hp op (by simp)
          obtain ⟨s0, l0⟩ := st
          simp only at hev2
          subst hev2
          cases op with
          | tick n => obtain rfl := Option.some.inj hs; simp at h1
          | reset => obtain rfl := Option.some.inj hs; simp at h1
          | verify n => obtain rfl := Option.some.inj hs; simp at h1
          | think e n =>
            simp only [step] at hs
            split at hs
            · cases hs
            · obtain rfl := Option.some.inj hs; simp at h1
          | again e n b v =>
            simp only [step] at hs
            split at hs
            · cases hs
            · obtain rfl := Option.some.inj hs; simp at h1
          | io d0 e tw n busy val =>
            cases hg : rateDdir o s0 d0 e with | mk s1 g =>
            simp only [step, setDdir, htw, Bool.false_eq_true, if_false, hg] at hs
            split at hs
            · obtain rfl := Option.some.inj hs; simp at h1
            · split at hs
              · cases hs
              · obtain rfl := Option.some.inj hs
                simp only [List.cons.injEq, Ev.issue.injEq, and_true] at h1
                obtain ⟨rfl, _, rfl⟩ := h1
                have := hI.next
                simp only at this
                rcases rateDdir_ready hpo hg with h | ⟨h1, h2⟩
                · omega
                · rcases ht with h | h
                  · exact absurd h h1
                  · exact absurd h2 h

/-! The minimal rate. -/

/-- C55: a job with `rate_min` ends exactly if, after the settling time, fewer than `rateMin` bytes
per second were transferred since the last check, which is at least a cycle ago; else the check
starts a new cycle. -/
theorem min_rate {rateMin iopsMin cycle start now b k : Nat} {l : Min} (hr : 0 < rateMin)
    (hset : start + 2000 ≤ now) (hl : 0 < l.bytes) (hle : l.bytes ≤ b)
    (hb : (b - l.bytes) * 1000 < 2 ^ 64) (ht : l.time < now) :
    (cycle ≤ now - l.time → ((checkMin rateMin iopsMin cycle start l now b k).1 = true ↔
      (b - l.bytes) * 1000 < rateMin * (now - l.time)) ∧
      (rateMin * (now - l.time) ≤ (b - l.bytes) * 1000 →
        (checkMin rateMin iopsMin cycle start l now b k).2 = ⟨b, k, now⟩)) ∧
    (now - l.time < cycle → checkMin rateMin iopsMin cycle start l now b k = (false, l)) := by
  unfold checkMin
  rw [if_neg (by omega), if_neg (by omega), if_pos (by omega)]
  simp only
  have e : (b + 2 ^ 64 - l.bytes) % 2 ^ 64 * 1000 % 2 ^ 64 = (b - l.bytes) * 1000 := by
    rw [show (b + 2 ^ 64 - l.bytes) % 2 ^ 64 = b - l.bytes by omega]
    exact Nat.mod_eq_of_lt hb
  rw [e, if_pos (show rateMin ≠ 0 by omega)]
  refine ⟨fun hc => ?_, fun hc => by rw [if_pos (by omega)]⟩
  rw [if_neg (show ¬(now - l.time < cycle ∨ now - l.time = 0) by omega)]
  have hd : (b - l.bytes) * 1000 / (now - l.time) < rateMin ↔
      (b - l.bytes) * 1000 < rateMin * (now - l.time) := Nat.div_lt_iff_lt_mul (by omega)
  clear e hb
  generalize (b - l.bytes) * 1000 = X at *
  generalize now - l.time = Y at *
  by_cases hx : X / Y < rateMin
  · rw [if_pos hx]
    exact ⟨⟨fun _ => hd.1 hx, fun _ => rfl⟩, fun h => by have := hd.1 hx; omega⟩
  · rw [if_neg hx]
    exact ⟨⟨fun h => by simp at h, fun h => absurd (hd.2 h) hx⟩, fun _ => rfl⟩

/-- The same for `rate_iops_min`, if `rate_min` is not set too. -/
theorem min_iops {iopsMin cycle start now b k : Nat} {l : Min} (hr : 0 < iopsMin)
    (hset : start + 2000 ≤ now) (hl : 0 < l.blocks) (hle : l.blocks ≤ k)
    (hb : (k - l.blocks) * 1000 < 2 ^ 64) (ht : l.time < now) :
    (cycle ≤ now - l.time → ((checkMin 0 iopsMin cycle start l now b k).1 = true ↔
      (k - l.blocks) * 1000 < iopsMin * (now - l.time))) ∧
    (now - l.time < cycle → checkMin 0 iopsMin cycle start l now b k = (false, l)) := by
  unfold checkMin
  rw [if_neg (by omega), if_neg (by omega), if_pos (by omega)]
  simp only
  have e : (k + 2 ^ 64 - l.blocks) % 2 ^ 64 * 1000 % 2 ^ 64 = (k - l.blocks) * 1000 := by
    rw [show (k + 2 ^ 64 - l.blocks) % 2 ^ 64 = k - l.blocks by omega]
    exact Nat.mod_eq_of_lt hb
  rw [e, if_neg (show ¬((0 : Nat) ≠ 0) by omega)]
  refine ⟨fun hc => ?_, fun hc => by rw [if_pos (by omega)]⟩
  rw [if_neg (show ¬(now - l.time < cycle ∨ now - l.time = 0) by omega)]
  have hd : (k - l.blocks) * 1000 / (now - l.time) < iopsMin ↔
      (k - l.blocks) * 1000 < iopsMin * (now - l.time) := Nat.div_lt_iff_lt_mul (by omega)
  by_cases hx : (k - l.blocks) * 1000 / (now - l.time) < iopsMin
  · rw [if_pos hx]
    exact ⟨fun _ => hd.1 hx, fun _ => rfl⟩
  · rw [if_neg hx]
    exact ⟨fun h => by simp at h, fun h => absurd (hd.2 h) hx⟩

/-- C55: with `rate_ignore_thinktime` the time spent thinking is charged as if the job had kept its
rate, up to one block less; without it nothing is charged. -/
theorem think_ok {o : Opts} {s : St} {d : Dir} {n : Nat} (hn : 0 < n) (hb : 0 < perSec o d)
    (hm : 1000000 * perSec o d ≤ 2 ^ 64) (hm2 : perSec o d * n < 2 ^ 64)
    (hbs : o.minBs d * 1000000 < 2 ^ 64) :
    ∃ s' x, think o s d n = some (s', x) ∧ s'.now = s.now + n ∧
      (o.ignThink = false → x = 0) ∧
      (o.ignThink = true → x ≤ (perSec o d * n / 1000000 : Nat) ∧
        (perSec o d * n / 1000000 : Nat) ≤ x + o.minBs d ∧
        (o.minBs d * 1000000 / perSec o d ≤ n → x = (perSec o d * n / 1000000 : Nat) - (o.minBs d : Int))) := by
  have e := bps_eq (o := o) (d := d) (by omega)
  unfold think
  simp only [e, Nat.mod_eq_of_lt hm2, Nat.mod_eq_of_lt hbs]
  cases hi : o.ignThink with
  | false => rw [if_neg (by simp)]; exact ⟨_, _, rfl, rfl, fun _ => rfl, fun h => by cases h⟩
  | true =>
    rw [if_pos ⟨by omega, by omega, rfl⟩]
    refine ⟨_, _, rfl, rfl, fun h => (by cases h), fun _ => ?_⟩
    have hz : ∀ u : Nat, n < u → (u - n) / u = 0 := fun u h => Nat.div_eq_of_lt (by omega)
    generalize perSec o d * n / 1000000 = q
    by_cases hu : o.minBs d * 1000000 / perSec o d ≤ n
    · rw [if_pos hu]
      exact ⟨by omega, by omega, fun _ => rfl⟩
    · rw [if_neg hu, hz _ (by omega)]
      simp only [Nat.zero_mul, Nat.zero_mod]
      exact ⟨by omega, by omega, fun h => absurd h hu⟩

/-! Cases. -/

private def o1 : Opts :=
  { rate := fun | .read => 1000000 | .write => 500000 | .trim => 0, rateIops := fun _ => 0,
    minBs := fun _ => 4096, split := fun _ => false, poisson := false, rw := true,
    mix := fun _ => true, timeout := 0, trimwrite := false, ignThink := true }
private def quick : Env := ⟨3, none, false⟩

/-- Reads are proposed all the time; while they are ahead, writes go. -/
example : (run o1 (init, []) [.tick 10, .io .read quick .read 4096 false 0, .io .read quick .read 4096 false 0,
    .io .read quick .read 4096 true 0, .io .read quick .read 8192 false 0]).map (·.2) =
  some [.issue .read 8192 4099 true, .issue .read 0 4099 true, .issue .write 4096 10 true,
    .issue .read 4096 10 true] := by decide +kernel

example : Linear o1 .read ∧ 0 < perSec o1 .read ∧ 1000000 * perSec o1 .read ≤ 2 ^ 64 ∧
    seen .read [.issue .write 4096 10 true, .issue .read 4096 10 true] = 4096 := by
  refine ⟨⟨rfl, by decide⟩, by decide, by decide, by decide⟩

private def o2 : Opts := { o1 with rate := fun _ => 0, rateIops := fun _ => 1000, split := fun _ => true }
example : BySplit o2 .read := by simp [BySplit, o2, o1]
example : (run o2 (init, []) [.tick 10, .io .write quick .read 4096 false 0, .io .write quick .read 512 false 0,
    .io .write quick .read 512 false 0]).map (·.2) =
  some [.issue .write 512 1003 true, .issue .read 512 10 true, .issue .write 4096 10 true] := by decide +kernel

example : checkMin 1000 0 1000 0 ⟨5000, 5, 3000⟩ 4000 5999 6 = (true, ⟨5000, 5, 3000⟩) ∧
    checkMin 1000 0 1000 0 ⟨5000, 5, 3000⟩ 4000 6000 6 = (false, ⟨6000, 6, 4000⟩) := by decide +kernel

/-! What is not so. -/

private def o3 : Opts := { o1 with rw := false }

/-- A signal ends the sleep, and the I/O goes although its time has not come: 1000 bytes per
millisecond, 4096 after 100 microseconds. -/
theorem signal_counterexample :
    (run o3 (init, []) [.io .read quick .read 4096 false 0, .io .read ⟨0, some 100, false⟩ .read 4096 false 0]).map
      (·.2) = some [.issue .read 4096 100 true, .issue .read 4096 0 true] ∧
    ¬ 1000000 * seen .read [.issue .read 4096 0 true] < perSec o3 .read * ((100 : Int) + 1) := by
  decide +kernel

/-- With a run time of 2 milliseconds the sleep is cut there, and if the clock then says just that,
the I/O goes. -/
theorem timeout_counterexample :
    (run { o3 with timeout := 2000 } (init, [])
      [.io .read quick .read 4096 false 0, .io .read ⟨0, none, false⟩ .read 4096 false 0]).map
      (·.2) = some [.issue .read 4096 2000 true, .issue .read 4096 0 true] ∧
    ¬ 1000000 * seen .read [.issue .read 4096 0 true] < perSec o3 .read * ((2000 : Int) + 1) := by
  decide +kernel

/-- In a `trimwrite` job the limit of the writes is looked at for trims too: the limit of the trims
has no effect. -/
theorem trimwrite_counterexample :
    let o := { o3 with rate := fun | .trim => 1000 | _ => 0, trimwrite := true }
    (run o (init, [])
      [.io .write quick .trim 4096 false 0, .io .write quick .write 4096 false 0,
       .io .write quick .trim 4096 false 0]).map (·.2) =
      some [.issue .trim 4096 0 true, .issue .write 4096 0 true, .issue .trim 4096 0 true] ∧
    perSec o .trim = 1000 := by decide +kernel

/-- 300000 I/Os per second with `bssplit` become 333333, and more than a million are not limited at
all. -/
theorem split_counterexample :
    (∃ t, usecForIo { o2 with rateIops := fun _ => 300000 } init .read 0 = some (3, t)) ∧
    (∃ t, usecForIo { o2 with rateIops := fun _ => 1000001 } init .read 0 = some (0, t)) :=
  ⟨⟨3, by decide +kernel⟩, ⟨0, by decide +kernel⟩⟩

/-- A Poisson process divides by zero in a direction without limit, or with less than one block per
second. -/
theorem poisson_counterexample :
    run { o1 with rate := fun | .read => 1000000 | _ => 0, poisson := true } (init, [])
      [.io .write quick .read 4096 false 0] = none ∧
    run { o1 with rate := fun _ => 4095, poisson := true } (init, [])
      [.io .read quick .read 4096 false 0] = none := by
  constructor <;> rfl

/-- From 18.4 TB per second on the product overflows: the next time is too early. -/
theorem overflow_counterexample :
    usecForIo { o3 with rate := fun _ => 20000000000000 } { init with bytes := fun _ => 19999999999999 } .read 0
      = some (77662, 0) := by decide +kernel

/-- With both limits set, `rate_iops_min` is not looked at. -/
theorem min_both_counterexample :
    (checkMin 1 1000 1000 0 ⟨5000, 5, 3000⟩ 4000 6000 6).1 = false := by decide +kernel

/-- Think time with `rate_ignore_thinktime`, shorter than the time of one block: the charge is not
reduced by a part of a block, as the division of integers gives 0. -/
theorem think_counterexample :
    (think o1 init .read 1000).map (·.2) = some 1000 ∧ (think o1 init .read 5000).map (·.2) = some 904 := by
  decide +kernel

end Fio.Rate
