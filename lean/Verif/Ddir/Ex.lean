import Verif.Ddir.Props

/-! # C77: examples and counterexamples -/

namespace Fio.Ddir

/-- A job that reads and writes, 70 to 30. -/
def rwJob : Cfg := ⟨true, true, false, false, 2, 0, 0, 70, 30, false⟩
/-- A job that writes. -/
def wrJob (f d r : Nat) : Cfg := ⟨false, true, false, false, f, d, r, 50, 50, false⟩

def draw (v : Nat) (r : Reply := .done) : In := ⟨v, fun _ => .read, none, false, r⟩

theorem usual_draw (v : Nat) (r : Reply) : Usual (draw v r) :=
  ⟨rfl, fun _ => .inl rfl, fun _ h => by cases h⟩

/-- Reads and writes with busy and short answers: a sync after each second write. -/
example : (run rwJob init [draw 90, draw 1, draw 95 .busy, draw 95, draw 95 .busy, draw 3 .done, draw 80,
    draw 99 .short, draw 99, draw 7]).map (fun x => x.2.map (·.1)) =
    some [.write, .read, .write, .sync, .write, .write, .sync] := by
  decide +kernel

/-- The hypotheses of `C77_sync_partial`, `C77_mix` and `C77_goes_on` hold for it. -/
example : ∃ s out, run rwJob init [draw 90, draw 1, draw 95, draw 95] = some (s, out) ∧ out.length = 4 := by
  obtain ⟨s, out, h1, h2⟩ := C77_goes_on (c := rwJob) (.inl rfl)
    (ins := [draw 90, draw 1, draw 95, draw 95]) (by
      intro i hi
      simp only [List.mem_cons, List.not_mem_nil, or_false] at hi
      rcases hi with rfl | rfl | rfl | rfl <;> exact ⟨usual_draw _ _, fun _ h => by cases h⟩)
  refine ⟨s, out, h1, h2 ?_⟩
  intro i hi
  simp only [List.mem_cons, List.not_mem_nil, or_false] at hi
  rcases hi with rfl | rfl | rfl | rfl <;> rfl

/-- The share decides: 4 writes by chance, then a draw for a read; reads follow until they are 70% of
the writes, whatever the random numbers. -/
example : (run { rwJob with fsync := 0 } init [draw 90, draw 90, draw 90, draw 90, draw 1, draw 90,
    draw 90]).map (fun x => x.2.map (·.1)) =
    some [.write, .write, .write, .write, .read, .read, .write] := by
  decide +kernel

/-- With fsync and fdatasync due after the same write, only fsync is done: with both set to 2, there is
never an fdatasync. -/
theorem C77_both_counterexample :
    (run (wrJob 2 2 0) init (List.replicate 9 (draw 1))).map (fun x => x.2.map (·.1)) =
    some [.write, .write, .sync, .write, .write, .sync, .write, .write, .sync] := by
  decide +kernel

theorem step_ver {c : Cfg} {s : S} (hq : s.req = none) :
    step c s ⟨100, id, none, true, .done⟩ = some ({ s with last := .read }, some (.read, true)) := by
  unfold step
  rw [hq]
  simp [issue]

/-- After one more write. -/
def wrote (s : S) : S := { s with mixDir := .write, wr := inc64 s.wr, last := .write, req := none }

theorem step_write {s : S} {f : Nat} (hq : s.req = none) (hs : syncDue (wrJob f 0 0) s = none) :
    step (wrJob f 0 0) s ⟨100, id, none, false, .done⟩ = some (wrote s, some (.write, false)) := by
  unfold step getRwDdir
  rw [hq, hs]
  rfl

/-- With verify_backlog equal to fsync (here 4), there is never a sync: the blocks to verify come
directly after the fourth write (io_u.c:1925 before 1936), and then the last I/O was a read. -/
theorem C77_backlog_counterexample : ∀ n < 2 ^ 60, ∃ out,
    runBacklog (wrJob 4 0 0) 4 n init 0 0 = some out ∧ (.sync, false) ∉ out := by
  have key : ∀ (n : Nat) (s : S) (hist batch : Nat), s.req = none → s.wr + n < 2 ^ 61 →
      ((batch = 0 ∧ hist < 4 ∧ s.wr % 4 = hist ∧ (hist = 0 → s.last = .read) ∧ (hist ≠ 0 → s.last = .write)) ∨
        (batch = 0 ∧ hist = 4 ∧ s.wr % 4 = 0 ∧ s.last = .write) ∨
        (batch = hist ∧ 0 < hist ∧ hist < 4 ∧ s.wr % 4 = 0 ∧ s.last = .read)) →
      ∃ out, runBacklog (wrJob 4 0 0) 4 n s hist batch = some out ∧ (.sync, false) ∉ out := by
    intro n
    induction n with
    | zero => intro s hist batch _ _ _; exact ⟨[], rfl, by simp⟩
    | succ n ih =>
      intro s hist batch hq hb hcase
      unfold runBacklog
      rcases hcase with ⟨rfl, h1, h2, h3, h4⟩ | ⟨rfl, rfl, h2, h3⟩ | ⟨rfl, h1, h2, h3, h4⟩
      · have hv : verDue 4 hist 0 s.last = false := by
          unfold verDue
          rw [decide_eq_false_iff_not]
          rintro ⟨a, b | ⟨b, -⟩⟩
          · exact b rfl
          · omega
        have hs : syncDue (wrJob 4 0 0) s = none := by
          by_cases h0 : hist = 0
          · exact syncDue_last (by rw [h3 h0]; decide)
          · by_cases hw : s.wr = 0
            · exact syncDue_zero hw
            rw [syncDue_due (.inl rfl) (h4 h0) hw]
            unfold due wrJob
            rw [if_neg (by rw [Nat.dvd_iff_mod_eq_zero]; dsimp only; omega), if_neg (by simp), if_neg (by simp)]
        simp only [hv, Bool.false_eq_true, if_false]
        rw [step_write hq hs]
        have hw : inc64 s.wr = s.wr + 1 := inc64_eq (by omega)
        obtain ⟨out, ho, hm⟩ := ih (wrote s) (hist + 1) 0 rfl (by show inc64 s.wr + n < _; omega) (by
          by_cases h5 : hist = 3
          · right; left
            exact ⟨rfl, by omega, by show inc64 s.wr % 4 = 0; omega, rfl⟩
          · left
            exact ⟨rfl, by omega, by show inc64 s.wr % 4 = _; omega, fun h => by omega, fun _ => rfl⟩)
        simp only [if_true]
        rw [ho]
        exact ⟨_, rfl, by simp [hm]⟩
      · have hv : verDue 4 4 0 s.last = true := by
          unfold verDue
          rw [h3]; decide
        simp only [hv, if_true]
        rw [step_ver hq]
        obtain ⟨out, ho, hm⟩ := ih { s with last := .read } 3 3 hq (by simpa using by omega)
          (.inr (.inr ⟨rfl, by decide, by decide, h2, rfl⟩))
        simp only
        rw [ho]
        exact ⟨_, rfl, by simp [hm]⟩
      · have hv : verDue 4 batch batch s.last = true := by
          unfold verDue
          rw [decide_eq_true_iff]
          omega
        simp only [hv, if_true]
        rw [step_ver hq]
        have hb1 : (if batch = 0 then 4 else batch) = batch := if_neg (by omega)
        obtain ⟨out, ho, hm⟩ := ih { s with last := .read } (batch - 1) (batch - 1) hq (by simpa using by omega)
          (by
            by_cases h5 : batch = 1
            · left; subst h5
              exact ⟨rfl, by decide, h3, fun _ => rfl, fun h => absurd rfl h⟩
            · right; right; exact ⟨rfl, by omega, by omega, h3, rfl⟩)
        simp only [hb1]
        rw [ho]
        exact ⟨_, rfl, by simp [hm]⟩
  intro n hn
  exact key n init 0 0 rfl (by show 0 + n < 2 ^ 61; omega) (.inl ⟨rfl, by decide, rfl, fun _ => rfl, fun h => absurd rfl h⟩)

/-- Reads for verification are not counted when they are issued (ioengines.c:388) but are subtracted when
the engine is busy (ioengines.c:401-402): the count of reads goes below 0, and after the next write has
been drawn, only writes follow, whatever the random numbers. -/
theorem C77_verify_busy_counterexample :
    let c : Cfg := { rwJob with fsync := 0 }
    let ver : In := ⟨1, id, none, true, .busy⟩
    (∃ s, run c init [ver] = some (s, []) ∧ s.rd = 2 ^ 64 - 1) ∧
    (run c init ([ver, draw 1, draw 99] ++ List.replicate 20 (draw 1))).map (fun x => x.2.map (·.1)) =
      some ([.read, .write] ++ List.replicate 20 .write) := by
  refine ⟨⟨_, rfl, by decide +kernel⟩, by decide +kernel⟩

/-- After a timeout in rate_ddir, `rwmix_ddir` is DDIR_TIMEOUT = -2, and a further call of get_rw_ddir
reads `io_issues[-2]` (io_u.c:834, 865). -/
theorem C77_timeout_counterexample :
    run { rwJob with checkRate := true } init
      [⟨1, fun _ => .timeout, none, false, .done⟩, ⟨1, fun _ => .timeout, none, false, .done⟩] = none ∧
    Usual ⟨1, fun _ => .timeout, none, false, .done⟩ :=
  ⟨by rfl, rfl, fun _ => .inr rfl, fun _ h => by cases h⟩

end Fio.Ddir
