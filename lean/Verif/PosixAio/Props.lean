import Verif.PosixAio.Spec
import Mathlib.Data.List.Perm.Subperm
/-!
# C110: posixaio returns every finished unit once with its result
-/

namespace Fio.PosixAio

/-- What a pass makes of a unit. -/
def mark (u : U) : U := if u.seen || !u.flight then u else match u.aio with | none => u | some r => result u r

def ready (u : U) : Bool := !(u.seen || !u.flight) && u.aio.isSome

theorem scan_map (us : List U) (k : Nat) : (scan us k).1 = us.map mark := by
  induction us generalizing k with
  | nil => rfl
  | cons u us ih =>
    simp only [scan, List.map_cons, mark]
    rw [← ih (k + 1)]
    by_cases h : (u.seen || !u.flight) = true
    · simp only [if_pos h]
    · simp only [if_neg h]
      cases u.aio <;> rfl

theorem scan_mem (us : List U) (k i : Nat) : i ∈ (scan us k).2.1 ↔ k ≤ i ∧ ∃ u, us[i - k]? = some u ∧ ready u = true := by
  induction us generalizing k with
  | nil => simp [scan]
  | cons u us ih =>
    have key : (scan (u :: us) k).2.1 = if ready u then k :: (scan us (k + 1)).2.1 else (scan us (k + 1)).2.1 := by
      by_cases h : (u.seen || !u.flight) = true
      · have hr : ready u = false := by simp only [ready, h]; rfl
        rw [hr]
        simp only [scan, if_pos h]
        rfl
      · have hr : ready u = u.aio.isSome := by
          have h' : (u.seen || !u.flight) = false := by simpa using h
          simp only [ready, h']; rfl
        rw [hr]
        simp only [scan, if_neg h]
        cases u.aio <;> rfl
    have hsub : ∀ i, k + 1 ≤ i → (u :: us)[i - k]? = us[i - (k + 1)]? := by
      intro i hi
      have : i - k = (i - (k + 1)) + 1 := by omega
      rw [this, List.getElem?_cons_succ]
    rw [key]
    by_cases hik : i = k
    · subst hik
      have hn : i ∉ (scan us (i + 1)).2.1 := by rw [ih]; omega
      cases hr : ready u <;> simp [hn, hr]
    · have hm : i ∈ (if ready u then k :: (scan us (k + 1)).2.1 else (scan us (k + 1)).2.1) ↔ i ∈ (scan us (k + 1)).2.1 := by
        cases ready u <;> simp [hik]
      rw [hm, ih]
      constructor
      · rintro ⟨h, x, h1, h2⟩
        exact ⟨by omega, x, by rw [hsub i h]; exact h1, h2⟩
      · rintro ⟨h, x, h1, h2⟩
        have h' : k + 1 ≤ i := by omega
        exact ⟨h', x, by rw [← hsub i h']; exact h1, h2⟩

theorem scan_nodup (us : List U) (k : Nat) : (scan us k).2.1.Nodup := by
  induction us generalizing k with
  | nil => simp [scan]
  | cons u us ih =>
    have hn : k ∉ (scan us (k + 1)).2.1 := by rw [scan_mem]; omega
    simp only [scan]
    split
    · exact ih _
    · split
      · exact ih _
      · exact List.nodup_cons.2 ⟨hn, ih _⟩

/-- What the system does to a unit: at most a request in progress gets its result. -/
def Sys (u v : U) : Prop := v = u ∨ (u.flight = true ∧ u.aio = none ∧ ∃ r, v = { u with aio := some r })

theorem finish_sys (l : List (Nat × Res)) (us : List U) : (finish us l).length = us.length ∧
    ∀ (i : Nat) (u v : U), us[i]? = some u → (finish us l)[i]? = some v → Sys u v := by
  induction l generalizing us with
  | nil => exact ⟨rfl, fun i u v h1 h2 => Or.inl (by simp only [finish] at h2; rw [h1] at h2; cases h2; rfl)⟩
  | cons a l ih =>
    obtain ⟨k, r⟩ := a
    obtain ⟨h1, h2⟩ := ih (us.modify k fun u => if u.flight && u.aio.isNone then { u with aio := some r } else u)
    refine ⟨by simp only [finish]; rw [h1, List.length_modify], ?_⟩
    intro i u v hu hv
    simp only [finish] at hv
    by_cases hk : k = i
    · subst hk
      have hm : (us.modify k fun u => if u.flight && u.aio.isNone then { u with aio := some r } else u)[k]? =
          some (if u.flight && u.aio.isNone then { u with aio := some r } else u) := by
        rw [List.getElem?_modify]; simp [hu]
      have := h2 k _ v hm hv
      by_cases hc : (u.flight && u.aio.isNone) = true
      · rw [if_pos hc] at this
        simp only [Bool.and_eq_true, Option.isNone_iff_eq_none] at hc
        rcases this with h | ⟨_, h, _⟩
        · exact Or.inr ⟨hc.1, hc.2, r, h⟩
        · cases h
      · rw [if_neg hc] at this
        exact this
    · have hm : (us.modify k fun u => if u.flight && u.aio.isNone then { u with aio := some r } else u)[i]? = some u := by
        rw [List.getElem?_modify]; simp [hu, hk]
      exact h2 i u v hm hv

/-- Between two passes, for the units at first (`us`) and now (`cur`). -/
structure Inv (us cur : List U) (ev : List Nat) : Prop where
  len : cur.length = us.length
  nodup : ev.Nodup
  inside : ∀ i ∈ ev, i < us.length
  same : ∀ (i : Nat) (u v : U), us[i]? = some u → cur[i]? = some v → v.flight = u.flight ∧ v.buflen = u.buflen
  yes : ∀ (i : Nat) (u v : U), us[i]? = some u → cur[i]? = some v → i ∈ ev → Away u ∧ Told u v ∧ v.seen = true
  no : ∀ (i : Nat) (u v : U), us[i]? = some u → cur[i]? = some v → i ∉ ev → v.seen = u.seen ∧ v.resid = u.resid ∧ v.error = u.error

theorem inv_start (us : List U) : Inv us us [] :=
  ⟨rfl, List.nodup_nil, by simp, fun i u v h1 h2 => by rw [h1] at h2; cases h2; exact ⟨rfl, rfl⟩, by simp,
    fun i u v h1 h2 _ => by rw [h1] at h2; cases h2; exact ⟨rfl, rfl, rfl⟩⟩

theorem told_some (u v : U) (h : Told u v) : v.aio ≠ none := by
  intro hn
  simp [Told, hn] at h

theorem inv_finish (us cur : List U) (ev : List Nat) (l : List (Nat × Res)) (h : Inv us cur ev) : Inv us (finish cur l) ev := by
  obtain ⟨f1, f2⟩ := finish_sys l cur
  obtain ⟨a1, a2, a3, a4, a5, a6⟩ := h
  have get : ∀ (i : Nat) (v : U), (finish cur l)[i]? = some v → ∃ w, cur[i]? = some w ∧ Sys w v := by
    intro i v hv
    have hi : i < cur.length := by rw [← f1]; exact (List.getElem?_eq_some_iff.1 hv).1
    exact ⟨cur[i], List.getElem?_eq_getElem hi, f2 i _ v (List.getElem?_eq_getElem hi) hv⟩
  refine ⟨by rw [f1, a1], a2, a3, ?_, ?_, ?_⟩
  · intro i u v hu hv
    obtain ⟨w, hw, hs⟩ := get i v hv
    have := a4 i u w hu hw
    rcases hs with rfl | ⟨_, _, r, rfl⟩ <;> exact this
  · intro i u v hu hv hi
    obtain ⟨w, hw, hs⟩ := get i v hv
    have := a5 i u w hu hw hi
    rcases hs with rfl | ⟨_, hn, r, rfl⟩
    · exact this
    · exact absurd hn (told_some u w this.2.1)
  · intro i u v hu hv hi
    obtain ⟨w, hw, hs⟩ := get i v hv
    have := a6 i u w hu hw hi
    rcases hs with rfl | ⟨_, _, r, rfl⟩ <;> exact this

theorem inv_scan (us cur : List U) (ev : List Nat) (h : Inv us cur ev) : Inv us (scan cur 0).1 (ev ++ (scan cur 0).2.1) ∧
    ∀ (i : Nat) (v : U), (scan cur 0).1[i]? = some v → Away v → v.aio = none := by
  obtain ⟨a1, a2, a3, a4, a5, a6⟩ := h
  have hmem : ∀ i, i ∈ (scan cur 0).2.1 ↔ ∃ w, cur[i]? = some w ∧ ready w = true := by
    intro i; rw [scan_mem]; simp
  have hlt : ∀ i w, cur[i]? = some w → i < us.length := fun i w hw => by rw [← a1]; exact (List.getElem?_eq_some_iff.1 hw).1
  have hget : ∀ (i : Nat) (v : U), (scan cur 0).1[i]? = some v → ∃ w, cur[i]? = some w ∧ v = mark w := by
    intro i v hv
    rw [scan_map, List.getElem?_map] at hv
    cases hc : cur[i]? with
    | none => rw [hc] at hv; cases hv
    | some w => rw [hc] at hv; cases hv; exact ⟨w, rfl, rfl⟩
  have hdis : ∀ i ∈ ev, i ∉ (scan cur 0).2.1 := by
    intro i hi hn
    obtain ⟨w, hw, hr⟩ := (hmem i).1 hn
    have hu := List.getElem?_eq_getElem (hlt i w hw)
    have := (a5 i _ w hu hw hi).2.2
    simp [ready, this] at hr
  have hflag : ∀ w, (mark w).flight = w.flight ∧ (mark w).buflen = w.buflen := by
    intro w
    unfold mark
    split
    · exact ⟨rfl, rfl⟩
    · split
      · exact ⟨rfl, rfl⟩
      · rename_i r _; cases r <;> exact ⟨rfl, rfl⟩
  have hkeep : ∀ w, ready w = false → mark w = w := by
    intro w hw
    unfold mark
    split
    · rfl
    · rename_i hc
      split
      · rfl
      · rename_i r hr
        simp [ready, hc, hr] at hw
  refine ⟨⟨by rw [scan_map, List.length_map, a1], ?_, ?_, ?_, ?_, ?_⟩, ?_⟩
  · exact List.nodup_append.2 ⟨a2, scan_nodup _ _, fun a ha b hb hab => hdis a ha (hab ▸ hb)⟩
  · intro i hi
    rcases List.mem_append.1 hi with hi | hi
    · exact a3 i hi
    · obtain ⟨w, hw, _⟩ := (hmem i).1 hi
      exact hlt i w hw
  · intro i u v hu hv
    obtain ⟨w, hw, rfl⟩ := hget i v hv
    have := a4 i u w hu hw
    rw [(hflag w).1, (hflag w).2]
    exact this
  · intro i u v hu hv hi
    obtain ⟨w, hw, rfl⟩ := hget i v hv
    rcases List.mem_append.1 hi with hi' | hi'
    · have hr : ready w = false := by
        cases hc : ready w
        · rfl
        · exact absurd ((hmem i).2 ⟨w, hw, hc⟩) (hdis i hi')
      rw [hkeep w hr]
      exact a5 i u w hu hw hi'
    · have hne : i ∉ ev := fun hc => hdis i hc hi'
      obtain ⟨w', hw', hr⟩ := (hmem i).1 hi'
      rw [hw] at hw'
      cases hw'
      obtain ⟨s1, s2⟩ := a4 i u w hu hw
      obtain ⟨n1, n2, n3⟩ := a6 i u w hu hw hne
      simp only [ready, Bool.and_eq_true, Bool.not_eq_true', Bool.or_eq_false_iff, Bool.not_eq_false'] at hr
      obtain ⟨⟨r1, r2⟩, r3⟩ := hr
      refine ⟨⟨by rw [← s1]; exact r2, by rw [← n1]; exact r1⟩, ?_⟩
      obtain ⟨r, ha⟩ := Option.isSome_iff_exists.1 r3
      have hm : mark w = result w r := by simp [mark, r1, r2, ha]
      rw [hm]
      cases r with
      | done n =>
        refine ⟨?_, rfl⟩
        simp only [Told, result, ha]
        refine ⟨fun h1 h2 => ?_, n3⟩
        rw [s2]
        omega
      | canceled =>
        refine ⟨?_, rfl⟩
        simp only [Told, result, ha]
        exact ⟨s2, n3⟩
      | failed e =>
        refine ⟨?_, rfl⟩
        simp only [Told, result, ha]
        exact ⟨trivial, n2⟩
  · intro i u v hu hv hi
    obtain ⟨w, hw, rfl⟩ := hget i v hv
    have h1 : i ∉ ev := fun hc => hi (List.mem_append.2 (Or.inl hc))
    have hr : ready w = false := by
      cases hc : ready w
      · rfl
      · exact absurd (List.mem_append.2 (Or.inr ((hmem i).2 ⟨w, hw, hc⟩))) hi
    rw [hkeep w hr]
    exact a6 i u w hu hw h1
  · intro i v hv ⟨f1, f2⟩
    obtain ⟨w, hw, rfl⟩ := hget i v hv
    cases hr : ready w
    · rw [hkeep w hr] at f1 f2 ⊢
      simpa [ready, f1, f2] using hr
    · exfalso
      simp only [ready, Bool.and_eq_true, Bool.not_eq_true', Bool.or_eq_false_iff, Bool.not_eq_false'] at hr
      obtain ⟨⟨r1, r2⟩, r3⟩ := hr
      obtain ⟨r, ha⟩ := Option.isSome_iff_exists.1 r3
      have hm : mark w = result w r := by simp [mark, r1, r2, ha]
      rw [hm] at f2
      cases r <;> cases f2

theorem inv_reaped (us cur : List U) (ev : List Nat) (h : Inv us cur ev) (hd : ∀ (i : Nat) (v : U), cur[i]? = some v → Away v → v.aio = none) :
    Reaped us cur ev := by
  obtain ⟨a1, a2, a3, a4, a5, a6⟩ := h
  refine ⟨a1, a2, a3, ?_, fun i u v hu hv hi => (a5 i u v hu hv hi).2, a6⟩
  intro i u v hu hv
  constructor
  · intro hi
    obtain ⟨x, y, _⟩ := a5 i u v hu hv hi
    exact ⟨x, told_some u v y⟩
  · rintro ⟨⟨x1, x2⟩, y⟩
    apply Classical.byContradiction
    intro hi
    obtain ⟨n1, _, _⟩ := a6 i u v hu hv hi
    obtain ⟨s1, _⟩ := a4 i u v hu hv
    exact y (hd i v hv ⟨by rw [s1]; exact x1, by rw [n1]; exact x2⟩)

theorem nodup_len (ev : List Nat) (n : Nat) (h : ev.Nodup) (hb : ∀ i ∈ ev, i < n) : ev.length ≤ n := by
  have hs : ev ⊆ List.range n := fun i hi => List.mem_range.2 (hb i hi)
  have := (List.subperm_of_subset h hs).length_le
  simpa using this

theorem loop_inv (cap mn : Nat) (us : List U) (hc : us.length ≤ cap) (rds : List Round) (cur : List U) (q : Int) (ev : List Nat) (h : Inv us cur ev)
    (hd : ev = [] ∨ ∀ (i : Nat) (v : U), cur[i]? = some v → Away v → v.aio = none) :
    match getevents cap mn rds cur q ev with
    | .crash => False
    | .ret us' q' ev' => Reaped us us' ev' ∧ q' + ev'.length = q + ev.length ∧ (mn ≤ ev'.length ∨ ∃ rd ∈ rds, rd.late = true)
    | .waiting us' q' ev' => Inv us us' ev' ∧ q' + ev'.length = q + ev.length ∧ (rds ≠ [] → Reaped us us' ev' ∧ ev'.length < mn) := by
  induction rds generalizing cur q ev with
  | nil => exact ⟨h, rfl, fun hx => absurd rfl hx⟩
  | cons rd rds ih =>
    obtain ⟨i1, i2⟩ := inv_scan us (finish cur rd.fin) ev (inv_finish us cur ev rd.fin h)
    have hlen := nodup_len _ us.length i1.nodup i1.inside
    have hq : q - ((scan (finish cur rd.fin) 0).2.1.length : Int) + ((ev ++ (scan (finish cur rd.fin) 0).2.1).length : Int) = q + ev.length := by
      rw [List.length_append]; omega
    simp only [getevents]
    rw [if_neg (Nat.not_lt.2 (Nat.le_trans hlen hc))]
    by_cases hm : (ev ++ (scan (finish cur rd.fin) 0).2.1).length ≥ mn
    · rw [if_pos hm]
      exact ⟨inv_reaped _ _ _ i1 i2, hq, Or.inl hm⟩
    · rw [if_neg hm]
      by_cases hl : rd.late = true
      · rw [if_pos hl]
        exact ⟨inv_reaped _ _ _ i1 i2, hq, Or.inr ⟨rd, by simp, hl⟩⟩
      · rw [if_neg hl]
        have := ih (scan (finish cur rd.fin) 0).1 (q - (scan (finish cur rd.fin) 0).2.1.length) (ev ++ (scan (finish cur rd.fin) 0).2.1) i1 (Or.inr i2)
        cases ho : getevents cap mn rds (scan (finish cur rd.fin) 0).1 (q - (scan (finish cur rd.fin) 0).2.1.length)
            (ev ++ (scan (finish cur rd.fin) 0).2.1) with
        | crash => rw [ho] at this; exact this
        | ret us' q' ev' =>
          rw [ho] at this
          obtain ⟨t1, t2, t3⟩ := this
          refine ⟨t1, by rw [t2, hq], ?_⟩
          rcases t3 with t3 | ⟨x, hx, hy⟩
          · exact Or.inl t3
          · exact Or.inr ⟨x, List.mem_cons_of_mem _ hx, hy⟩
        | waiting us' q' ev' =>
          rw [ho] at this
          obtain ⟨t1, t2, t3⟩ := this
          refine ⟨t1, by rw [t2, hq], fun _ => ?_⟩
          cases rds with
          | nil =>
            simp only [getevents, Out.waiting.injEq] at ho
            obtain ⟨o1, o2, o3⟩ := ho
            subst o1 o3
            exact ⟨inv_reaped _ _ _ i1 i2, by omega⟩
          | cons a l => exact t3 (by simp)

/-- Nothing is written behind `aio_events`, if it has room for all units. -/
theorem C110_safe (cap mn : Nat) (us : List U) (rds : List Round) (q : Int) (hc : us.length ≤ cap) : getevents cap mn rds us q [] ≠ .crash := by
  intro h
  have := loop_inv cap mn us hc rds us q [] (inv_start us) (Or.inl rfl)
  rw [h] at this
  exact this

/-- What is returned: all units away whose request is over, each once and with its result; `queued` goes down by their number; and there are at least
`min` unless the time is over. -/
theorem C110_reaped (cap mn : Nat) (us : List U) (rds : List Round) (q : Int) (hc : us.length ≤ cap) (us' : List U) (q' : Int) (ev : List Nat)
    (h : getevents cap mn rds us q [] = .ret us' q' ev) :
    Reaped us us' ev ∧ q' + ev.length = q ∧ (mn ≤ ev.length ∨ ∃ rd ∈ rds, rd.late = true) := by
  have := loop_inv cap mn us hc rds us q [] (inv_start us) (Or.inl rfl)
  rw [h] at this
  simpa using this

/-- It goes on waiting only while fewer than `min` of the requests are over. -/
theorem C110_waits (cap mn : Nat) (us : List U) (rds : List Round) (q : Int) (hc : us.length ≤ cap) (hr : rds ≠ []) (us' : List U) (q' : Int)
    (ev : List Nat) (h : getevents cap mn rds us q [] = .waiting us' q' ev) : Reaped us us' ev ∧ ev.length < mn := by
  have := loop_inv cap mn us hc rds us q [] (inv_start us) (Or.inl rfl)
  rw [h] at this
  exact this.2.2 hr

def away : U := ⟨true, false, 4096, 0, 0, none⟩

/-- Three units away and one idle: the second and then the first are over, one with an error. -/
theorem C110_example : getevents 4 2 [⟨[(1, .done 1024)], false⟩, ⟨[(0, .failed 5)], false⟩] [away, away, ⟨false, false, 512, 0, 0, none⟩, away] 3 [] =
    .ret [⟨true, true, 4096, 0, 5, some (.failed 5)⟩, ⟨true, true, 4096, 3072, 0, some (.done 1024)⟩, ⟨false, false, 512, 0, 0, none⟩, away] 1
      [1, 0] := by
  decide +kernel

/-- It sleeps on 8 units only: with 9 away and the last over, `aio_suspend` is not told of it, although a pass would return it. -/
theorem C110_suspend_counterexample : 8 ∉ suspendList (List.replicate 9 away) ∧
    (scan (finish (List.replicate 9 away) [(8, .done 4096)]) 0).2.1 = [8] := by
  decide +kernel

end Fio.PosixAio
