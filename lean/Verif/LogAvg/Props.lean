import Verif.LogAvg.Model
import Verif.LogAvg.Spec
import Verif.Stat.Merge
import Mathlib.Algebra.Order.Floor.Semifield
/-
C57: in an averaged log every sample counts in exactly one entry, and the entry is the mean or the
largest of its samples.
-/
namespace Fio.LogAvg
open Fio.Stat (statsOf sumQ mean IoStat)

/-- The values of an entry are those of the group. -/
def EntryOk (m : LogMax) (e : Entry) (g : List Sample) : Prop :=
  g ≠ [] ∧ match m with
    | .avg => e.val0 = Spec.rounded (g.map Sample.val) ∧ e.val1 = 0
    | .max => Spec.largest (g.map Sample.val) e.val0 ∧ e.val1 = 0
    | .both => e.val0 = Spec.rounded (g.map Sample.val) ∧ Spec.largest (g.map Sample.val) e.val1

theorem sumQ_cast : ∀ l : List Nat, sumQ l = ((l.sum : Nat) : ℚ)
  | [] => by simp [sumQ]
  | x :: l => by
    have := sumQ_cast l
    simp only [sumQ] at this ⊢
    simp only [List.map_cons, List.sum_cons, this]
    push_cast
    rfl

theorem roundMean_eq (l : List Nat) (h : l ≠ []) : roundMean (statsOf l).mean = Spec.rounded l := by
  have hn : 0 < l.length := List.length_pos_of_ne_nil h
  have hq : (l.length : ℚ) ≠ 0 := by exact_mod_cast (by omega : l.length ≠ 0)
  have e : (statsOf l).mean + 1 / 2 = ((2 * l.sum + l.length : Nat) : ℚ) / ((2 * l.length : Nat) : ℚ) := by
    simp only [statsOf, mean, sumQ_cast]
    push_cast
    field_simp
  rw [roundMean, e, Nat.floor_div_eq_div, Spec.rounded]

theorem foldr_max_le : ∀ (l : List Nat), ∀ x ∈ l, x ≤ l.foldr Nat.max 0
  | y :: l, x, h => by
    simp only [List.foldr_cons]
    rcases List.mem_cons.1 h with rfl | h
    · exact Nat.le_max_left _ _
    · exact Nat.le_trans (foldr_max_le l x h) (Nat.le_max_right _ _)

theorem foldr_max_mem : ∀ (l : List Nat), l ≠ [] → l.foldr Nat.max 0 ∈ l
  | [x], _ => by simp
  | x :: y :: l, _ => by
    have ih := foldr_max_mem (y :: l) (by simp)
    rw [List.foldr_cons]
    generalize (y :: l).foldr Nat.max 0 = m at ih ⊢
    rcases Nat.le_total x m with h | h
    · have e : Nat.max x m = m := Nat.max_eq_right h
      rw [e]; exact List.mem_cons_of_mem _ ih
    · have e : Nat.max x m = x := Nat.max_eq_left h
      rw [e]; exact List.mem_cons_self

theorem max_largest (l : List Nat) (h : l ≠ []) : Spec.largest l (statsOf l).max :=
  ⟨foldr_max_mem l h, foldr_max_le l⟩

/-- What is known of one direction: the finished groups, newest first, and the open one. -/
structure Inv (m : LogMax) (d : Nat) (s : St) (gs : List (List Sample)) (cur xs : List Sample) : Prop where
  part : gs.reverse.flatten ++ cur = xs.filter (fun x => x.ddir == d)
  ents : List.Forall₂ (EntryOk m) (s.log.filter (fun e => e.ddir == d)) gs
  win : s.win d = statsOf (cur.map Sample.val)

theorem reset_eq : IoStat.reset = statsOf [] := by
  apply Fio.Stat.ext' <;> simp [IoStat.reset, statsOf, mean, Fio.Stat.sqDev, sumQ]

theorem init_inv (m : LogMax) (d : Nat) : Inv m d init [] [] [] :=
  ⟨rfl, List.Forall₂.nil, reset_eq⟩

/-- The entry that __add_stat_to_log writes. -/
def entryOf (c : Cfg) (w : Fio.Stat.IoStat) (ddir t : Nat) : Entry := match c.mode with
  | .avg => ⟨t, ddir, roundMean w.mean, 0⟩
  | .max => ⟨t, ddir, w.max, 0⟩
  | .both => ⟨t, ddir, roundMean w.mean, w.max⟩

theorem entryOf_ok (c : Cfg) (cur : List Sample) (h : cur ≠ []) (d t : Nat) :
    EntryOk c.mode (entryOf c (statsOf (cur.map Sample.val)) d t) cur := by
  have h' : cur.map Sample.val ≠ [] := by simpa using h
  refine ⟨h, ?_⟩
  have h1 := roundMean_eq _ h'
  have h2 := max_largest _ h'
  unfold entryOf
  cases c.mode <;> simp [h1, h2]

theorem statToLog_other {c s e t d} (h : d ≠ e) : (statToLog c s e t).win d = s.win d ∧
    (statToLog c s e t).log.filter (fun x => x.ddir == d) = s.log.filter (fun x => x.ddir == d) ∧
    (statToLog c s e t).last = s.last := by
  refine ⟨by simp [statToLog, h], ?_, rfl⟩
  simp only [statToLog]
  have h' : (e == d) = false := by simpa using fun h0 => h h0.symm
  split
  · cases c.mode <;> simp [h']
  · rfl

/-- The open group becomes a finished one. -/
theorem statToLog_same {c d s gs cur xs t} (h : Inv c.mode d s gs cur xs) :
    ∃ gs', Inv c.mode d (statToLog c s d t) gs' [] xs ∧
      ((cur = [] ∧ gs' = gs ∧ (statToLog c s d t).log = s.log) ∨
       (cur ≠ [] ∧ gs' = cur :: gs ∧ (statToLog c s d t).log = entryOf c (s.win d) d t :: s.log)) := by
  obtain ⟨h1, h2, h3⟩ := h
  have hw : (statToLog c s d t).win d = statsOf (([] : List Sample).map Sample.val) := by
    simp [statToLog, reset_eq]
  by_cases hc : cur = []
  · subst hc
    have hl : (statToLog c s d t).log = s.log := by
      simp [statToLog, h3, statsOf]
    exact ⟨gs, ⟨h1, by rw [hl]; exact h2, hw⟩, Or.inl ⟨rfl, rfl, hl⟩⟩
  · have hl : (statToLog c s d t).log = entryOf c (s.win d) d t :: s.log := by
      simp only [statToLog, entryOf]
      have hne : (s.win d).samples ≠ 0 := by
        rw [h3]
        simpa [statsOf] using hc
      rw [if_pos hne]
      cases c.mode <;> rfl
    refine ⟨cur :: gs, ⟨by simpa using h1, ?_, hw⟩, Or.inr ⟨hc, rfl, hl⟩⟩
    have hd : (entryOf c (s.win d) d t).ddir = d := by
      unfold entryOf; cases c.mode <;> rfl
    rw [hl, List.filter_cons, hd]
    simp only [beq_self_eq_true, if_true]
    refine List.Forall₂.cons ?_ h2
    rw [h3]
    exact entryOf_ok c cur hc d t

/-- A sample of another direction changes nothing. -/
theorem addSample_other {c s x d} (h : d ≠ x.ddir) : (addSample c s x).win d = s.win d ∧
    (addSample c s x).log.filter (fun x => x.ddir == d) = s.log.filter (fun x => x.ddir == d) ∧
    (addSample c s x).last d = s.last d := by
  simp only [addSample]
  split
  · exact ⟨rfl, rfl, rfl⟩
  · split
    · simp [h]
    · split
      · simp [h]
      · refine ⟨?_, ?_, by simp [h]; rfl⟩
        · simp only
          rw [(statToLog_other h).1]
          simp [h]
        · simp only
          rw [(statToLog_other h).2.1]

/-- The state with the sample in its window. -/
def addWin (s : St) (x : Sample) : St :=
  { s with win := fun d => if d = x.ddir then Fio.Stat.addSample (s.win d) x.val else s.win d }

theorem addWin_inv {m d s gs cur xs x} (h : Inv m d s gs cur xs) (hx : x.ddir = d)
    (hl : cur.length + 1 < 2 ^ 64) (hv : x.val < 2 ^ 64) : Inv m d (addWin s x) gs (cur ++ [x]) (xs ++ [x]) := by
  obtain ⟨h1, h2, h3⟩ := h
  refine ⟨?_, h2, ?_⟩
  · rw [← List.append_assoc, h1, List.filter_append]
    simp [hx]
  · simp only [addWin, hx, if_true, h3]
    rw [Fio.Stat.addSample_stats _ _ (by simpa using hl) hv]
    simp

theorem cur_le {m d s gs cur xs} (h : Inv m d s gs cur xs) : cur.length ≤ xs.length := by
  have h1 := congrArg List.length h.part
  have h2 := List.length_filter_le (fun x : Sample => x.ddir == d) xs
  rw [List.length_append] at h1
  omega

/-- One sample. -/
theorem addSample_inv {c d s gs cur xs x} (h : Inv c.mode d s gs cur xs) (hd : d < 3)
    (hl : xs.length + 1 < 2 ^ 64) (hv : x.val < 2 ^ 64) :
    ∃ gs' cur', Inv c.mode d (addSample c s x) gs' cur' (xs ++ [x]) := by
  by_cases hx : x.ddir = d
  · have := cur_le h
    have h' := addWin_inv h hx (by omega) hv
    simp only [addSample]
    rw [if_neg (by omega)]
    split
    · exact ⟨gs, cur ++ [x], h'⟩
    · split
      · exact ⟨gs, cur ++ [x], h'⟩
      · obtain ⟨gs', h2, _⟩ := statToLog_same (t := x.time) h'
        rw [hx]
        refine ⟨gs', [], ⟨h2.part, ?_, ?_⟩⟩
        · have := h2.ents; rw [← hx] at this ⊢; exact this
        · have := h2.win; rw [← hx] at this ⊢; exact this
  · obtain ⟨h1, h2, h3⟩ := h
    obtain ⟨e1, e2, e3⟩ := addSample_other (c := c) (s := s) (x := x) (d := d) (fun h => hx h.symm)
    refine ⟨gs, cur, ⟨?_, by rw [e2]; exact h2, by rw [e1]; exact h3⟩⟩
    rw [h1, List.filter_append]
    simp [hx]

theorem fold_inv {c d} (hd : d < 3) : ∀ (ys : List Sample) {s gs cur xs}, Inv c.mode d s gs cur xs →
    (xs ++ ys).length < 2 ^ 64 → (∀ x ∈ ys, x.val < 2 ^ 64) →
    ∃ gs' cur', Inv c.mode d (ys.foldl (addSample c) s) gs' cur' (xs ++ ys)
  | [], s, gs, cur, xs, h, _, _ => ⟨gs, cur, by simpa using h⟩
  | y :: ys, s, gs, cur, xs, h, hl, hv => by
    have hl' : xs.length + 1 < 2 ^ 64 := by simp at hl; omega
    obtain ⟨gs1, cur1, h1⟩ := addSample_inv h hd hl' (hv y (by simp))
    obtain ⟨gs2, cur2, h2⟩ := fold_inv hd ys h1 (by simpa using hl) (fun x hx => hv x (by simp [hx]))
    exact ⟨gs2, cur2, by simpa using h2⟩

theorem statToLog_keep {c d s gs cur xs e t} (h : Inv c.mode d s gs cur xs) (he : d ≠ e) :
    Inv c.mode d (statToLog c s e t) gs cur xs := by
  obtain ⟨e1, e2, _⟩ := statToLog_other (c := c) (s := s) (t := t) he
  exact ⟨h.part, by rw [e2]; exact h.ents, by rw [e1]; exact h.win⟩

theorem finalize_inv {c d s gs cur xs t} (h : Inv c.mode d s gs cur xs) (hd : d < 3) :
    ∃ gs', Inv c.mode d (finalize c s t) gs' [] xs ∧ (gs' = gs ∨ gs' = cur :: gs) := by
  rw [finalize]
  have hd : d = 0 ∨ d = 1 ∨ d = 2 := by omega
  rcases hd with rfl | rfl | rfl
  · obtain ⟨gs', h1, h2⟩ := statToLog_same (t := t) h
    refine ⟨gs', statToLog_keep (statToLog_keep h1 (by decide)) (by decide), ?_⟩
    rcases h2 with h2 | h2
    · exact Or.inl h2.2.1
    · exact Or.inr h2.2.1
  · obtain ⟨gs', h1, h2⟩ := statToLog_same (t := t) (statToLog_keep (e := 0) (t := t) h (by decide))
    refine ⟨gs', statToLog_keep h1 (by decide), ?_⟩
    rcases h2 with h2 | h2
    · exact Or.inl h2.2.1
    · exact Or.inr h2.2.1
  · obtain ⟨gs', h1, h2⟩ := statToLog_same (t := t)
      (statToLog_keep (e := 1) (t := t) (statToLog_keep (e := 0) (t := t) h (by decide)) (by decide))
    refine ⟨gs', h1, ?_⟩
    rcases h2 with h2 | h2
    · exact Or.inl h2.2.1
    · exact Or.inr h2.2.1

/-- **C57.** For each direction, the samples are cut into groups and each group has one entry, in the
same order, with the mean and the largest value of its samples. -/
theorem every_sample {c : Cfg} {xs : List Sample} {t d : Nat} (hd : d < 3) (hl : xs.length < 2 ^ 64)
    (hv : ∀ x ∈ xs, x.val < 2 ^ 64) : ∃ gs : List (List Sample),
      gs.flatten = xs.filter (fun x => x.ddir == d) ∧
      List.Forall₂ (EntryOk c.mode) ((run c xs t).log.reverse.filter (fun e => e.ddir == d)) gs := by
  obtain ⟨gs, cur, h⟩ := fold_inv (c := c) hd xs (init_inv c.mode d) (by simpa using hl) hv
  obtain ⟨gs', h', _⟩ := finalize_inv (t := t) h hd
  refine ⟨gs'.reverse, by simpa using h'.part, ?_⟩
  rw [List.filter_reverse]
  exact List.rel_reverse h'.ents

/-- What is known of the times of one direction, if the time does not go back; `now` is the time of the last
sample. -/
structure Times (c : Cfg) (d : Nat) (s : St) (gs : List (List Sample)) (cur : List Sample) (now : Nat) : Prop where
  mult : ∃ k, s.last d = k * c.avg
  le : s.last d ≤ now
  cur : ∀ x ∈ cur, s.last d ≤ x.time ∧ x.time < s.last d + c.avg
  groups : ∀ g ∈ gs, Spec.oneWindow c.avg (g.map Sample.time)
  ents : List.Forall₂ (fun (e : Entry) (g : List Sample) => ∃ y, g.getLast? = some y ∧ e.time = y.time) (s.log.filter (fun e => e.ddir == d)) gs
  inl : c.inl = true → (s.log.filter (fun e => e.ddir == d)).Pairwise (fun a b => b.time / c.avg < a.time / c.avg) ∧
    ∀ e ∈ s.log.filter (fun e => e.ddir == d), e.time / c.avg ≤ s.last d / c.avg

theorem init_times (c : Cfg) (d : Nat) : Times c d init [] [] 0 :=
  ⟨⟨0, by simp [init]⟩, Nat.le_refl _, by simp, by simp, List.Forall₂.nil, fun _ => by simp [init]⟩

theorem oneWindow_of {avg k : Nat} {ts : List Nat} {t : Nat}
    (h : ∀ x ∈ ts, k * avg ≤ x ∧ x < k * avg + avg) : Spec.oneWindow avg (ts ++ [t]) := by
  refine ⟨k, ?_⟩
  rw [List.dropLast_concat]
  intro x hx
  obtain ⟨h1, h2⟩ := h x hx
  exact ⟨h1, by rw [Nat.add_mul]; omega⟩

/-- One sample. -/
theorem addSample_times {c d s gs cur xs x now} (h : Inv c.mode d s gs cur xs) (ht : Times c d s gs cur now)
    (hd : d < 3) (ha : 0 < c.avg) (hn : now ≤ x.time) (hl : xs.length + 1 < 2 ^ 64) (hv : x.val < 2 ^ 64) :
    ∃ gs' cur', Inv c.mode d (addSample c s x) gs' cur' (xs ++ [x]) ∧
      Times c d (addSample c s x) gs' cur' x.time := by
  obtain ⟨⟨k, t1⟩, t2, t3, t4, t5, t6⟩ := ht
  by_cases hx : x.ddir = d
  · subst hx
    have := cur_le h
    have h' := addWin_inv h rfl (by omega) hv
    simp only [addSample]
    rw [if_neg (by omega), if_neg (by omega)]
    split
    · rename_i hw
      refine ⟨gs, cur ++ [x], h', ⟨k, t1⟩, (by show s.last _ ≤ _; omega), ?_, t4, t5, t6⟩
      intro y hy
      rcases List.mem_append.1 hy with hy | hy
      · exact t3 y hy
      · simp only [List.mem_singleton] at hy
        subst hy
        show s.last _ ≤ _ ∧ _ < s.last _ + _
        omega
    · rename_i hw
      obtain ⟨gs', h2, h3⟩ := statToLog_same (t := x.time) h'
      have hne : cur ++ [x] ≠ [] := by simp
      rcases h3 with h3 | ⟨_, rfl, h3⟩
      · exact absurd h3.1 hne
      have hd' : ∀ w, (entryOf c w x.ddir x.time).ddir = x.ddir := by
        intro w; unfold entryOf; cases c.mode <;> rfl
      have ht' : ∀ w, (entryOf c w x.ddir x.time).time = x.time := by
        intro w; unfold entryOf; cases c.mode <;> rfl
      have hlog : (statToLog c (addWin s x) x.ddir x.time).log.filter (fun e => e.ddir == x.ddir) =
          entryOf c ((addWin s x).win x.ddir) x.ddir x.time :: s.log.filter (fun e => e.ddir == x.ddir) := by
        rw [h3, List.filter_cons, hd']
        simp [addWin]
      refine ⟨(cur ++ [x]) :: gs, [], ⟨h2.part, h2.ents, h2.win⟩, ?_⟩
      refine ⟨⟨x.time / c.avg, ?_⟩, ?_, by simp, ?_, ?_, ?_⟩
      · simp only [if_true]
        have := Nat.div_add_mod x.time c.avg
        rw [Nat.mul_comm] at this
        omega
      · simp only [if_true]; omega
      · intro g hg
        rcases List.mem_cons.1 hg with rfl | hg
        · rw [List.map_append]
          refine oneWindow_of (k := k) ?_
          intro y hy
          obtain ⟨z, hz, rfl⟩ := List.mem_map.1 hy
          have := t3 z hz
          omega
        · exact t4 g hg
      · show List.Forall₂ _ ((statToLog c (addWin s x) x.ddir x.time).log.filter _) _
        rw [hlog]
        exact List.Forall₂.cons ⟨x, by simp, ht' _⟩ t5
      · intro hi
        obtain ⟨t6, t7⟩ := t6 hi
        have hge : s.last x.ddir + c.avg ≤ x.time := by
          simp only [hi, true_or, and_true] at hw
          omega
        have hlt : s.last x.ddir / c.avg < x.time / c.avg := by
          have h1 := Nat.div_le_div_right (c := c.avg) hge
          rw [Nat.add_div_right _ ha] at h1
          omega
        have hlast : (x.time - x.time % c.avg) / c.avg = x.time / c.avg := by
          have h1 := Nat.div_add_mod x.time c.avg
          have h2 : x.time - x.time % c.avg = c.avg * (x.time / c.avg) := by omega
          rw [h2, Nat.mul_div_cancel_left _ ha]
        show List.Pairwise _ ((statToLog c (addWin s x) x.ddir x.time).log.filter _) ∧
          ∀ e ∈ (statToLog c (addWin s x) x.ddir x.time).log.filter _, _
        rw [hlog]
        simp only [if_true, hlast]
        refine ⟨List.Pairwise.cons ?_ t6, ?_⟩
        · intro e he
          rw [ht']
          have := t7 e he
          omega
        · intro e he
          rcases List.mem_cons.1 he with rfl | he
          · rw [ht']
          · have := t7 e he
            omega
  · obtain ⟨h1, h2, h3⟩ := h
    obtain ⟨e1, e2, e3⟩ := addSample_other (c := c) (s := s) (x := x) (d := d) (fun h => hx h.symm)
    refine ⟨gs, cur, ⟨?_, by rw [e2]; exact h2, by rw [e1]; exact h3⟩, ?_⟩
    · rw [h1, List.filter_append]
      simp [hx]
    · exact ⟨by rw [e3]; exact ⟨k, t1⟩, by rw [e3]; omega, by rw [e3]; exact t3, t4, by rw [e2]; exact t5,
        by rw [e2, e3]; exact t6⟩

theorem fold_times {c d} (hd : d < 3) (ha : 0 < c.avg) : ∀ (ys : List Sample) {s gs cur xs now},
    Inv c.mode d s gs cur xs → Times c d s gs cur now → (xs ++ ys).length < 2 ^ 64 →
    (∀ x ∈ ys, x.val < 2 ^ 64 ∧ now ≤ x.time) → ys.Pairwise (fun a b => a.time ≤ b.time) →
    ∃ gs' cur' now', Inv c.mode d (ys.foldl (addSample c) s) gs' cur' (xs ++ ys) ∧
      Times c d (ys.foldl (addSample c) s) gs' cur' now'
  | [], s, gs, cur, xs, now, h, ht, _, _, _ => ⟨gs, cur, now, by simpa using h, ht⟩
  | y :: ys, s, gs, cur, xs, now, h, ht, hl, hv, hp => by
    have hl' : xs.length + 1 < 2 ^ 64 := by simp at hl; omega
    obtain ⟨gs1, cur1, h1, h1t⟩ := addSample_times h ht hd ha (hv y (by simp)).2 hl' (hv y (by simp)).1
    rw [List.pairwise_cons] at hp
    obtain ⟨gs2, cur2, now2, h2, h2t⟩ := fold_times hd ha ys h1 h1t (by simpa using hl)
      (fun x hx => ⟨(hv x (by simp [hx])).1, hp.1 x hx⟩) hp.2
    exact ⟨gs2, cur2, now2, by simpa using h2, h2t⟩

/-- The entries of the last step. -/
theorem finalize_log {c d s gs cur xs t} (h : Inv c.mode d s gs cur xs) (hd : d < 3) :
    (cur = [] ∧ (finalize c s t).log.filter (fun e => e.ddir == d) = s.log.filter (fun e => e.ddir == d)) ∨
    (cur ≠ [] ∧ ∃ e, e.time = t ∧ (finalize c s t).log.filter (fun e => e.ddir == d) = e :: s.log.filter (fun e => e.ddir == d)) := by
  have one : ∀ s1 : St, Inv c.mode d s1 gs cur xs →
      (cur = [] ∧ (statToLog c s1 d t).log.filter (fun e => e.ddir == d) = s1.log.filter (fun e => e.ddir == d)) ∨
      (cur ≠ [] ∧ ∃ e, e.time = t ∧ (statToLog c s1 d t).log.filter (fun e => e.ddir == d) = e :: s1.log.filter (fun e => e.ddir == d)) := by
    intro s1 h1
    obtain ⟨_, _, h2⟩ := statToLog_same (t := t) h1
    rcases h2 with ⟨h3, _, h4⟩ | ⟨h3, _, h4⟩
    · exact Or.inl ⟨h3, by rw [h4]⟩
    · refine Or.inr ⟨h3, entryOf c (s1.win d) d t, by unfold entryOf; cases c.mode <;> rfl, ?_⟩
      have hd' : (entryOf c (s1.win d) d t).ddir = d := by unfold entryOf; cases c.mode <;> rfl
      rw [h4, List.filter_cons, hd']
      simp
  rw [finalize]
  have hd : d = 0 ∨ d = 1 ∨ d = 2 := by omega
  rcases hd with rfl | rfl | rfl
  · rw [(statToLog_other (by decide)).2.1, (statToLog_other (by decide)).2.1]
    exact one s h
  · rw [(statToLog_other (by decide)).2.1]
    have := one (statToLog c s 0 t) (statToLog_keep h (by decide))
    rw [(statToLog_other (d := 1) (e := 0) (by decide)).2.1] at this
    exact this
  · have := one (statToLog c (statToLog c s 0 t) 1 t) (statToLog_keep (statToLog_keep h (by decide)) (by decide))
    rw [(statToLog_other (d := 2) (e := 1) (by decide)).2.1, (statToLog_other (d := 2) (e := 0) (by decide)).2.1] at this
    exact this

/-- **C57.** The time of an entry is that of its last sample, or of the end; the samples of an entry are those of one window of log_avg_msec, and the first one after it;
in a latency log no two entries of a direction, but for the last one of the job, are in the same window. -/
theorem windows {c : Cfg} {xs : List Sample} {t d : Nat} (hd : d < 3) (ha : 0 < c.avg) (hl : xs.length < 2 ^ 64)
    (hv : ∀ x ∈ xs, x.val < 2 ^ 64) (hp : xs.Pairwise (fun a b => a.time ≤ b.time)) : ∃ gs : List (List Sample),
      gs.flatten = xs.filter (fun x => x.ddir == d) ∧
      List.Forall₂ (EntryOk c.mode) ((run c xs t).log.reverse.filter (fun e => e.ddir == d)) gs ∧
      List.Forall₂ (fun e g => e.time = t ∨ ∃ y, g.getLast? = some y ∧ e.time = y.time)
        ((run c xs t).log.reverse.filter (fun e => e.ddir == d)) gs ∧
      (∀ g ∈ gs, Spec.oneWindow c.avg (g.map Sample.time)) ∧
      (c.inl = true → ((run c xs t).log.reverse.filter (fun e => e.ddir == d)).dropLast.Pairwise
        (fun a b => a.time / c.avg < b.time / c.avg)) := by
  obtain ⟨gs, cur, now, h, ht⟩ := fold_times (c := c) hd ha xs (init_inv c.mode d) (init_times c d) (by simpa using hl)
    (fun x hx => ⟨hv x hx, Nat.zero_le _⟩) hp
  rw [List.nil_append] at h
  obtain ⟨gs', h', hg⟩ := finalize_inv (t := t) h hd
  refine ⟨gs'.reverse, by simpa using h'.part, ?_, ?_, ?_, fun hi => ?_⟩
  · rw [List.filter_reverse]
    exact List.rel_reverse h'.ents
  · rw [List.filter_reverse]
    refine List.rel_reverse ?_
    have weak := List.Forall₂.imp (S := fun (e : Entry) (g : List Sample) => e.time = t ∨ ∃ y, g.getLast? = some y ∧ e.time = y.time)
      (fun _ _ h => Or.inr h) ht.ents
    have hlen := h'.ents.length_eq
    have hlen0 := h.ents.length_eq
    show List.Forall₂ _ ((finalize c _ t).log.filter _) _
    change ((finalize c _ t).log.filter _).length = _ at hlen
    rcases finalize_log (t := t) h hd with ⟨hc, e⟩ | ⟨hc, e0, et, e⟩
    · rw [e] at hlen ⊢
      rcases hg with rfl | rfl
      · exact weak
      · simp only [List.length_cons] at hlen; omega
    · rw [e] at hlen ⊢
      rcases hg with rfl | rfl
      · simp only [List.length_cons] at hlen; omega
      · exact List.Forall₂.cons (Or.inl et) weak
  · intro g hgm
    rw [List.mem_reverse] at hgm
    obtain ⟨k, hk⟩ := ht.mult
    have hcur : Spec.oneWindow c.avg (cur.map Sample.time) := by
      refine ⟨k, fun y hy => ?_⟩
      obtain ⟨z, hz, rfl⟩ := List.mem_map.1 (List.dropLast_subset _ hy)
      have := ht.cur z hz
      rw [Nat.add_mul]
      omega
    rcases hg with rfl | rfl
    · exact ht.groups g hgm
    · rcases List.mem_cons.1 hgm with rfl | hgm
      · exact hcur
      · exact ht.groups g hgm
  · obtain ⟨t6, _⟩ := ht.inl hi
    rw [List.filter_reverse, List.dropLast_reverse, List.pairwise_reverse]
    rcases finalize_log (t := t) h hd with ⟨_, e⟩ | ⟨_, e0, _, e⟩
    · show List.Pairwise _ (((finalize c _ t).log.filter _).tail)
      rw [e]
      exact t6.sublist (List.tail_sublist _)
    · show List.Pairwise _ (((finalize c _ t).log.filter _).tail)
      rw [e]
      exact t6

/-- The hypotheses are those of a run with three entries. -/
example : ((run ⟨1000, true, 1, .max⟩ [⟨0, 10, 5⟩, ⟨0, 900, 7⟩, ⟨0, 1003, 1⟩, ⟨1, 1500, 4⟩, ⟨0, 2100, 8⟩, ⟨0, 2200, 2⟩] 2500).log.reverse) =
    [⟨1003, 0, 7, 0⟩, ⟨1500, 1, 4, 0⟩, ⟨2100, 0, 8, 0⟩, ⟨2500, 0, 2, 0⟩] := by
  decide +kernel

/-- A bandwidth or IOPS log, in which an entry may come a millisecond early, can have two entries in a
window: the early one does not start a new window. -/
theorem slack_counterexample :
    ((run ⟨1000, false, 1, .max⟩ [⟨0, 500, 5⟩, ⟨0, 999, 7⟩, ⟨0, 1499, 1⟩, ⟨0, 1999, 3⟩] 2000).log.reverse) =
      [⟨999, 0, 7, 0⟩, ⟨1499, 0, 1, 0⟩, ⟨1999, 0, 3, 0⟩] := by
  decide +kernel

end Fio.LogAvg
