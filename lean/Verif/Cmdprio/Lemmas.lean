import Verif.Cmdprio.Spec

namespace Fio.Cmdprio

open Spec

theorem find_some {l : List Nat} {p i : Nat} (h : find l p = some i) : l[i]? = some p := by
  induction l generalizing i with
  | nil => simp [find] at h
  | cons a l ih =>
    unfold find at h
    split at h
    · cases h; simp [*]
    · cases hf : find l p with
      | none => simp [hf] at h
      | some j =>
        simp [hf] at h
        subst h
        simpa using ih hf

theorem find_none {l : List Nat} {p : Nat} (h : find l p = none) : p ∉ l := by
  induction l with
  | nil => simp
  | cons a l ih =>
    unfold find at h
    split at h
    · cases h
    · rename_i hne
      cases hf : find l p with
      | none => simp only [List.mem_cons, not_or]; exact ⟨fun h => hne h.symm, ih hf⟩
      | some j => simp [hf] at h

/-- A table of priorities as it is being filled. -/
def Good (ioprio : Nat) (v : Values) : Prop :=
  v.prios.Nodup ∧ v.prios[0]? = some ioprio ∧ v.prios.length ≤ v.room ∧ v.room ≤ 65536

theorem assign_ok {ioprio : Nat} {v : Values} (hv : Good ioprio v) (p : Nat) (hr : v.prios.length < v.room) :
    ∃ v' i, assign v p = some (v', i) ∧ Good ioprio v' ∧ v'.prios[i]? = some p ∧ v.prios <+: v'.prios ∧
      v'.room = v.room ∧ v'.prios.length ≤ v.prios.length + 1 := by
  obtain ⟨hn, h0, hl, hb⟩ := hv
  unfold assign
  cases hf : find v.prios p with
  | some i =>
    have hi := find_some hf
    have hlt : i < v.prios.length := (List.getElem?_eq_some_iff.1 hi).1
    refine ⟨v, i % 65536, rfl, ⟨hn, h0, hl, hb⟩, ?_, List.prefix_rfl, rfl, by omega⟩
    rw [Nat.mod_eq_of_lt (by omega)]
    exact hi
  | none =>
    have hp := find_none hf
    have hpos : 0 < v.prios.length := (List.getElem?_eq_some_iff.1 h0).1
    refine ⟨⟨v.prios ++ [p], v.room⟩, v.prios.length % 65536, by simp [hr], ⟨?_, ?_, ?_, hb⟩, ?_, ?_, rfl, by simp⟩
    · rw [List.nodup_append]
      refine ⟨hn, by simp, ?_⟩
      intro a ha b hb' hab
      simp at hb'
      subst hb'
      subst hab
      exact hp ha
    · rw [List.getElem?_append_left hpos]; exact h0
    · simp; omega
    · rw [Nat.mod_eq_of_lt (by omega)]; simp
    · exact List.prefix_append _ _

/-- The entries with their priorities. -/
def pairs (implicit : Nat) (es : List Entry) : List (Nat × Nat) := es.map fun e => (named implicit e, e.perc)

def sumPerc (es : List Entry) : Nat := (es.map (·.perc)).sum

theorem named_eq {implicit : Nat} {e : Entry} (he : Valid e) :
    (if e.prio = -1 then implicit else e.prio.toNat) = named implicit e := by
  unfold named
  obtain ⟨h1, _⟩ := he
  by_cases h : e.prio = -1
  · simp [h]
  · rw [if_neg h, if_neg (by omega)]

/-- The indices of a list of priorities point at their priorities. -/
def Points (t : List Nat) (ps : List Prio) : Prop := ∀ p ∈ ps, t[p.index]? = some p.prio

theorem Points.mono {t t' : List Nat} {ps : List Prio} (h : Points t ps) (hp : t <+: t') : Points t' ps := by
  intro p hm
  obtain ⟨r, rfl⟩ := hp
  have := h p hm
  rw [List.getElem?_append_left ((List.getElem?_eq_some_iff.1 this).1)]
  exact this

theorem fillLoop_ok {ioprio implicit : Nat} (es : List Entry) (b : Bsprio) (v : Values) (hv : Good ioprio v)
    (hes : ∀ e ∈ es, Valid e) (hroom : v.prios.length + es.length ≤ v.room) (hb : Points v.prios b.prios) (ht : b.tot ≤ 100) :
    (b.tot + sumPerc es ≤ 100 → ∃ b' v', fillLoop implicit es b v = .ok (b', v') ∧ Good ioprio v' ∧
        v.prios <+: v'.prios ∧ v'.room = v.room ∧ v'.prios.length ≤ v.prios.length + es.length ∧
        b'.bs = b.bs ∧ b'.tot = b.tot + sumPerc es ∧ Points v'.prios b'.prios ∧
        b'.prios.map (fun p => (p.prio, p.perc)) = b.prios.map (fun p => (p.prio, p.perc)) ++ pairs implicit es) ∧
    (100 < b.tot + sumPerc es → fillLoop implicit es b v = .error) := by
  induction es generalizing b v with
  | nil =>
    constructor
    · intro _
      exact ⟨b, v, rfl, hv, List.prefix_rfl, rfl, by simp, rfl, by simp [sumPerc], hb, by simp [pairs]⟩
    · intro h
      simp [sumPerc] at h
      omega
  | cons e es ih =>
    simp only [List.length_cons] at hroom
    obtain ⟨v1, i, ha, hg, hi, hpre, hrm, hln⟩ := assign_ok hv (named implicit e) (by omega)
    have hsum : sumPerc (e :: es) = e.perc + sumPerc es := by simp [sumPerc]
    have hunf : fillLoop implicit (e :: es) b v =
        if b.tot + e.perc > 100 then .error
        else fillLoop implicit es ⟨b.bs, b.tot + e.perc, b.prios ++ [⟨named implicit e, e.perc, i⟩]⟩ v1 := by
      conv => lhs; unfold fillLoop
      simp only [named_eq (hes e (by simp)), ha]
    rw [hunf, hsum]
    by_cases hgt : b.tot + e.perc > 100
    · rw [if_pos hgt]
      exact ⟨fun h => by omega, fun _ => rfl⟩
    · rw [if_neg hgt]
      have hpts : Points v1.prios (b.prios ++ [⟨named implicit e, e.perc, i⟩]) := by
        intro p hp
        rcases List.mem_append.1 hp with hp | hp
        · exact hb.mono hpre p hp
        · simp at hp; subst hp; exact hi
      have := ih ⟨b.bs, b.tot + e.perc, b.prios ++ [⟨named implicit e, e.perc, i⟩]⟩ v1 hg
        (fun x hx => hes x (by simp [hx])) (by omega) hpts (by simp; omega)
      obtain ⟨hok, herr⟩ := this
      simp only at hok herr
      constructor
      · intro hle
        obtain ⟨b', v', h1, h2, h3, h4, h5, h6, h7, h8, h9⟩ := hok (by omega)
        refine ⟨b', v', h1, h2, hpre.trans h3, by omega, by simp; omega, h6, by omega, h8, ?_⟩
        rw [h9]
        simp [pairs]
      · intro hlt
        exact herr (by omega)

/-- The entries come sorted. -/
def Sorted (es : List Entry) : Prop := es.Pairwise fun a b => a.bs ≤ b.bs

theorem cut_spec (e : Entry) (es : List Entry) (h : Sorted (e :: es)) :
    es = (cut e es).1 ++ (cut e es).2 ∧ (∀ x ∈ (cut e es).1, x.bs = e.bs) ∧ (∀ x ∈ (cut e es).2, x.bs ≠ e.bs) ∧
      Sorted (cut e es).2 := by
  induction es generalizing e with
  | nil => simp [cut, Sorted]
  | cons f r ih =>
    unfold cut
    have hp := List.pairwise_cons.1 h
    split
    · rename_i heq
      obtain ⟨h1, h2, h3, h4⟩ := ih f hp.2
      refine ⟨by simp only [List.cons_append]; rw [← h1], ?_, ?_, h4⟩
      · intro x hx
        rcases List.mem_cons.1 hx with rfl | hx
        · exact heq.symm
        · rw [h2 x hx, heq]
      · intro x hx
        rw [heq]
        exact h3 x hx
    · rename_i hne
      refine ⟨rfl, by simp, ?_, hp.2⟩
      intro x hx
      have h1 := hp.1 f (by simp)
      rcases List.mem_cons.1 hx with rfl | hx
      · omega
      · have := (List.pairwise_cons.1 hp.2).1 x hx
        omega

/-- What the search finds in a description of the entries `es`. -/
def Describes (implicit : Nat) (es : List Entry) (t : List Nat) (d : List Bsprio) : Prop :=
  ∀ len, match findBs d len with
    | none => es.filter (fun e => e.bs = len) = []
    | some b => b.tot = total es len ∧ Points t b.prios ∧
        b.prios.map (fun p => (p.prio, p.perc)) = pairs implicit (es.filter fun e => e.bs = len)

theorem Describes.mono {implicit : Nat} {es : List Entry} {t t' : List Nat} {d : List Bsprio}
    (h : Describes implicit es t d) (hp : t <+: t') : Describes implicit es t' d := by
  intro len
  have := h len
  split
  · rename_i hf; rw [hf] at this; exact this
  · rename_i b hf
    rw [hf] at this
    exact ⟨this.1, this.2.1.mono hp, this.2.2⟩

theorem filter_cut_self {e : Entry} {es : List Entry} (h : Sorted (e :: es)) :
    (e :: es).filter (fun x => x.bs = e.bs) = e :: (cut e es).1 := by
  obtain ⟨h1, h2, h3, _⟩ := cut_spec e es h
  conv => lhs; rw [h1]
  simp only [List.filter_cons, decide_true, if_true, List.filter_append]
  rw [List.filter_eq_self.2 (by intro x hx; simp [h2 x hx]), List.filter_eq_nil_iff.2 (by intro x hx; simp [h3 x hx])]
  simp

theorem filter_cut_other {e : Entry} {es : List Entry} (h : Sorted (e :: es)) {len : Nat} (hne : e.bs ≠ len) :
    (e :: es).filter (fun x => x.bs = len) = (cut e es).2.filter fun x => x.bs = len := by
  obtain ⟨h1, h2, h3, _⟩ := cut_spec e es h
  conv => lhs; rw [h1]
  simp only [List.filter_cons, decide_eq_true_eq, hne, if_false, List.filter_append]
  rw [(List.filter_eq_nil_iff (l := (cut e es).1)).2 (by intro x hx; simp [h2 x hx, hne])]
  simp

theorem generate_ok {ioprio implicit : Nat} (n : Nat) : ∀ (es : List Entry), es.length ≤ n → ∀ (bs : List Bsprio) (v : Values),
    Good ioprio v → (∀ e ∈ es, Valid e) → Sorted es → v.prios.length + es.length ≤ v.room →
    ((∀ len, total es len ≤ 100) → ∃ d v', generate implicit es bs v = .ok (bs ++ d, v') ∧ Good ioprio v' ∧
        v.prios <+: v'.prios ∧ Describes implicit es v'.prios d) ∧
    ((∃ len, 100 < total es len) → generate implicit es bs v = .error) := by
  induction n with
  | zero =>
    intro es hn bs v hv _ _ _
    have : es = [] := List.length_eq_zero_iff.1 (by omega)
    subst this
    constructor
    · intro _
      refine ⟨[], v, by simp [generate], hv, List.prefix_rfl, ?_⟩
      intro len; simp [findBs]
    · rintro ⟨len, h⟩
      simp [total] at h
  | succ n ih =>
    intro es hn bs v hv hval hs hroom
    cases es with
    | nil =>
      constructor
      · intro _
        refine ⟨[], v, by simp [generate], hv, List.prefix_rfl, ?_⟩
        intro len; simp [findBs]
      · rintro ⟨len, h⟩
        simp [total] at h
    | cons e es =>
      obtain ⟨h1, h2, h3, h4⟩ := cut_spec e es hs
      have hlen : es.length = (cut e es).1.length + (cut e es).2.length := by
        conv => lhs; rw [h1]
        simp
      simp only [List.length_cons] at hn hroom
      have hvc : ∀ x ∈ e :: (cut e es).1, Valid x := by
        intro x hx
        rcases List.mem_cons.1 hx with rfl | hx
        · exact hval _ (by simp)
        · exact hval x (List.mem_cons_of_mem _ (by rw [h1]; exact List.mem_append_left _ hx))
      have hvr : ∀ x ∈ (cut e es).2, Valid x := by
        intro x hx
        exact hval x (List.mem_cons_of_mem _ (by rw [h1]; exact List.mem_append_right _ hx))
      have htot : sumPerc (e :: (cut e es).1) = total (e :: es) e.bs := by
        unfold total sumPerc
        rw [filter_cut_self hs]
      have hrest : ∀ len, e.bs ≠ len → total (e :: es) len = total (cut e es).2 len := by
        intro len hne
        unfold total
        rw [filter_cut_other hs hne]
      have hrest0 : total (cut e es).2 e.bs = 0 := by
        unfold total
        rw [List.filter_eq_nil_iff.2 (by intro x hx; simp [h3 x hx])]
        rfl
      obtain ⟨hok, herr⟩ := fillLoop_ok (ioprio := ioprio) (implicit := implicit) (e :: (cut e es).1) ⟨e.bs, 0, []⟩ v hv hvc
        (by simp; omega) (by intro p hp; simp at hp) (by simp)
      simp only [Nat.zero_add, htot] at hok herr
      have hunf : generate implicit (e :: es) bs v = match fillLoop implicit (e :: (cut e es).1) ⟨e.bs, 0, []⟩ v with
          | .crash => .crash
          | .error => .error
          | .ok (b, v) => generate implicit (cut e es).2 (bs ++ [b]) v := by
        conv => lhs; unfold generate
        unfold fill
        rfl
      rw [hunf]
      constructor
      · intro hall
        obtain ⟨b', v', e1, e2, e3, e4, e5, e6, e7, e8, e9⟩ := hok (hall e.bs)
        rw [e1]
        dsimp only
        simp only [List.length_cons] at e5
        obtain ⟨hk, _⟩ := ih (cut e es).2 (by omega) (bs ++ [b']) v' e2 hvr h4 (by omega)
        obtain ⟨d, v2, g1, g2, g3, g4⟩ := hk (by
          intro len
          by_cases hl : e.bs = len
          · subst hl; omega
          · rw [← hrest len hl]; exact hall len)
        refine ⟨b' :: d, v2, by rw [g1]; simp, g2, e3.trans g3, ?_⟩
        intro len
        unfold findBs
        by_cases hl : b'.bs = len
        · rw [if_pos hl]
          have hl' : e.bs = len := by rw [← e6]; exact hl
          subst hl'
          refine ⟨e7, e8.mono g3, ?_⟩
          rw [filter_cut_self hs, e9]
          simp
        · rw [if_neg hl]
          have hl' : e.bs ≠ len := by rw [← e6]; exact hl
          have := g4 len
          split
          · rename_i hf
            rw [hf] at this
            rw [filter_cut_other hs hl']
            exact this
          · rename_i b hf
            rw [hf] at this
            rw [filter_cut_other hs hl', hrest len hl']
            exact this
      · rintro ⟨len, hlt⟩
        by_cases hl : e.bs = len
        · subst hl
          rw [herr hlt]
        · by_cases hbig : 100 < total (e :: es) e.bs
          · rw [herr hbig]
          · obtain ⟨b', v', e1, e2, e3, e4, e5, e6, e7, e8, e9⟩ := hok (by omega)
            rw [e1]
            dsimp only
            simp only [List.length_cons] at e5
            obtain ⟨_, hk⟩ := ih (cut e es).2 (by omega) (bs ++ [b']) v' e2 hvr h4 (by omega)
            exact hk ⟨len, by rw [← hrest len hl]; exact hlt⟩

/-! ## Counting -/

theorem countP_or {α : Type} (l : List α) (p q : α → Bool) (h : ∀ x, ¬ (p x = true ∧ q x = true)) :
    l.countP (fun x => p x || q x) = l.countP p + l.countP q := by
  induction l with
  | nil => simp
  | cons a l ih =>
    simp only [List.countP_cons, ih]
    have := h a
    cases hp : p a <;> cases hq : q a <;> simp_all <;> omega

theorem countP_interval (a b n : Nat) (hab : a ≤ b) (hb : b ≤ n) :
    (List.range n).countP (fun r => decide (a ≤ r ∧ r < b)) = b - a := by
  induction n with
  | zero => simp; omega
  | succ n ih =>
    rw [List.range_succ, List.countP_append]
    simp only [List.countP_cons, List.countP_nil]
    by_cases hbn : b ≤ n
    · rw [ih hbn]
      have : ¬ (a ≤ n ∧ n < b) := by omega
      simp [this]
    · have hb1 : b = n + 1 := by omega
      subst hb1
      by_cases han : a ≤ n
      · have : (List.range n).countP (fun r => decide (a ≤ r ∧ r < n + 1)) =
            (List.range n).countP (fun r => decide (a ≤ r ∧ r < n)) := by
          apply List.countP_congr
          intro x hx
          simp at hx
          simp; omega
        rw [this]
        have hin : (List.range n).countP (fun r => decide (a ≤ r ∧ r < n)) = n - a := by
          clear this ih
          have key : ∀ m, a ≤ m → (List.range m).countP (fun r => decide (a ≤ r)) = m - a := by
            intro m hm
            induction m with
            | zero => simp
            | succ m ihm =>
              rw [List.range_succ, List.countP_append]
              by_cases h : a ≤ m
              · rw [ihm h]; simp [h]; omega
              · have : a = m + 1 := by omega
                subst this
                rw [List.countP_eq_zero.2 (by intro x hx; simp at hx; simp; omega)]
                simp
          rw [← key n han]
          apply List.countP_congr
          intro x hx
          simp at hx
          simp; omega
        rw [hin]
        simp [han]
        omega
      · have han' : a = n + 1 := by omega
        subst han'
        rw [List.countP_eq_zero.2 (by intro x hx; simp at hx; simp)]
        simp

/-- How many numbers lead to a priority in `q`. -/
theorem pick_count (q : Nat → Bool) (n : Nat) (ps : List Prio) (acc : Nat) (h : acc + (ps.map (·.perc)).sum ≤ n) :
    (List.range n).countP (fun r => decide (acc ≤ r) &&
        (match pickPrio r ps acc with | some x => q x.1 | none => false)) =
      ((ps.filter fun p => q (p.prio % 65536)).map (·.perc)).sum := by
  induction ps generalizing acc with
  | nil => simp [pickPrio]
  | cons p ps ih =>
    simp only [List.map_cons, List.sum_cons] at h
    have hih := ih (acc + p.perc) (by omega)
    have hsplit : ∀ r, (decide (acc ≤ r) && (match pickPrio r (p :: ps) acc with | some x => q x.1 | none => false)) =
        ((decide (acc ≤ r ∧ r < acc + p.perc) && q (p.prio % 65536)) ||
          (decide (acc + p.perc ≤ r) && (match pickPrio r ps (acc + p.perc) with | some x => q x.1 | none => false))) := by
      intro r
      conv => lhs; unfold pickPrio
      dsimp only
      by_cases h1 : r < acc + p.perc
      · rw [if_pos h1]
        have h2 : ¬ acc + p.perc ≤ r := by omega
        simp [h1, h2]
      · rw [if_neg h1]
        have h2 : acc + p.perc ≤ r := by omega
        have h3 : acc ≤ r := by omega
        simp [h1, h2, h3]
    simp only [hsplit]
    rw [countP_or _ _ _ (by
      intro r ⟨ha, hb⟩
      simp at ha hb
      omega), hih]
    have : (List.range n).countP (fun r => decide (acc ≤ r ∧ r < acc + p.perc) && q (p.prio % 65536)) =
        if q (p.prio % 65536) then p.perc else 0 := by
      cases hq : q (p.prio % 65536)
      · simp
      · simp only [Bool.and_true, if_true]
        rw [countP_interval _ _ _ (by omega) (by omega)]
        omega
    rw [this, List.filter_cons]
    cases hq : q (p.prio % 65536) <;> simp

theorem pick_some {rand : Nat} {ps : List Prio} {acc : Nat} (h : rand < acc + (ps.map (·.perc)).sum) (hne : ps ≠ []) :
    ∃ p ∈ ps, pickPrio rand ps acc = some (p.prio % 65536, p.index) := by
  induction ps generalizing acc with
  | nil => exact absurd rfl hne
  | cons p ps ih =>
    unfold pickPrio
    dsimp only
    simp only [List.map_cons, List.sum_cons] at h
    by_cases h1 : rand < acc + p.perc
    · rw [if_pos h1]
      exact ⟨p, by simp, rfl⟩
    · rw [if_neg h1]
      have hne' : ps ≠ [] := by
        rintro rfl
        simp at h
        omega
      obtain ⟨x, hx, hp⟩ := ih (acc := acc + p.perc) (by omega) hne'
      exact ⟨x, by simp [hx], hp⟩

end Fio.Cmdprio
