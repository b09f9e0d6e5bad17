import Verif.Cmdprio.Lemmas

namespace Fio.Cmdprio

open Spec

/-- The priority of the options, if an entry names none. -/
def implicitOf (cls level hint : Nat) : Nat := ioprioValue (if cls = 0 then 1 else cls) level hint

theorem filter_true {α : Type} (l : List α) : l.filter (fun _ => true) = l := List.filter_eq_self.2 (by simp)

theorem shiftLeft_or_lt (c h l : Nat) (hc : c ≤ 3) (hh : h ≤ 1023) (hl : l ≤ 7) :
    (c <<< 13) ||| (h <<< 3) ||| l = c * 8192 + h * 8 + l := by
  have e1 : (c <<< 13) ||| (h <<< 3) = c * 8192 + h * 8 := by
    rw [Nat.shiftLeft_eq, Nat.shiftLeft_eq]
    rw [show c * 2 ^ 13 = 2 ^ 13 * c from Nat.mul_comm _ _, ← Nat.two_pow_add_eq_or_of_lt (by omega)]
  rw [e1, show c * 8192 + h * 8 = 2 ^ 3 * (c * 1024 + h) from by omega, ← Nat.two_pow_add_eq_or_of_lt (by omega)]

/-- The three parts of a priority can be read back, and it fits the 16 bits of the unit. -/
theorem C82_value (cls level hint : Nat) (hc : cls ≤ 3) (hl : level ≤ 7) (hh : hint ≤ 1023) :
    ioprioValue cls level hint < 65536 ∧
    ioprioClass (ioprioValue cls level hint) = (if cls = 0 then 2 else cls) ∧
    ioprioLevel (ioprioValue cls level hint) = level ∧ ioprioHint (ioprioValue cls level hint) = hint := by
  have hc' : (if cls = 0 then 2 else cls) ≤ 3 := by split <;> omega
  unfold ioprioValue ioprioClass ioprioLevel ioprioHint
  dsimp only
  generalize (if cls = 0 then 2 else cls) = c at *
  rw [shiftLeft_or_lt c hint level hc' hh hl]
  rw [show (7 : Nat) = 2 ^ 3 - 1 from rfl, show (1023 : Nat) = 2 ^ 10 - 1 from rfl, Nat.and_two_pow_sub_one_eq_mod,
    Nat.and_two_pow_sub_one_eq_mod, Nat.shiftRight_eq_div_pow, Nat.shiftRight_eq_div_pow]
  omega

/-- What an entry of the option shall be: block size, percentage (at most 100) and the priority, with class, level and
hint at most 3, 7 and 1023. -/
def specEntry : Scan → Option (Nat × Nat × Option (Nat × Nat × Nat))
  | .bs b => some (b, 0, none)
  | .perc b p => some (b, if p ≤ 100 then p else 100, none)
  | .cls _ _ _ => none
  | .level b p c l => some (b, if p ≤ 100 then p else 100,
      some (if c = 0 then 2 else if c ≤ 3 then c else 3, if l ≤ 7 then l else 7, 0))
  | .hint b p c l h => some (b, if p ≤ 100 then p else 100,
      some (if c = 0 then 2 else if c ≤ 3 then c else 3, if l ≤ 7 then l else 7, if h ≤ 1023 then h else 1023))

/-- A parsed entry is what the text says. -/
def Says (e : Entry) (x : Nat × Nat × Option (Nat × Nat × Nat)) : Prop :=
  e.bs = x.1 ∧ e.perc = x.2.1 ∧
    match x.2.2 with
    | none => e.prio = -1
    | some (c, l, h) => 0 ≤ e.prio ∧ ioprioClass e.prio.toNat = c ∧ ioprioLevel e.prio.toNat = l ∧ ioprioHint e.prio.toNat = h

theorem parseEntry_says (s : Scan) :
    match parseEntry s, specEntry s with
    | some e, some x => Says e x ∧ Valid e ∧ e.perc ≤ 100
    | none, none => True
    | _, _ => False := by
  have key : ∀ b p c l h, Says ⟨b, ioprioValue (min c 3) (min l 7) (min h 1023), min p 100⟩
      (b, if p ≤ 100 then p else 100,
        some (if c = 0 then 2 else if c ≤ 3 then c else 3, if l ≤ 7 then l else 7, if h ≤ 1023 then h else 1023)) ∧
      Valid ⟨b, ioprioValue (min c 3) (min l 7) (min h 1023), min p 100⟩ := by
    intro b p c l h
    obtain ⟨h1, h2, h3, h4⟩ := C82_value (min c 3) (min l 7) (min h 1023) (by omega) (by omega) (by omega)
    refine ⟨⟨rfl, ?_, ?_⟩, ?_⟩
    · dsimp only; split <;> omega
    · dsimp only
      simp only [Int.toNat_natCast, h2, h3, h4]
      refine ⟨by omega, ?_, ?_, ?_⟩
      · split <;> split <;> (try split) <;> omega
      · split <;> omega
      · split <;> omega
    · exact ⟨by dsimp only; omega, by dsimp only; omega⟩
  cases s with
  | bs b => simp [parseEntry, specEntry, Says, Valid]
  | perc b p => simp [parseEntry, specEntry, Says, Valid]; split <;> omega
  | cls b p c => simp [parseEntry, specEntry]
  | level b p c l =>
    have := key b p c l 0
    simp only [parseEntry, specEntry]
    simp only [show min 0 1023 = 0 from rfl, show (if 0 ≤ 1023 then 0 else 1023) = 0 from rfl] at this
    exact ⟨this.1, this.2, by omega⟩
  | hint b p c l h =>
    have := key b p c l h
    exact ⟨this.1, this.2, by dsimp only; omega⟩

/-- One to one, in order. -/
def Matches : List Entry → List (Nat × Nat × Option (Nat × Nat × Nat)) → Prop
  | [], [] => True
  | e :: es, x :: xs => Says e x ∧ Matches es xs
  | _, _ => False

theorem parseLoop_spec (ss : List Scan) :
    match parseLoop ss with
    | none => ∃ s ∈ ss, specEntry s = none
    | some es => (∀ s ∈ ss, specEntry s ≠ none) ∧ Matches es ((ss.filterMap specEntry).filter fun x => x.2.1 ≠ 0) ∧
        (∀ e ∈ es, Valid e) ∧ (∀ e ∈ es, 0 < e.perc ∧ e.perc ≤ 100) ∧ es.length ≤ ss.length := by
  induction ss with
  | nil => simp [parseLoop, Matches]
  | cons s ss ih =>
    have hs := parseEntry_says s
    unfold parseLoop
    cases hp : parseEntry s with
    | none =>
      rw [hp] at hs
      dsimp only
      cases hx : specEntry s with
      | none => exact ⟨s, by simp, hx⟩
      | some x => rw [hx] at hs; exact hs.elim
    | some e =>
      rw [hp] at hs
      cases hx : specEntry s with
      | none => rw [hx] at hs; exact hs.elim
      | some x =>
        rw [hx] at hs
        obtain ⟨hsay, hval, hle⟩ := hs
        dsimp only
        cases hl : parseLoop ss with
        | none =>
          rw [hl] at ih
          obtain ⟨y, hy, hn⟩ := ih
          exact ⟨y, by simp [hy], hn⟩
        | some es =>
          rw [hl] at ih
          obtain ⟨i1, i2, i3, i4, i5⟩ := ih
          dsimp only
          have hx2 : x.2.1 = e.perc := hsay.2.1.symm
          have hfm : (s :: ss).filterMap specEntry = x :: ss.filterMap specEntry := by simp [hx]
          rw [hfm]
          refine ⟨?_, ?_, ?_, ?_, ?_⟩
          · intro y hy
            rcases List.mem_cons.1 hy with rfl | hy
            · rw [hx]; simp
            · exact i1 y hy
          · by_cases hz : e.perc = 0
            · simp only [hz, ne_eq, not_true, if_false, List.filter_cons, hx2, decide_false]
              exact i2
            · simp only [hz, ne_eq, not_false_eq_true, if_true, List.filter_cons, hx2, decide_true]
              exact ⟨hsay, i2⟩
          · intro y hy
            split at hy
            · rcases List.mem_cons.1 hy with rfl | hy
              · exact hval
              · exact i3 y hy
            · exact i3 y hy
          · intro y hy
            split at hy
            · rename_i hz
              rcases List.mem_cons.1 hy with rfl | hy
              · exact ⟨by omega, hle⟩
              · exact i4 y hy
            · exact i4 y hy
          · split
            · simp; omega
            · simp; omega

/-- The entries of the option are taken over one by one, those without a share left out; the only errors are more than 64
entries, or an entry with a class but no level. -/
theorem C82_parse (ss : List Scan) :
    match parse ss with
    | none => 64 < ss.length ∨ ∃ s ∈ ss, specEntry s = none
    | some es => ss.length ≤ 64 ∧ (∀ s ∈ ss, specEntry s ≠ none) ∧
        Matches es ((ss.filterMap specEntry).filter fun x => x.2.1 ≠ 0) ∧
        (∀ e ∈ es, Valid e) ∧ (∀ e ∈ es, 0 < e.perc ∧ e.perc ≤ 100) ∧ es.length ≤ 64 := by
  unfold parse
  by_cases h : ss.length > 64
  · rw [if_pos h]; exact Or.inl h
  · rw [if_neg h]
    have := parseLoop_spec ss
    cases hp : parseLoop ss with
    | none => rw [hp] at this; exact Or.inr this
    | some es =>
      rw [hp] at this
      obtain ⟨a, b, c, d, e⟩ := this
      exact ⟨by omega, a, b, c, d, by omega⟩

theorem total_perm {es ps : List Entry} (h : es.Perm ps) (len : Nat) : total es len = total ps len := by
  unfold total
  exact ((h.filter _).map _).sum_nat

theorem share_perm {es ps : List Entry} (h : es.Perm ps) (implicit len p : Nat) :
    share implicit es len p = share implicit ps len p := by
  unfold share
  exact ((h.filter _).map _).sum_nat

theorem good_init {es : List Entry} (ioprio : Nat) (h : es.length ≤ 64) : Good ioprio (initValues es.length ioprio) :=
  ⟨by simp [initValues], by simp [initValues], by simp [initValues], by simp [initValues]; omega⟩

/-- All a job with `cmdprio_bssplit` needs to know of the set up of a direction. -/
theorem gen_cases {ioprio cls level hint : Nat} {es : List Entry} (hv : ∀ e ∈ es, Valid e) (hs : Sorted es) (hl : es.length ≤ 64) :
    ((∀ len, total es len ≤ 100) → ∃ d t, genBssplit ioprio cls level hint true es = .ok (d, t) ∧
      Describes (implicitOf cls level hint) es (t.getD [ioprio]) d ∧ (t.getD [ioprio]).Nodup ∧
      (t.getD [ioprio])[0]? = some ioprio ∧ (t = none → es = [])) ∧
    ((∃ len, 100 < total es len) → genBssplit ioprio cls level hint true es = .error) := by
  unfold genBssplit
  by_cases h0 : es.length = 0
  · have : es = [] := List.length_eq_zero_iff.1 h0
    subst this
    constructor
    · intro _
      refine ⟨[], none, by simp, ?_, by simp, by simp, by simp⟩
      intro len; simp [findBs]
    · rintro ⟨len, h⟩
      simp [total] at h
  · obtain ⟨h1, h2⟩ := generate_ok (ioprio := ioprio) (implicit := implicitOf cls level hint) es.length es (Nat.le_refl _) []
      (initValues es.length ioprio) (good_init ioprio hl) hv hs (by simp [initValues]; omega)
    rw [if_neg (by simp [h0])]
    dsimp only
    unfold implicitOf at h1 h2 ⊢
    constructor
    · intro hall
      obtain ⟨d, v, e1, e2, e3, e4⟩ := h1 hall
      rw [e1]
      exact ⟨d, some v.prios, by simp, by simpa using e4, by simpa using e2.1, by simpa using e2.2.1, by simp⟩
    · intro hex
      rw [h2 hex]

/-- A set of entries is accepted exactly if the shares of no block size exceed 100 percent; the tables are never overrun. -/
theorem C82_accept (ioprio cls level hint : Nat) (ps es : List Entry) (hp : es.Perm ps) (hs : Sorted es)
    (hv : ∀ e ∈ ps, Valid e) (hl : ps.length ≤ 64) :
    ((∃ d t, genBssplit ioprio cls level hint true es = .ok (d, t)) ↔ ∀ len, total ps len ≤ 100) ∧
    (genBssplit ioprio cls level hint true es = .error ↔ ∃ len, 100 < total ps len) := by
  have hv' : ∀ e ∈ es, Valid e := fun e he => hv e (hp.mem_iff.1 he)
  obtain ⟨h1, h2⟩ := gen_cases (ioprio := ioprio) (cls := cls) (level := level) (hint := hint) hv' hs (by rw [hp.length_eq]; exact hl)
  simp only [total_perm hp] at h1 h2
  by_cases hall : ∀ len, total ps len ≤ 100
  · obtain ⟨d, t, e1, _⟩ := h1 hall
    have hno : ¬ ∃ len, 100 < total ps len := by
      rintro ⟨len, h⟩
      have := hall len
      omega
    rw [e1]
    simp [hall, hno]
  · have hex : ∃ len, 100 < total ps len := by
      refine Classical.byContradiction fun hc => hall fun len => ?_
      refine Classical.byContradiction fun hd => hc ⟨len, by omega⟩
    rw [h2 hex]
    simp [hall, hex]

/-- A direction that has been set up. -/
def SetUp (c : Cmdprio) (ddir ioprio cls level hint : Nat) (es : List Entry) (t : Option (List Nat)) : Prop :=
  c.mode = .bssplit ∧ ∃ d, c.desc[ddir]? = some d ∧ genBssplit ioprio cls level hint true es = .ok (d, t)

theorem setUp_describes {c : Cmdprio} {ddir ioprio cls level hint : Nat} {es : List Entry} {t : Option (List Nat)}
    (h : SetUp c ddir ioprio cls level hint es t) (hv : ∀ e ∈ es, Valid e) (hs : Sorted es) (hl : es.length ≤ 64) :
    ∃ d, c.desc[ddir]? = some d ∧ Describes (implicitOf cls level hint) es (t.getD [ioprio]) d ∧
      (t.getD [ioprio]).Nodup ∧ (t.getD [ioprio])[0]? = some ioprio ∧ (t = none → es = []) ∧ ∀ len, total es len ≤ 100 := by
  obtain ⟨_, d, hd, hg⟩ := h
  obtain ⟨h1, h2⟩ := gen_cases (ioprio := ioprio) (cls := cls) (level := level) (hint := hint) hv hs hl
  have hall : ∀ len, total es len ≤ 100 := by
    refine fun len => Classical.byContradiction fun hc => ?_
    rw [h2 ⟨len, by omega⟩] at hg
    cases hg
  obtain ⟨d', t', e1, e2, e3, e4, e5⟩ := h1 hall
  rw [e1] at hg
  injection hg with hg
  injection hg with h1 h2
  subst h1 h2
  exact ⟨_, hd, e2, e3, e4, e5, hall⟩

theorem sum_pairs (implicit : Nat) (es : List Entry) (ps : List Prio)
    (h : ps.map (fun p => (p.prio, p.perc)) = pairs implicit es) (q : Nat → Bool) :
    ((ps.filter fun p => q p.prio).map (·.perc)).sum = ((es.filter fun e => q (named implicit e)).map (·.perc)).sum := by
  induction es generalizing ps with
  | nil =>
    have : ps = [] := by simpa [pairs] using h
    subst this
    rfl
  | cons e es ih =>
    cases ps with
    | nil => simp [pairs] at h
    | cons p ps =>
      simp only [pairs, List.map_cons, List.cons.injEq, Prod.mk.injEq] at h
      obtain ⟨⟨hp, hq⟩, hr⟩ := h
      simp only [List.filter_cons, hp]
      split
      · simp [ih ps hr, hq]
      · exact ih ps hr

theorem named_lt {implicit : Nat} (hi : implicit < 65536) {e : Entry} (he : Valid e) : named implicit e < 65536 := by
  unfold named
  obtain ⟨h1, h2⟩ := he
  split <;> omega

theorem pairs_prio_lt {implicit : Nat} (hi : implicit < 65536) {es : List Entry} (hv : ∀ e ∈ es, Valid e) {ps : List Prio}
    (h : ps.map (fun p => (p.prio, p.perc)) = pairs implicit es) : ∀ p ∈ ps, p.prio < 65536 := by
  intro p hp
  have : (p.prio, p.perc) ∈ pairs implicit es := by
    rw [← h]
    exact List.mem_map.2 ⟨p, hp, rfl⟩
  unfold pairs at this
  obtain ⟨e, he, heq⟩ := List.mem_map.1 this
  injection heq with h1 h2
  rw [← h1]
  exact named_lt hi (hv e he)

theorem implicit_lt {cls level hint : Nat} (hc : cls ≤ 3) (hl : level ≤ 7) (hh : hint ≤ 1023) :
    implicitOf cls level hint < 65536 :=
  (C82_value _ level hint (by split <;> omega) hl hh).1

/-- Everything there is to know of a unit of length `len`. -/
theorem set_eq {c : Cmdprio} {ddir ioprio cls level hint : Nat} {es : List Entry} {t : Option (List Nat)}
    (h : SetUp c ddir ioprio cls level hint es t) (hv : ∀ e ∈ es, Valid e) (hs : Sorted es) (hl : es.length ≤ 64)
    (hi : implicitOf cls level hint < 65536) (len : Nat) :
    (es.filter (fun e => e.bs = len) = [] ∧ ∀ r, setIoprio c ddir len r = some none) ∨
    ∃ ps : List Prio, Points (t.getD [ioprio]) ps ∧ (∀ p ∈ ps, p.prio < 65536) ∧
      ps.map (fun p => (p.prio, p.perc)) = pairs (implicitOf cls level hint) (es.filter fun e => e.bs = len) ∧
      (ps.map (·.perc)).sum = total es len ∧ total es len ≤ 100 ∧
      (∀ r, setIoprio c ddir len r = if r < total es len then (pickPrio r ps 0).map some else some none) := by
  obtain ⟨d, hd, hdes, _, _, _, hall⟩ := setUp_describes h hv hs hl
  have hm := h.1
  have := hdes len
  cases hf : findBs d len with
  | none =>
    rw [hf] at this
    refine Or.inl ⟨this, fun r => ?_⟩
    simp [setIoprio, percentage, hm, hd, hf]
  | some b =>
    rw [hf] at this
    obtain ⟨h1, h2, h3⟩ := this
    refine Or.inr ⟨b.prios, h2, ?_, h3, ?_, hall len, fun r => ?_⟩
    · exact pairs_prio_lt hi (fun e he => hv e (List.mem_filter.1 he).1) h3
    · have := sum_pairs _ _ _ h3 (fun _ => true)
      simpa [total, filter_true] using this
    · unfold setIoprio
      have hper : percentage c ddir len = some (b.tot, some b) := by simp [percentage, hm, hd, hf]
      rw [hper]
      dsimp only
      rw [hm, h1]
      dsimp only
      by_cases h0 : total es len = 0
      · rw [if_pos h0, if_neg (by omega)]
      · rw [if_neg h0]
        by_cases hr : r < total es len
        · rw [if_neg (by omega), if_pos hr]
        · rw [if_pos (by omega), if_neg hr]

/-- Of the numbers 0 .. 99, exactly as many as the option says give a unit of length `len` the priority `p`; the others
leave it as it is. -/
theorem C82_share (c : Cmdprio) (ddir ioprio cls level hint : Nat) (ps es : List Entry) (t : Option (List Nat))
    (hp : es.Perm ps) (hs : Sorted es) (hv : ∀ e ∈ ps, Valid e) (hl : ps.length ≤ 64)
    (hc : cls ≤ 3) (hlv : level ≤ 7) (hh : hint ≤ 1023) (h : SetUp c ddir ioprio cls level hint es t) (len p : Nat) :
    count (setIoprio c ddir len) (fun x => x.map (·.1) == some p) = share (implicitOf cls level hint) ps len p ∧
    count (setIoprio c ddir len) (fun x => x == none) = 100 - total ps len := by
  have hv' : ∀ e ∈ es, Valid e := fun e he => hv e (hp.mem_iff.1 he)
  have hl' : es.length ≤ 64 := by rw [hp.length_eq]; exact hl
  rw [← share_perm hp, ← total_perm hp]
  have hshare : share (implicitOf cls level hint) es len p =
      (((es.filter fun e => e.bs = len).filter fun e => named (implicitOf cls level hint) e == p).map (·.perc)).sum := by
    unfold share
    rw [List.filter_filter]
    congr 2
    apply List.filter_congr
    intro e _
    by_cases h1 : e.bs = len <;> by_cases h2 : named (implicitOf cls level hint) e = p <;> simp [h1, h2]
  rcases set_eq h hv' hs hl' (implicit_lt hc hlv hh) len with ⟨hnil, hset⟩ | ⟨qs, hpt, hlt, hpair, hsum, hle, hset⟩
  · rw [hshare, hnil]
    unfold count total
    rw [hnil]
    simp [hset, filter_true]
  · constructor
    · unfold count
      rw [← List.countP_eq_length_filter, hshare, ← sum_pairs _ _ _ hpair (fun x => x == p)]
      have := pick_count (fun x => x == p) 100 qs 0 (by omega)
      rw [show (qs.filter fun q => (fun x => x == p) (q.prio % 65536)) = qs.filter fun q => (fun x => x == p) q.prio from by
        apply List.filter_congr
        intro q hq
        rw [Nat.mod_eq_of_lt (hlt q hq)]] at this
      rw [← this]
      apply List.countP_congr
      intro r _
      rw [hset r]
      by_cases hr : r < total es len
      · rw [if_pos hr]
        cases pickPrio r qs 0 with
        | none => simp
        | some x => simp
      · rw [if_neg hr]
        have hnone : ∀ (l : List Prio) acc, acc + (l.map (·.perc)).sum ≤ r → pickPrio r l acc = none := by
          intro l
          induction l with
          | nil => intro _ _; rfl
          | cons a l ih =>
            intro acc hacc
            simp only [List.map_cons, List.sum_cons] at hacc
            unfold pickPrio
            dsimp only
            rw [if_neg (by omega)]
            exact ih _ (by omega)
        rw [hnone qs 0 (by omega)]
        simp
    · unfold count
      rw [← List.countP_eq_length_filter]
      rw [← countP_interval (total es len) 100 100 hle (Nat.le_refl _)]
      apply List.countP_congr
      intro r hr
      simp only [List.mem_range] at hr
      rw [hset r]
      by_cases hr' : r < total es len
      · rw [if_pos hr']
        cases pickPrio r qs 0 with
        | none => simp; omega
        | some x => simp; omega
      · rw [if_neg hr']
        simp; omega

/-- No assertion fails and nothing outside of the tables is read, for a read or write of any length: the unit has a
priority. -/
theorem C82_total (c : Cmdprio) (ddir ioprio cls level hint : Nat) (es : List Entry) (t : Option (List Nat))
    (hs : Sorted es) (hv : ∀ e ∈ es, Valid e) (hl : es.length ≤ 64)
    (hc : cls ≤ 3) (hlv : level ≤ 7) (hh : hint ≤ 1023) (h : SetUp c ddir ioprio cls level hint es t) (len rand : Nat) :
    ∃ x, unitPrio c ioprio ddir len rand = some x := by
  unfold unitPrio
  rw [if_pos (by rw [h.1]; simp)]
  rcases set_eq h hv hs hl (implicit_lt hc hlv hh) len with ⟨_, hset⟩ | ⟨qs, hpt, hlt, hpair, hsum, hle, hset⟩
  · rw [hset]; simp
  · rw [hset]
    by_cases hr : rand < total es len
    · rw [if_pos hr]
      obtain ⟨q, _, hq⟩ := pick_some (rand := rand) (ps := qs) (acc := 0) (by omega) (by
        rintro rfl
        simp at hsum
        omega)
      rw [hq]
      simp
    · rw [if_neg hr]; simp

/-- The index of a unit points at its priority in the table of the statistics, which has no priority twice. -/
theorem C82_index (c : Cmdprio) (ddir ioprio cls level hint : Nat) (es : List Entry) (t : Option (List Nat))
    (hs : Sorted es) (hv : ∀ e ∈ es, Valid e) (hl : es.length ≤ 64)
    (hc : cls ≤ 3) (hlv : level ≤ 7) (hh : hint ≤ 1023) (h : SetUp c ddir ioprio cls level hint es t) (len rand p i : Nat)
    (hu : unitPrio c ioprio ddir len rand = some (p, i)) :
    match t with
    | none => p = ioprio ∧ i = 0
    | some t => t[i]? = some p ∧ t.Nodup ∧ t[0]? = some ioprio := by
  obtain ⟨d, hd, hdes, hnd, h0, hnone, _⟩ := setUp_describes h hv hs hl
  have key : (t.getD [ioprio])[i]? = some p ∧ (t = none → p = ioprio ∧ i = 0) := by
    unfold unitPrio at hu
    rw [if_pos (by rw [h.1]; simp)] at hu
    rcases set_eq h hv hs hl (implicit_lt hc hlv hh) len with ⟨_, hset⟩ | ⟨qs, hpt, hlt, hpair, hsum, hle, hset⟩
    · rw [hset] at hu
      cases hu
      exact ⟨h0, fun _ => ⟨rfl, rfl⟩⟩
    · rw [hset] at hu
      by_cases hr : rand < total es len
      · rw [if_pos hr] at hu
        obtain ⟨q, hmem, hq⟩ := pick_some (rand := rand) (ps := qs) (acc := 0) (by omega) (by
          rintro rfl
          simp at hsum
          omega)
        rw [hq] at hu
        cases hu
        rw [Nat.mod_eq_of_lt (hlt q hmem)]
        refine ⟨hpt q hmem, fun ht => ?_⟩
        have := hnone ht
        subst this
        simp [total] at hr
      · rw [if_neg hr] at hu
        cases hu
        exact ⟨h0, fun _ => ⟨rfl, rfl⟩⟩
  cases t with
  | none => exact key.2 rfl
  | some t => exact ⟨key.1, hnd, h0⟩

/-! ## Percentages -/

/-- The same for the option `cmdprio_percentage`: the share, the index; the set up always succeeds. -/
theorem C82_percentage (c : Cmdprio) (ddir ioprio cls level hint percentage : Nat) (enabled : Bool)
    (hc : cls ≤ 3) (hlv : level ≤ 7) (hh : hint ≤ 1023) (hp : percentage ≤ 100) :
    ∃ e t, genPerc ioprio cls level hint percentage enabled = .ok (e, t) ∧
      (c.mode = .perc → c.perc[ddir]? = some e →
        (∀ len p, count (setIoprio c ddir len) (fun x => x.map (·.1) == some p) =
          if enabled = true ∧ p = implicitOf cls level hint then percentage else 0) ∧
        (∀ len, count (setIoprio c ddir len) (fun x => x == none) = if enabled then 100 - percentage else 100) ∧
        ∀ len rand, ∃ p i, unitPrio c ioprio ddir len rand = some (p, i) ∧
          match t with
          | none => p = ioprio ∧ i = 0
          | some t => t[i]? = some p ∧ t.Nodup ∧ t[0]? = some ioprio) := by
  have hi := implicit_lt hc hlv hh
  unfold genPerc
  by_cases h0 : percentage = 0 ∨ enabled = false
  · rw [if_pos h0]
    refine ⟨⟨0, 0, 0⟩, none, rfl, fun hm hd => ?_⟩
    have hset : ∀ len r, setIoprio c ddir len r = some none := by
      intro len r
      simp [setIoprio, Cmdprio.percentage, hm, hd]
    refine ⟨fun len p => ?_, fun len => ?_, fun len r => ⟨ioprio, 0, ?_, rfl, rfl⟩⟩
    · unfold count
      simp only [hset]
      rcases h0 with h0 | h0 <;> simp [h0, filter_true]
    · unfold count
      simp only [hset]
      rcases h0 with h0 | h0 <;> simp [h0, filter_true]
    · simp [unitPrio, hm, hset]
  · rw [if_neg h0]
    have hen : enabled = true := by
      cases enabled
      · simp at h0
      · rfl
    have hnz : percentage ≠ 0 := fun h => h0 (Or.inl h)
    obtain ⟨v, i, ha, hg, hidx, _⟩ := assign_ok (ioprio := ioprio) (v := initValues 1 ioprio)
      ⟨by simp [initValues], by simp [initValues], by simp [initValues], by simp [initValues]⟩ (implicitOf cls level hint)
      (by simp [initValues])
    unfold implicitOf at ha
    simp only [ha]
    refine ⟨_, _, rfl, fun hm hd => ?_⟩
    have hset : ∀ len r, setIoprio c ddir len r =
        if r < percentage then some (some (implicitOf cls level hint, i)) else some none := by
      intro len r
      unfold setIoprio
      have hper : Cmdprio.percentage c ddir len = some (percentage, none) := by
        simp [Cmdprio.percentage, hm, hd]
      rw [hper]
      dsimp only
      rw [if_neg hnz, hm]
      dsimp only
      rw [hd]
      by_cases hr : r < percentage
      · rw [if_neg (by omega), if_pos hr]
        simp only [Option.map_some]
        rw [show ioprioValue (if cls = 0 then 1 else cls) level hint = implicitOf cls level hint from rfl,
          Nat.mod_eq_of_lt hi]
      · rw [if_pos (by omega), if_neg hr]
    refine ⟨fun len p => ?_, fun len => ?_, fun len r => ?_⟩
    · unfold count
      rw [← List.countP_eq_length_filter]
      by_cases hpe : p = implicitOf cls level hint
      · rw [if_pos ⟨hen, hpe⟩]
        conv => rhs; rw [show percentage = percentage - 0 from rfl, ← countP_interval 0 percentage 100 (by omega) hp]
        apply List.countP_congr
        intro r _
        rw [hset]
        by_cases hr : r < percentage
        · simp [hr, hpe]
        · simp [hr]
      · rw [if_neg (fun h => hpe h.2)]
        rw [List.countP_eq_zero]
        intro r _
        rw [hset]
        by_cases hr : r < percentage
        · simp [hr]
          exact fun h => hpe h.symm
        · simp [hr]
    · unfold count
      rw [← List.countP_eq_length_filter, if_pos hen, ← countP_interval percentage 100 100 hp (Nat.le_refl _)]
      apply List.countP_congr
      intro r hr
      simp only [List.mem_range] at hr
      rw [hset]
      by_cases hr' : r < percentage
      · simp [hr']; omega
      · simp [hr', hr]; omega
    · unfold unitPrio
      rw [if_pos (by rw [hm]; simp), hset]
      by_cases hr : r < percentage
      · rw [if_pos hr]
        exact ⟨_, _, rfl, hidx, hg.1, hg.2.1⟩
      · rw [if_neg hr]
        exact ⟨_, _, rfl, hg.2.1, hg.1, hg.2.1⟩

end Fio.Cmdprio
