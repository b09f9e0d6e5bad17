import Verif.Cconv.Whole
/-!
C100: the options of a job arrive as they were sent.
-/

namespace Fio.Cconv

open Fio.TsNet (C Fp dec put get get_put)
open Fio

theorem numB_app (fp : Fp) (be : Bool) (t : Pack) (o : Opts) :
    numB fp be t o = (cpuTabA ++ cpuTabB).foldl (cpu1 fp be t.num) o.num := by
  rw [List.foldl_append]
  rfl

theorem numA_numB (fp : Fp) (be : Bool) (t : Pack) (o : Opts) (f : F) (i : Nat) (h : ∀ a ∈ cpuTabB, a.dst ≠ f) :
    numA fp be t o f i = numB fp be t o f i := (cpu_fold_other _ _ _ _ _ _ _ h).symm

theorem recvd_num (fp : Fp) (be : Bool) (j : Nat) (o : Opts) (t : Pack) {f : F} (h : f ≠ .dp_ids) {i : Nat} :
    (recvd fp be j o t).num f i = numB fp be t o f i := by
  show cpu1 fp be t.num _ _ f i = _
  unfold cpu1
  rw [if_neg]
  exact fun hh => h hh.1

/-- A number that both tables have arrives. -/
theorem numB_sent {fp : Fp} (sb cb : Bool) {a : Opts} (ha : Ok fp a) (o : Opts) (t : F → Nat → List Byte) {p : Pack}
    (hp : p.num = sentNum fp sb t a) {f : F} (h : f ∉ kept) (h1 : f ∉ junk) (h2 : f ∉ lists) {i : Nat} (hi : i < cnt f) :
    numB fp cb p o f i = a.num f i := by
  rw [numB_app]
  have hc := cpu_fold fp cb p.num _ cpuTab_nodup o.num ⟨f, f, false, conv f, cnt f⟩ (cpuTab_all f h h2) i hi
  simp only at hc
  rw [hc, hp, sentNum_tab h2]
  have hn := net_fold fp sb a.num _ netTab_nodup t ⟨f, f, false, conv f, cnt f⟩ (netTab_all f h h1 h2) (by simp) i hi
  simp only [Bool.false_eq_true, if_false] at hn
  rw [hn, packW_eq f h h2, ← conv_width f]
  refine get_put fp sb cb (conv f) _ ?_ ?_
  · rw [conv_width]
    exact ha.num f i hi
  · intro hf
    refine ha.dbl f i ?_ hi
    unfold conv at hf
    split at hf
    · assumption
    · cases hf

theorem map_range_getD (l : List Nat) (g : Nat → Nat) (h : ∀ j, j < l.length → g j = l.getD j 0) : (List.range l.length).map g = l := by
  apply List.ext_getElem
  · simp
  · intro j h1 h2
    simp only [List.getElem_map, List.getElem_range]
    rw [h j h2]
    simp [h2]

/-- The message. -/
def sent (fp : Fp) (be : Bool) (t : Pack) (a : Opts) : Pack :=
  { num := sentNum fp be t.num a, str := netStr.foldl (strNet1 a.str) t.str, pat := a.vpat ++ a.bpat }

/-- The message is sent, is accepted, and brings the options. -/
theorem arrive {fp : Fp} (sb cb : Bool) (hs j : Nat) {a : Opts} (ha : Ok fp a) (o : Opts) (t : Pack) :
    toNet fp sb t a = some (sent fp sb t a) ∧
      toCpu fp cb hs j o (sent fp sb t a) (packSize hs a.num) = some (recvd fp cb j o (sent fp sb t a), true) ∧
      Arrived o a (recvd fp cb j o (sent fp sb t a)) := by
  refine ⟨toNet_eq ha, ?_⟩
  generalize hp : sent fp sb t a = p
  have hpn : p.num = sentNum fp sb t.num a := by rw [← hp]; rfl
  have hps : ∀ s, s ∉ keptStr → p.str s = strNet (t.str s) (a.str s) := by
    intro s hs
    rw [← hp]
    show netStr.foldl (strNet1 a.str) t.str s = _
    rw [strNet_fold a.str netStr netStr_nodup netStr_diag, if_pos ((netStr_all s).mpr hs)]
  have hpp : p.pat = a.vpat ++ a.bpat := by rw [← hp]; rfl
  have hB : ∀ f, f ∉ kept → f ∉ junk → f ∉ lists → ∀ i, i < cnt f → numB fp cb p o f i = a.num f i :=
    fun f h h1 h2 i hi => numB_sent sb cb ha o t.num hpn h h1 h2 hi
  have hbs : ∀ i, i < 3 → numA fp cb p o .bssplit_nr i = a.num .bssplit_nr i := fun i hi => by
    rw [numA_numB _ _ _ _ _ _ (by decide +kernel), hB .bssplit_nr (by decide) (by decide) (by decide) i hi]
  have hzs : ∀ i, i < 3 → numA fp cb p o .zone_split_nr i = a.num .zone_split_nr i := fun i hi => by
    rw [numA_numB _ _ _ _ _ _ (by decide +kernel), hB .zone_split_nr (by decide) (by decide) (by decide) i hi]
  have hv : numA fp cb p o .verify_pattern_bytes 0 = a.num .verify_pattern_bytes 0 := by
    rw [numA_numB _ _ _ _ _ _ (by decide +kernel), hB _ (by decide) (by decide) (by decide) 0 (by decide)]
  have hw : numA fp cb p o .buffer_pattern_bytes 0 = a.num .buffer_pattern_bytes 0 := by
    rw [numA_numB _ _ _ _ _ _ (by decide +kernel), hB _ (by decide) (by decide) (by decide) 0 (by decide)]
  have hq : numB fp cb p o .random_sequence_nr 0 = a.num .random_sequence_nr 0 :=
    hB _ (by decide) (by decide) (by decide) 0 (by decide)
  have hd : numB fp cb p o .dp_nr_ids 0 = a.num .dp_nr_ids 0 := hB _ (by decide) (by decide) (by decide) 0 (by decide)
  have hM : maxPat = 2 ^ 27 := rfl
  refine ⟨toCpu_eq ?_ ?_ ?_ ?_ ?_ ?_ ?_ ?_ ?_, ?_⟩
  · unfold packSize
    omega
  · intro s hs
    rw [hps s hs]
    exact strNet_zero _ _
  · intro i hi
    rw [hbs i hi]
    exact (ha.bss i hi).1
  · intro i hi
    rw [hzs i hi]
    exact (ha.zs i hi).1
  · rw [hv, hM, ha.vpat.1]
    exact ha.vpat.2
  · rw [hw, hM, ha.bpat.1]
    exact ha.bpat.2
  · unfold packSize
    rw [hv, hw]
    exact Nat.le_refl _
  · rw [hq]
    exact ha.seq.1
  · rw [hd]
    exact ha.dp
  · constructor
    · intro f h h1 h2 i hi
      have : (recvd fp cb j o p).num f i = numB fp cb p o f i := by
        show cpu1 fp cb p.num _ _ f i = _
        unfold cpu1
        rw [if_neg]
        rintro ⟨h3, -⟩
        simp only at h3
        subst h3
        exact h2 (by decide)
      rw [this, hB f h h1 h2 i hi]
    · intro s hs
      show (if s ∈ cpuStr.map Prod.fst then strVal (o.str s) (p.str s) else o.str s) = _
      rw [if_pos ((cpuStr_all s).mpr hs), hps s hs]
      exact strNet_read _ _ _ (ha.str s)
    · intro i hi hne
      have hl := (ha.bss i hi).2
      have h0 : a.num .bssplit_nr i ≠ 0 := by
        rw [hl]
        exact fun h => hne (List.eq_nil_of_length_eq_zero h)
      show (if i < 3 ∧ numA fp cb p o .bssplit_nr i ≠ 0 then _ else _) = _
      rw [hbs i hi, if_pos ⟨hi, h0⟩, hl]
      unfold rdBss
      apply List.ext_getElem
      · simp
      · intro k h1 h2
        have hk : k < a.num .bssplit_nr i := by rw [hl]; exact h2
        have hr := ha.bssv i hi _ (List.getElem_mem h2)
        simp only [List.getElem_map, List.getElem_range]
        rw [hpn, sent_bs ha hi hk, sent_perc ha hi hk]
        have e1 : (List.map (fun x : Nat × Nat => x.1) (a.bss i)).getD k 0 = ((a.bss i)[k]).1 := by simp [h2]
        have e2 : (List.map (fun x : Nat × Nat => x.2) (a.bss i)).getD k 0 = ((a.bss i)[k]).2 := by simp [h2]
        rw [e1, e2]
        have g1 := get_put fp sb cb (.i 8) _ hr.1 (by simp)
        have g2 := get_put fp sb cb (.i 4) _ hr.2 (by simp)
        simp only [C.width] at g1 g2
        rw [g1, g2]
    · intro i hi hne
      have hl := (ha.zs i hi).2
      have h0 : a.num .zone_split_nr i ≠ 0 := by
        rw [hl]
        exact fun h => hne (List.eq_nil_of_length_eq_zero h)
      show List.map _ (if i < 3 ∧ numA fp cb p o .zone_split_nr i ≠ 0 then _ else _) = _
      rw [hzs i hi, if_pos ⟨hi, h0⟩, hl]
      unfold rdZs
      apply List.ext_getElem
      · simp
      · intro k h1 h2
        have h2' : k < (a.zs i).length := by simpa using h2
        have hk : k < a.num .zone_split_nr i := by rw [hl]; exact h2'
        have hr := ha.zsv i hi _ (List.getElem_mem h2')
        simp only [List.getElem_map, List.getElem_range]
        rw [hpn, sent_za ha hi hk, sent_zp ha hi hk]
        have e1 : (List.map (fun x : Nat × Nat × Nat => x.1) (a.zs i)).getD k 0 = ((a.zs i)[k]).1 := by simp [h2']
        have e2 : (List.map (fun x : Nat × Nat × Nat => x.2.1) (a.zs i)).getD k 0 = ((a.zs i)[k]).2.1 := by simp [h2']
        rw [e1, e2]
        have g1 := get_put fp sb cb (.i 1) _ (by simpa [C.width] using hr.1) (by simp)
        have g2 := get_put fp sb cb (.i 1) _ (by simpa [C.width] using hr.2) (by simp)
        simp only [C.width] at g1 g2
        rw [g1, g2]
    · intro hne
      have hl := ha.seq.2
      have h0 : a.num .random_sequence_nr 0 ≠ 0 := by
        rw [hl]
        exact fun h => hne (List.eq_nil_of_length_eq_zero h)
      show (if numB fp cb p o .random_sequence_nr 0 ≠ 0 then _ else _) = _
      rw [hq, if_pos h0, hl]
      unfold rdSeq
      apply map_range_getD
      intro k hk
      rw [hpn, sent_seq (by rw [hl]; exact hk)]
      have hr : a.seq.getD k 0 < 256 ^ 4 := by
        have e : a.seq.getD k 0 = a.seq[k] := by simp [hk]
        rw [e]
        exact ha.seqv _ (List.getElem_mem hk)
      have g1 := get_put fp sb cb (.i 4) _ hr (by simp)
      simpa only [C.width] using g1
    · intro i hi
      show cpu1 fp cb p.num _ _ .dp_ids i = _
      unfold cpu1
      rw [if_pos ⟨rfl, by rw [hd]; exact hi⟩]
      simp only
      rw [hpn, sent_dp hi]
      have g1 := get_put fp sb cb (.i 2) (a.num .dp_ids i) (ha.num .dp_ids i (by have := ha.dp; simp only [cnt]; omega)) (by simp)
      exact g1
    · show p.pat.take _ = _
      rw [hv, ha.vpat.1, hpp, List.take_left]
    · show (p.pat.drop _).take _ = _
      rw [hv, hw, ha.vpat.1, ha.bpat.1, hpp, List.drop_left, List.take_length]

/-- **C100.** What one side sends, the other side has afterwards, whatever byte order the two have, whatever was in the memory of the
message and whatever options the receiver had: all numbers and doubles except those of `kept` and `junk`, strings up to their first 255
bytes, the lists and the patterns. -/
theorem C100_roundtrip_partial {fp : Fp} (sb cb : Bool) (hs j : Nat) {a : Opts} (ha : Ok fp a) (o : Opts) (t : Pack) :
    ∃ p r, toNet fp sb t a = some p ∧ toCpu fp cb hs j o p (packSize hs a.num) = some (r, true) ∧ Arrived o a r := by
  obtain ⟨h1, h2, h3⟩ := arrive sb cb hs j ha o t
  exact ⟨_, _, h1, h2, h3⟩

theorem sent_num (fp : Fp) (be : Bool) (t : Pack) (a : Opts) (f : F) (i : Nat) : (sent fp be t a).num f i = sentNum fp be t.num a f i := rfl

theorem sent_own (fp : Fp) (be : Bool) (t : Pack) (a : Opts) {f : F} {c : C} (hl : f ∉ lists) (hm : (⟨f, f, true, c, 1⟩ : Asg) ∈ netTab) :
    (sent fp be t a).num f 0 = put fp be (packW f) c (dec be (t.num f 0)) := by
  rw [sent_num, sentNum_tab hl]
  have := net_fold fp be a.num _ netTab_nodup t.num _ hm (fun _ => rfl) 0 Nat.zero_lt_one
  simpa using this

/-- The options of `junk` in a message: what was in its memory. -/
theorem sent_junk (fp : Fp) (be : Bool) (t : Pack) (a : Opts) {f : F} (hf : f ∈ junk) (k : Nat) : (sent fp be t a).num f k =
    if f = .log_hist_msec ∨ f = .log_hist_coarseness then t.num f k
    else if k < 1 then put fp be (packW f) (conv f) (dec be (t.num f k)) else t.num f k := by
  have hl : f ∉ lists := by
    revert hf
    cases f <;> decide +kernel
  rw [sent_num, sentNum_tab hl]
  by_cases h3 : f = .log_hist_msec ∨ f = .log_hist_coarseness
  · rw [if_pos h3]
    apply net_fold_other
    rcases h3 with rfl | rfl <;> decide +kernel
  · rw [if_neg h3]
    have hm : (⟨f, f, true, conv f, 1⟩ : Asg) ∈ netTab := by
      revert hf h3
      cases f <;> decide +kernel
    by_cases h4 : k < 1
    · rw [if_pos h4]
      have := net_fold fp be a.num _ netTab_nodup t.num _ hm (fun _ => rfl) k h4
      simpa using this
    · rw [if_neg h4]
      exact net_fold_out fp be a.num _ netTab_nodup t.num _ hm k h4

/-- The options of `kept` and `junk`, and the strings of `keptStr`: what the receiver has afterwards is the same whatever the sender had. -/
theorem C100_lost {fp : Fp} (sb cb : Bool) (hs j : Nat) {a b : Opts} (ha : Ok fp a) (hb : Ok fp b) (o : Opts) (t p p' : Pack) (r r' : Opts)
    (h1 : toNet fp sb t a = some p) (h2 : toCpu fp cb hs j o p (packSize hs a.num) = some (r, true))
    (h1' : toNet fp sb t b = some p') (h2' : toCpu fp cb hs j o p' (packSize hs b.num) = some (r', true)) :
    (∀ f, f ∈ kept ∨ f ∈ junk → ∀ i, r.num f i = r'.num f i) ∧ ∀ s, s ∈ keptStr → r.str s = r'.str s := by
  obtain ⟨a1, a2, -⟩ := arrive sb cb hs j ha o t
  obtain ⟨b1, b2, -⟩ := arrive sb cb hs j hb o t
  obtain rfl : sent fp sb t a = p := Option.some.inj (a1.symm.trans h1)
  obtain rfl : sent fp sb t b = p' := Option.some.inj (b1.symm.trans h1')
  obtain rfl : recvd fp cb j o (sent fp sb t a) = r := congrArg Prod.fst (Option.some.inj (a2.symm.trans h2))
  obtain rfl : recvd fp cb j o (sent fp sb t b) = r' := congrArg Prod.fst (Option.some.inj (b2.symm.trans h2'))
  constructor
  · have key : ∀ (c : Opts) (f : F), f ∈ kept ∨ f ∈ junk → ∀ i,
        (recvd fp cb j o (sent fp sb t c)).num f i = numB fp cb (sent fp sb t c) o f i := by
      intro c f hf i
      show cpu1 fp cb _ _ _ f i = _
      unfold cpu1
      rw [if_neg]
      rintro ⟨h3, -⟩
      simp only at h3
      subst h3
      revert hf
      decide
    intro f hf i
    rw [key a f hf, key b f hf, numB_app, numB_app]
    rcases hf with hf | hf
    · rw [cpu_fold_other _ _ _ _ _ _ _ (cpuTab_kept f (.inl hf)), cpu_fold_other _ _ _ _ _ _ _ (cpuTab_kept f (.inl hf))]
    · have hk : f ∉ kept ∧ f ∉ lists ∧ cnt f = 1 := by
        revert hf
        cases f <;> decide +kernel
      have same := fun c => sent_junk fp sb t c hf
      by_cases hi : i < 1
      · have hc := cpuTab_all f hk.1 hk.2.1
        rw [hk.2.2] at hc
        have e1 := cpu_fold fp cb (sent fp sb t a).num _ cpuTab_nodup o.num _ hc i hi
        have e2 := cpu_fold fp cb (sent fp sb t b).num _ cpuTab_nodup o.num _ hc i hi
        simp only at e1 e2
        rw [e1, e2, same a, same b]
      · have hc := cpuTab_all f hk.1 hk.2.1
        rw [hk.2.2] at hc
        have e1 := cpu_fold_out fp cb (sent fp sb t a).num _ cpuTab_nodup o.num _ hc i hi
        have e2 := cpu_fold_out fp cb (sent fp sb t b).num _ cpuTab_nodup o.num _ hc i hi
        simp only at e1 e2
        rw [e1, e2]
  · intro s hs
    have hn : s ∉ cpuStr.map Prod.fst := fun h => (cpuStr_all s).mp h hs
    show (if s ∈ cpuStr.map Prod.fst then _ else _) = (if s ∈ cpuStr.map Prod.fst then _ else _)
    rw [if_neg hn, if_neg hn]

/-- Any message that is long enough, with strings that end, and with numbers of elements that fit, is taken or refused; it is refused if
and only if a pattern has 128 MiB or more, or the message is shorter than its struct with both patterns. -/
theorem C100_total (fp : Fp) (be : Bool) (hs j : Nat) (o : Opts) (t : Pack) (sz : Nat) (hsz : hs ≤ sz)
    (hstr : ∀ s, s ∉ keptStr → (0 : Byte) ∈ t.str s)
    (hb : ∀ i, i < 3 → dec be (get fp be 4 (.i 4) (t.num .bssplit_nr i)) ≤ 64)
    (hz : ∀ i, i < 3 → dec be (get fp be 4 (.i 4) (t.num .zone_split_nr i)) ≤ 256)
    (hq : dec be (get fp be 4 (.i 4) (t.num .random_sequence_nr 0)) ≤ 64)
    (hd : dec be (get fp be 4 (.i 4) (t.num .dp_nr_ids 0)) ≤ 128) :
    ∃ r ok, toCpu fp be hs j o t sz = some (r, ok) ∧
      (ok = true ↔ dec be (get fp be 4 (.i 4) (t.num .verify_pattern_bytes 0)) < 2 ^ 27 ∧
        dec be (get fp be 4 (.i 4) (t.num .buffer_pattern_bytes 0)) < 2 ^ 27 ∧
        hs + dec be (get fp be 4 (.i 4) (t.num .verify_pattern_bytes 0)) +
          dec be (get fp be 4 (.i 4) (t.num .buffer_pattern_bytes 0)) ≤ sz) := by
  have hB : ∀ f, f ∉ kept → f ∉ lists → conv f = .i 4 → ∀ i, i < cnt f → numB fp be t o f i = dec be (get fp be 4 (.i 4) (t.num f i)) := by
    intro f h h2 h3 i hi
    rw [numB_app]
    have hc := cpu_fold fp be t.num _ cpuTab_nodup o.num ⟨f, f, false, conv f, cnt f⟩ (cpuTab_all f h h2) i hi
    simp only at hc
    rw [hc, ← conv_width f, h3]
    rfl
  have eb : ∀ i, i < 3 → numA fp be t o .bssplit_nr i = dec be (get fp be 4 (.i 4) (t.num .bssplit_nr i)) := fun i hi => by
    rw [numA_numB _ _ _ _ _ _ (by decide +kernel), hB .bssplit_nr (by decide) (by decide) rfl i hi]
  have ez : ∀ i, i < 3 → numA fp be t o .zone_split_nr i = dec be (get fp be 4 (.i 4) (t.num .zone_split_nr i)) := fun i hi => by
    rw [numA_numB _ _ _ _ _ _ (by decide +kernel), hB .zone_split_nr (by decide) (by decide) rfl i hi]
  have ev : numA fp be t o .verify_pattern_bytes 0 = dec be (get fp be 4 (.i 4) (t.num .verify_pattern_bytes 0)) := by
    rw [numA_numB _ _ _ _ _ _ (by decide +kernel), hB .verify_pattern_bytes (by decide) (by decide) rfl 0 (by decide)]
  have ew : numA fp be t o .buffer_pattern_bytes 0 = dec be (get fp be 4 (.i 4) (t.num .buffer_pattern_bytes 0)) := by
    rw [numA_numB _ _ _ _ _ _ (by decide +kernel), hB .buffer_pattern_bytes (by decide) (by decide) rfl 0 (by decide)]
  have eq := hB .random_sequence_nr (by decide) (by decide) rfl 0 (by decide)
  have ed := hB .dp_nr_ids (by decide) (by decide) rfl 0 (by decide)
  have hM : maxPat = 2 ^ 27 := rfl
  have hP : packSize hs (numA fp be t o) = hs + dec be (get fp be 4 (.i 4) (t.num .verify_pattern_bytes 0)) +
      dec be (get fp be 4 (.i 4) (t.num .buffer_pattern_bytes 0)) := by
    unfold packSize
    rw [ev, ew]
  by_cases hc : dec be (get fp be 4 (.i 4) (t.num .verify_pattern_bytes 0)) < 2 ^ 27 ∧
        dec be (get fp be 4 (.i 4) (t.num .buffer_pattern_bytes 0)) < 2 ^ 27 ∧
        hs + dec be (get fp be 4 (.i 4) (t.num .verify_pattern_bytes 0)) +
          dec be (get fp be 4 (.i 4) (t.num .buffer_pattern_bytes 0)) ≤ sz
  · refine ⟨_, true, toCpu_eq hsz hstr ?_ ?_ ?_ ?_ ?_ ?_ ?_, by simp [hc]⟩
    · intro i hi
      rw [eb i hi]
      exact hb i hi
    · intro i hi
      rw [ez i hi]
      exact hz i hi
    · rw [ev, hM]
      exact hc.1
    · rw [ew, hM]
      exact hc.2.1
    · rw [hP]
      exact hc.2.2
    · rw [eq]
      exact hq
    · rw [ed]
      exact hd
  · obtain ⟨r, hr⟩ := toCpu_refused (fp := fp) (be := be) (hs := hs) (junk := j) (o := o) (t := t) (sz := sz) hsz hstr
      (fun i hi => by rw [eb i hi]; exact hb i hi) (fun i hi => by rw [ez i hi]; exact hz i hi) (by
        rw [ev, ew, hM, hP]
        omega)
    exact ⟨r, false, hr, by simp [hc]⟩

/-! ## Cases -/

/-- Doubles as they are. -/
def idFp : Fp := ⟨fun d => d % 256 ^ 8, id, fun d => Nat.mod_lt _ (by decide)⟩

/-- Options of a job: `bs` split in two sizes for writes, a zone split, a sequence, two identifiers, a pattern, steady state of 60 s,
histogram logs every 1000 ms. -/
def exOpts : Opts where
  num := fun f i => match f, i with
    | .iodepth, 0 => 32
    | .size, 0 => 2 ^ 40
    | .ddir_seq_add, 0 => 2 ^ 64 - 4096
    | .bssplit_nr, 1 => 2
    | .zone_split_nr, 0 => 1
    | .random_sequence_nr, 0 => 3
    | .dp_nr_ids, 0 => 2
    | .dp_ids, 1 => 65535
    | .verify_pattern_bytes, 0 => 2
    | .zipf_theta, 0 => 0x3ff3333333333333
    | .ss_dur, 0 => 60000000
    | .ss_state, 0 => 1
    | .log_hist_msec, 0 => 1000
    | .verify_state_save, 0 => 1
    | _, _ => 0
  str := fun s => match s with
    | .name => some [106, 49]
    | .filename => some (List.replicate 300 97)
    | _ => none
  bss := fun i => if i = 1 then [(4096, 60), (65536, 40)] else []
  zs := fun i => if i = 0 then [(60, 10, 2 ^ 20)] else []
  seq := [5, 3, 2 ^ 32 - 1]
  vpat := [0xab, 0xcd]
  bpat := []

theorem exOk : Ok idFp exOpts where
  num := by
    intro f i _
    simp only [exOpts]
    split <;> first | decide | exact Nat.pow_pos (by decide)
  dbl := by
    intro f i _ _
    simp only [exOpts]
    split <;> decide
  str := by
    intro s x h
    simp only [exOpts] at h
    split at h <;> first | (cases h; decide) | cases h
  bss := by decide
  bssv := by decide
  zs := by decide
  zsv := by decide
  seq := by decide
  seqv := by decide
  dp := by decide
  vpat := by decide
  bpat := by decide

/-- Memory of a message that is zero. -/
def zero : Pack := ⟨fun f _ => List.replicate (packW f) 0, fun _ => List.replicate 256 0, []⟩

/-- Options that are all zero (/repo/cconv.c:747). -/
def none' : Opts := ⟨fun _ _ => 0, fun _ => none, fun _ => [], fun _ => [], [], [], []⟩

/-- The hypotheses of C100 are met by `exOpts`; some of what arrives at a big endian host. -/
theorem C100_case : Ok idFp exOpts ∧ ∃ p r, toNet idFp false zero exOpts = some p ∧
    toCpu idFp true 20000 7 none' p (packSize 20000 exOpts.num) = some (r, true) ∧ Arrived none' exOpts r ∧
    r.num .size 0 = 2 ^ 40 ∧ r.num .zipf_theta 0 = 0x3ff3333333333333 ∧ r.bss 1 = [(4096, 60), (65536, 40)] ∧
    r.num .dp_ids 1 = 65535 ∧ r.seq = [5, 3, 2 ^ 32 - 1] ∧ r.vpat = [0xab, 0xcd] := by
  obtain ⟨p, r, h1, h2, h3⟩ := C100_roundtrip_partial false true 20000 7 exOk none' zero
  refine ⟨exOk, p, r, h1, h2, h3, ?_, ?_, ?_, ?_, ?_, ?_⟩
  · exact h3.num .size (by decide) (by decide) (by decide) 0 (by decide)
  · exact h3.num .zipf_theta (by decide) (by decide) (by decide) 0 (by decide)
  · exact h3.bss 1 (by decide) (by decide)
  · exact h3.dp 1 (by decide)
  · exact h3.seq (by decide)
  · exact h3.vpat

/-- The steady state options are not sent: /repo/cconv.c:673-677 read them from the message instead of the options.  A job with a duration
of 60 s arrives with what was in the memory of the message: here 0, or any other number `x`. -/
theorem C100_steady_counterexample : exOpts.num .ss_dur 0 = 60000000 ∧
    ∀ x, x < 2 ^ 64 → ∃ t p r, toNet idFp false t exOpts = some p ∧
      toCpu idFp false 20000 7 none' p (packSize 20000 exOpts.num) = some (r, true) ∧ r.num .ss_dur 0 = x := by
  refine ⟨rfl, fun x hx => ?_⟩
  obtain ⟨h1, h2, -⟩ := arrive false false 20000 7 exOk none' { zero with num := fun f _ => TsNet.enc false (packW f) x }
  refine ⟨_, _, _, h1, h2, ?_⟩
  generalize ht : ({ zero with num := fun f _ => TsNet.enc false (packW f) x } : Pack) = t
  rw [recvd_num _ _ _ _ _ (by decide), numB_app]
  have e1 := cpu_fold idFp false (sent idFp false t exOpts).num _ cpuTab_nodup none'.num ⟨.ss_dur, .ss_dur, false, .i 8, 1⟩
    (by decide +kernel) 0 (by decide)
  simp only at e1
  rw [e1]
  have e2 := sent_own idFp false t exOpts (f := .ss_dur) (c := .i 8) (by decide) (by decide +kernel)
  have e3 : dec false (t.num .ss_dur 0) = x := by
    rw [← ht]
    exact TsNet.dec_enc false 8 x hx
  rw [e2, e3]
  have e4 := get_put idFp false false (.i 8) x hx (by simp)
  exact e4

/-- `log_hist_msec` is read from the message (/repo/cconv.c:225) but not written into it; `verify_state_save` has a place in the message
(/repo/thread_options.h:506) that nobody uses. -/
theorem C100_hist_counterexample : exOpts.num .log_hist_msec 0 = 1000 ∧ exOpts.num .verify_state_save 0 = 1 ∧
    ∃ p r, toNet idFp false zero exOpts = some p ∧ toCpu idFp false 20000 7 none' p (packSize 20000 exOpts.num) = some (r, true) ∧
      r.num .log_hist_msec 0 = 0 ∧ r.num .verify_state_save 0 = 0 := by
  obtain ⟨h1, h2, -⟩ := arrive false false 20000 7 exOk none' zero
  exact ⟨rfl, rfl, _, _, h1, h2, by decide +kernel, by decide +kernel⟩

/-- A long string is cut: of the 300 bytes of `filename` 255 arrive. -/
theorem C100_cut_counterexample : ∃ p r, toNet idFp false zero exOpts = some p ∧
    toCpu idFp false 20000 7 none' p (packSize 20000 exOpts.num) = some (r, true) ∧ exOpts.str .filename = some (List.replicate 300 97) ∧
    r.str .filename = some (List.replicate 255 97) := by
  obtain ⟨p, r, h1, h2, h3⟩ := C100_roundtrip_partial false false 20000 7 exOk none' zero
  refine ⟨p, r, h1, h2, rfl, ?_⟩
  rw [h3.str .filename (by decide)]
  decide +kernel

/-- The absolute size of a zone split is not sent. -/
theorem C100_zone_counterexample : ∃ p r, toNet idFp false zero exOpts = some p ∧
    toCpu idFp false 20000 7 none' p (packSize 20000 exOpts.num) = some (r, true) ∧ exOpts.zs 0 = [(60, 10, 2 ^ 20)] ∧
    r.zs 0 = [(60, 10, 7)] := by
  obtain ⟨h1, h2, -⟩ := arrive false false 20000 7 exOk none' zero
  exact ⟨_, _, h1, h2, rfl, by decide +kernel⟩

/-- A string that the sender does not have stays what it was: an option cannot be taken back. -/
theorem C100_clear_counterexample : exOpts.str .opendir = none ∧ ∃ o p r, o.str .opendir = some [47] ∧ toNet idFp false zero exOpts = some p ∧
    toCpu idFp false 20000 7 o p (packSize 20000 exOpts.num) = some (r, true) ∧ r.str .opendir = some [47] := by
  obtain ⟨p, r, h1, h2, h3⟩ := C100_roundtrip_partial false false 20000 7 exOk { none' with str := fun _ => some [47] } zero
  refine ⟨rfl, _, p, r, ?_, h1, h2, ?_⟩
  · rfl
  · rw [h3.str .opendir (by decide)]
    rfl

/-- A message of zeros but for one number of 32 bits. -/
def bad (f : F) (v : Nat) : Pack := { zero with num := fun g i => if g = f then le 4 v else zero.num g i }

/-- Numbers of elements are not looked at: 129 identifiers overwrite what is behind `dp_ids` of the receiver (/repo/cconv.c:387-389), 65
block size splits or elements of a sequence, or 257 zone splits, are read past their arrays (141, 151, 250). -/
theorem C100_number_counterexample : toCpu idFp false 20000 7 none' (bad .dp_nr_ids 129) 20000 = none ∧
    toCpu idFp false 20000 7 none' (bad .bssplit_nr 65) 20000 = none ∧ toCpu idFp false 20000 7 none' (bad .zone_split_nr 257) 20000 = none ∧
    toCpu idFp false 20000 7 none' (bad .random_sequence_nr 65) 20000 = none := by
  refine ⟨?_, ?_, ?_, ?_⟩ <;> exact Option.isNone_iff_eq_none.mp (by decide +kernel)

/-- A string without a zero is read past its end. -/
theorem C100_string_counterexample : toCpu idFp false 20000 7 none' { zero with str := fun _ => List.replicate 256 97 } 20000 = none :=
  Option.isNone_iff_eq_none.mp (by decide +kernel)

/-- The struct of a message is read before its size is looked at (/repo/cconv.c:202). -/
theorem C100_short_counterexample : toCpu idFp false 20000 7 none' zero 19999 = none :=
  Option.isNone_iff_eq_none.mp (by decide +kernel)

/-- A pattern of 128 MiB, which the parser takes (/repo/lib/pattern.c:426), is refused. -/
theorem C100_limit_counterexample :
    (toCpu idFp false 20000 7 none' (bad .verify_pattern_bytes (2 ^ 27)) (20000 + 2 ^ 27)).map (·.2) = some false := by
  decide +kernel

/-! ## The test of the project -/

/-- /repo/cconv.c:728-767 `fio_test_cconv` after the patterns are set: send, receive into zeros, send again; the two messages are the same.
`none`: a step fails. -/
def selfTest (fp : Fp) (be : Bool) (hs j : Nat) (o1 : Opts) : Option Prop := do
  let top1 ← toNet fp be zero o1
  let r ← toCpu fp be hs j none' top1 (packSize hs o1.num)
  if r.2 then
    let top2 ← toNet fp be zero r.1
    return top1 = top2
  else return False

theorem cpu_fold_lt (fp : Fp) (be : Bool) (t : F → Nat → List Byte) (tab : List Asg) (o : F → Nat → Nat) (ho : ∀ f i, o f i < 256 ^ optW f)
    (f : F) (i : Nat) : tab.foldl (cpu1 fp be t) o f i < 256 ^ optW f := by
  induction tab generalizing o with
  | nil => exact ho f i
  | cons a tab ih =>
    rw [List.foldl_cons]
    apply ih
    intro f i
    unfold cpu1
    split
    · have := TsNet.dec_lt be (get fp be (optW f) a.c (t a.src i))
      rwa [TsNet.get_length] at this
    · exact ho f i

theorem wr_congr {fp : Fp} {be : Bool} {f : F} {c : C} {base n : Nat} {l : List Nat} {t t' : F → Nat → List Byte} {g : F} {i : Nat}
    (h : t g i = t' g i) : wr fp be f c base n l t g i = wr fp be f c base n l t' g i := by
  unfold wr
  rw [h]

/-- The test passes for all options, though `C100_lost` shows that some do not arrive: both messages lack them. -/
theorem C100_selftest {fp : Fp} (h0 : fp.unpack (fp.pack 0) = 0) (be : Bool) (hs j : Nat) {a : Opts} (ha : Ok fp a) :
    ∃ P, selfTest fp be hs j a = some P ∧ P := by
  obtain ⟨h1, h2, h3⟩ := arrive be be hs j ha none' zero
  have hkept : ∀ f, f ∈ kept ∨ f ∈ lists → f ≠ .dp_ids → ∀ i, (recvd fp be j none' (sent fp be zero a)).num f i = 0 := by
    intro f hf hd i
    rw [recvd_num _ _ _ _ _ hd, numB_app, cpu_fold_other _ _ _ _ _ _ _ (cpuTab_kept f hf)]
    rfl
  have hlt : ∀ f i, (recvd fp be j none' (sent fp be zero a)).num f i < 256 ^ optW f := by
    intro f i
    have := cpu_fold_lt fp be (sent fp be zero a).num
      ((cpuTabA ++ cpuTabB) ++ [⟨.dp_ids, .dp_ids, false, .i 2, numB fp be (sent fp be zero a) none' .dp_nr_ids 0⟩]) none'.num
      (fun f i => Nat.pow_pos (by decide)) f i
    rw [List.foldl_append, ← numB_app] at this
    exact this
  have hnum := h3.num
  have hbe : ∀ i, i < 3 → a.bss i = [] → (recvd fp be j none' (sent fp be zero a)).bss i = [] := by
    intro i hi he
    have hl := (ha.bss i hi).2
    rw [he] at hl
    show (if i < 3 ∧ numA fp be (sent fp be zero a) none' .bssplit_nr i ≠ 0 then _ else none'.bss i) = _
    rw [if_neg]
    · rfl
    · rintro ⟨-, hh⟩
      apply hh
      rw [numA_numB _ _ _ _ _ _ (by decide +kernel), ← recvd_num fp be j none' _ (f := .bssplit_nr) (by decide),
        hnum .bssplit_nr (by decide) (by decide) (by decide) i hi, hl]
      rfl
  have hze : ∀ i, i < 3 → a.zs i = [] → (recvd fp be j none' (sent fp be zero a)).zs i = [] := by
    intro i hi he
    have hl := (ha.zs i hi).2
    rw [he] at hl
    show (if i < 3 ∧ numA fp be (sent fp be zero a) none' .zone_split_nr i ≠ 0 then _ else none'.zs i) = _
    rw [if_neg]
    · rfl
    · rintro ⟨-, hh⟩
      apply hh
      rw [numA_numB _ _ _ _ _ _ (by decide +kernel), ← recvd_num fp be j none' _ (f := .zone_split_nr) (by decide),
        hnum .zone_split_nr (by decide) (by decide) (by decide) i hi, hl]
      rfl
  have hse : a.seq = [] → (recvd fp be j none' (sent fp be zero a)).seq = [] := by
    intro he
    have hl := ha.seq.2
    rw [he] at hl
    show (if numB fp be (sent fp be zero a) none' .random_sequence_nr 0 ≠ 0 then _ else none'.seq) = _
    rw [if_neg]
    · rfl
    · intro hh
      apply hh
      rw [← recvd_num fp be j none' _ (f := .random_sequence_nr) (by decide),
        hnum .random_sequence_nr (by decide) (by decide) (by decide) 0 (by decide), hl]
      rfl
  have hstr0 : ∀ s, s ∈ keptStr → (recvd fp be j none' (sent fp be zero a)).str s = none := by
    intro s hs
    have hn : s ∉ cpuStr.map Prod.fst := fun h => (cpuStr_all s).mp h hs
    show (if s ∈ cpuStr.map Prod.fst then _ else none'.str s) = _
    rw [if_neg hn]
    rfl
  generalize hr : recvd fp be j none' (sent fp be zero a) = r at h2 h3 hkept hlt hnum hbe hze hse hstr0
  have hb : ∀ i, i < 3 → r.bss i = a.bss i := fun i hi => by
    by_cases he : a.bss i = []
    · rw [he, hbe i hi he]
    · exact h3.bss i hi he
  have hz : ∀ i, i < 3 → (r.zs i).map (fun x => (x.1, x.2.1)) = (a.zs i).map fun x => (x.1, x.2.1) := fun i hi => by
    by_cases he : a.zs i = []
    · rw [he, hze i hi he]
    · exact h3.zs i hi he
  have hz1 : ∀ i, i < 3 → (r.zs i).map (·.1) = (a.zs i).map (·.1) := fun i hi => by
    have := congrArg (List.map Prod.fst) (hz i hi)
    simpa [Function.comp_def] using this
  have hz2 : ∀ i, i < 3 → (r.zs i).map (·.2.1) = (a.zs i).map (·.2.1) := fun i hi => by
    have := congrArg (List.map Prod.snd) (hz i hi)
    simpa [Function.comp_def] using this
  have hq : r.seq = a.seq := by
    by_cases he : a.seq = []
    · rw [he, hse he]
    · exact h3.seq he
  have n1 : ∀ i, i < 3 → r.num .bssplit_nr i = a.num .bssplit_nr i := fun i hi => hnum .bssplit_nr (by decide) (by decide) (by decide) i hi
  have n2 : ∀ i, i < 3 → r.num .zone_split_nr i = a.num .zone_split_nr i := fun i hi => hnum .zone_split_nr (by decide) (by decide) (by decide) i hi
  have n3 : r.num .random_sequence_nr 0 = a.num .random_sequence_nr 0 := hnum _ (by decide) (by decide) (by decide) 0 (by decide)
  have n4 : r.num .dp_nr_ids 0 = a.num .dp_nr_ids 0 := hnum _ (by decide) (by decide) (by decide) 0 (by decide)
  have n5 : r.num .verify_pattern_bytes 0 = a.num .verify_pattern_bytes 0 := hnum _ (by decide) (by decide) (by decide) 0 (by decide)
  have n6 : r.num .buffer_pattern_bytes 0 = a.num .buffer_pattern_bytes 0 := hnum _ (by decide) (by decide) (by decide) 0 (by decide)
  have hok : Ok fp r := by
    constructor
    · intro f i _
      exact hlt f i
    · intro f i hf hi
      by_cases hk : f ∈ kept
      · rw [hkept f (.inl hk) (by rintro rfl; revert hf; decide)]
        exact h0
      · rw [hnum f hk (by revert hf; cases f <;> decide +kernel) (by revert hf; cases f <;> decide +kernel) i hi]
        exact ha.dbl f i hf hi
    · intro s x hx
      by_cases hk : s ∈ keptStr
      · rw [hstr0 s hk] at hx
        cases hx
      · rw [h3.str s hk] at hx
        cases hs : a.str s with
        | none =>
          rw [hs] at hx
          cases hx
        | some y =>
          rw [hs] at hx
          cases y with
          | nil => cases hx
          | cons c y =>
            simp only [cutStr, Option.some.injEq] at hx
            subst hx
            exact fun hm => ha.str s _ hs (List.mem_of_mem_take hm)
    · intro i hi
      rw [n1 i hi, hb i hi]
      exact ha.bss i hi
    · intro i hi
      rw [hb i hi]
      exact ha.bssv i hi
    · intro i hi
      have : (r.zs i).length = (a.zs i).length := by simpa using congrArg List.length (hz i hi)
      rw [n2 i hi, this]
      exact ha.zs i hi
    · intro i hi x hx
      have hm := List.mem_map_of_mem (f := fun x : Nat × Nat × Nat => (x.1, x.2.1)) hx
      rw [hz i hi, List.mem_map] at hm
      obtain ⟨y, hy, he⟩ := hm
      have := ha.zsv i hi y hy
      simp only [Prod.mk.injEq] at he
      rw [← he.1, ← he.2]
      exact this
    · rw [n3, hq]
      exact ha.seq
    · rw [hq]
      exact ha.seqv
    · rw [n4]
      exact ha.dp
    · rw [n5, h3.vpat]
      exact ha.vpat
    · rw [n6, h3.bpat]
      exact ha.bpat
  have hsame : sent fp be zero a = sent fp be zero r := by
    unfold sent
    have en : sentNum fp be zero.num a = sentNum fp be zero.num r := by
      funext f i
      by_cases hl : f ∈ lists
      · have ef : netTab.foldl (net1 fp be a.num) zero.num f i = netTab.foldl (net1 fp be r.num) zero.num f i := by
          rw [net_fold_other _ _ _ _ _ _ _ (netTab_other f (.inr hl)), net_fold_other _ _ _ _ _ _ _ (netTab_other f (.inr hl))]
        have chain : ∀ (x y : F → Nat → List Byte), x f i = y f i → ((∀ k, k < a.num .dp_nr_ids 0 → r.num .dp_ids k = a.num .dp_ids k)) →
            net1 fp be a.num x ⟨.dp_ids, .dp_ids, false, .i 2, a.num .dp_nr_ids 0⟩ f i =
            net1 fp be r.num y ⟨.dp_ids, .dp_ids, false, .i 2, a.num .dp_nr_ids 0⟩ f i := by
          intro x y hxy hd
          unfold net1
          simp only
          by_cases hc : f = .dp_ids ∧ i < a.num .dp_nr_ids 0
          · rw [if_pos hc, if_pos hc, hd i hc.2]
            rfl
          · rw [if_neg hc, if_neg hc, hxy]
        unfold sentNum
        rw [n4, n3, hq, n1 0 (by decide), n1 1 (by decide), n1 2 (by decide), n2 0 (by decide), n2 1 (by decide), n2 2 (by decide),
          hb 0 (by decide), hb 1 (by decide), hb 2 (by decide), hz1 0 (by decide), hz1 1 (by decide), hz1 2 (by decide),
          hz2 0 (by decide), hz2 1 (by decide), hz2 2 (by decide)]
        apply chain _ _ _ h3.dp
        iterate 13 apply wr_congr
        exact ef
      · by_cases hk : f ∈ kept
        · rw [sentNum_tab hl, sentNum_tab hl, net_fold_other _ _ _ _ _ _ _ (netTab_other f (.inl hk)),
            net_fold_other _ _ _ _ _ _ _ (netTab_other f (.inl hk))]
        · by_cases hj : f ∈ junk
          · exact (sent_junk fp be zero a hj i).trans (sent_junk fp be zero r hj i).symm
          · rw [sentNum_tab hl, sentNum_tab hl]
            have hm := netTab_all f hk hj hl
            by_cases hi : i < cnt f
            · have e1 := net_fold fp be a.num _ netTab_nodup zero.num _ hm (by simp) i hi
              have e2 := net_fold fp be r.num _ netTab_nodup zero.num _ hm (by simp) i hi
              simp only [Bool.false_eq_true, if_false] at e1 e2
              rw [e1, e2, hnum f hk hj hl i hi]
            · have e1 := net_fold_out fp be a.num _ netTab_nodup zero.num _ hm i hi
              have e2 := net_fold_out fp be r.num _ netTab_nodup zero.num _ hm i hi
              simp only at e1 e2
              rw [e1, e2]
    have es : netStr.foldl (strNet1 a.str) zero.str = netStr.foldl (strNet1 r.str) zero.str := by
      funext s
      rw [strNet_fold a.str netStr netStr_nodup netStr_diag, strNet_fold r.str netStr netStr_nodup netStr_diag]
      by_cases hk : s ∈ keptStr
      · rw [if_neg (fun h => (netStr_all s).mp h hk), if_neg (fun h => (netStr_all s).mp h hk)]
      · rw [if_pos ((netStr_all s).mpr hk), if_pos ((netStr_all s).mpr hk), h3.str s hk]
        cases a.str s with
        | none => rfl
        | some y =>
          cases y with
          | nil => rfl
          | cons c y =>
            simp only [cutStr, strNet, List.take_take, Nat.min_self]
    rw [en, es, h3.vpat, h3.bpat]
  refine ⟨sent fp be zero a = sent fp be zero r, ?_, hsame⟩
  unfold selfTest
  simp only [h1, h2, Option.bind_eq_bind, Option.bind_some, if_true]
  have h4 := toNet_eq (be := be) (t := zero) hok
  rw [h4]
  rfl

/-- The hypotheses are met by `exOpts`, which has steady state and histogram options. -/
example : ∃ P, selfTest idFp false 20000 7 exOpts = some P ∧ P := C100_selftest (by decide) false 20000 7 exOk

end Fio.Cconv
