import Verif.Cconv.Lemmas

namespace Fio.Cconv

open Fio.TsNet (C Fp dec put get)
open Fio

/-- The numbers of a message. -/
def sentNum (fp : Fp) (be : Bool) (t : F → Nat → List Byte) (o : Opts) : F → Nat → List Byte :=
  net1 fp be o.num
    (wr fp be .zone_split_perc (.i 1) (256 * 2) (o.num .zone_split_nr 2) ((o.zs 2).map (·.2.1))
    (wr fp be .zone_split_access (.i 1) (256 * 2) (o.num .zone_split_nr 2) ((o.zs 2).map (·.1))
    (wr fp be .zone_split_perc (.i 1) (256 * 1) (o.num .zone_split_nr 1) ((o.zs 1).map (·.2.1))
    (wr fp be .zone_split_access (.i 1) (256 * 1) (o.num .zone_split_nr 1) ((o.zs 1).map (·.1))
    (wr fp be .zone_split_perc (.i 1) (256 * 0) (o.num .zone_split_nr 0) ((o.zs 0).map (·.2.1))
    (wr fp be .zone_split_access (.i 1) (256 * 0) (o.num .zone_split_nr 0) ((o.zs 0).map (·.1))
    (wr fp be .bssplit_perc (.i 4) (64 * 2) (o.num .bssplit_nr 2) ((o.bss 2).map (·.2))
    (wr fp be .bssplit_bs (.i 8) (64 * 2) (o.num .bssplit_nr 2) ((o.bss 2).map (·.1))
    (wr fp be .bssplit_perc (.i 4) (64 * 1) (o.num .bssplit_nr 1) ((o.bss 1).map (·.2))
    (wr fp be .bssplit_bs (.i 8) (64 * 1) (o.num .bssplit_nr 1) ((o.bss 1).map (·.1))
    (wr fp be .bssplit_perc (.i 4) (64 * 0) (o.num .bssplit_nr 0) ((o.bss 0).map (·.2))
    (wr fp be .bssplit_bs (.i 8) (64 * 0) (o.num .bssplit_nr 0) ((o.bss 0).map (·.1))
    (wr fp be .random_sequence_arr (.i 4) 0 (o.num .random_sequence_nr 0) o.seq (netTab.foldl (net1 fp be o.num) t))))))))))))))
    ⟨.dp_ids, .dp_ids, false, .i 2, o.num .dp_nr_ids 0⟩

theorem toNet_eq {fp : Fp} {be : Bool} {t : Pack} {o : Opts} (h : Ok fp o) :
    toNet fp be t o = some { num := sentNum fp be t.num o, str := netStr.foldl (strNet1 o.str) t.str, pat := o.vpat ++ o.bpat } := by
  have b0 := h.bss 0 (by decide)
  have b1 := h.bss 1 (by decide)
  have b2 := h.bss 2 (by decide)
  have z0 := h.zs 0 (by decide)
  have z1 := h.zs 1 (by decide)
  have z2 := h.zs 2 (by decide)
  have hq := h.seq
  have hv := h.vpat
  have hb := h.bpat
  have hd := h.dp
  have hd' : ¬ cnt .dp_ids < o.num .dp_nr_ids 0 := Nat.not_lt.mpr hd
  have hpat : netPat o = some (o.vpat ++ o.bpat) := by
    unfold netPat
    rw [if_neg (by omega), hv.1, hb.1, List.take_length, List.take_length]
  have lb (i : Nat) (hi : o.num .bssplit_nr i = (o.bss i).length) (g : Nat × Nat → Nat) :
      o.num .bssplit_nr i ≤ ((o.bss i).map g).length := by rw [List.length_map, hi]; exact Nat.le_refl _
  have lz (i : Nat) (hi : o.num .zone_split_nr i = (o.zs i).length) (g : Nat × Nat × Nat → Nat) :
      o.num .zone_split_nr i ≤ ((o.zs i).map g).length := by rw [List.length_map, hi]; exact Nat.le_refl _
  unfold toNet netBss netZs netDp
  simp only [Nat.min_eq_left b0.1, Nat.min_eq_left b1.1, Nat.min_eq_left b2.1, Nat.min_eq_left z0.1, Nat.min_eq_left z1.1,
    Nat.min_eq_left z2.1, Nat.min_eq_left hq.1, netList_eq (Nat.le_of_eq hq.2), netList_eq (lb 0 b0.2 _), netList_eq (lb 1 b1.2 _),
    netList_eq (lb 2 b2.2 _), netList_eq (lz 0 z0.2 _), netList_eq (lz 1 z1.2 _), netList_eq (lz 2 z2.2 _), if_neg hd', hpat,
    Option.bind_eq_bind, Option.bind_some, Option.pure_def]
  rfl

/-- The fields that are no lists are as the table leaves them. -/
theorem sentNum_tab {fp : Fp} {be : Bool} {t : F → Nat → List Byte} {o : Opts} {f : F} (hf : f ∉ lists) (i : Nat) :
    sentNum fp be t o f i = netTab.foldl (net1 fp be o.num) t f i := by
  simp only [lists, List.mem_cons, List.not_mem_nil, or_false, not_or] at hf
  obtain ⟨h1, h2, h3, h4, h5, h6⟩ := hf
  unfold sentNum
  have : ∀ (u : F → Nat → List Byte) (n : Nat), net1 fp be o.num u ⟨.dp_ids, .dp_ids, false, .i 2, n⟩ f i = u f i := by
    intro u n
    unfold net1
    rw [if_neg]
    exact fun hh => h1 hh.1
  rw [this, wr_ne h5, wr_ne h4, wr_ne h5, wr_ne h4, wr_ne h5, wr_ne h4, wr_ne h3, wr_ne h2, wr_ne h3, wr_ne h2, wr_ne h3, wr_ne h2, wr_ne h6]

theorem sent_dp {fp : Fp} {be : Bool} {t : F → Nat → List Byte} {o : Opts} {i : Nat} (hi : i < o.num .dp_nr_ids 0) :
    sentNum fp be t o .dp_ids i = put fp be 2 (.i 2) (o.num .dp_ids i) := by
  unfold sentNum net1
  rw [if_pos ⟨rfl, hi⟩]
  rfl

theorem net1_dp {fp : Fp} {be : Bool} {o : F → Nat → Nat} {u : F → Nat → List Byte} {n : Nat} {f : F} {i : Nat} (h : f ≠ .dp_ids) :
    net1 fp be o u ⟨.dp_ids, .dp_ids, false, .i 2, n⟩ f i = u f i := by
  unfold net1
  rw [if_neg]
  exact fun hh => h hh.1

theorem sent_seq {fp : Fp} {be : Bool} {t : F → Nat → List Byte} {o : Opts} {j : Nat} (hj : j < o.num .random_sequence_nr 0) :
    sentNum fp be t o .random_sequence_arr j = put fp be 4 (.i 4) (o.seq.getD j 0) := by
  unfold sentNum
  rw [net1_dp (by decide)]
  iterate 12 rw [wr_ne (by decide)]
  have := @wr_in fp be .random_sequence_arr (.i 4) 0 (o.num .random_sequence_nr 0) o.seq (netTab.foldl (net1 fp be o.num) t) j hj
  rw [Nat.zero_add] at this
  exact this

theorem sent_bs {fp : Fp} {be : Bool} {t : F → Nat → List Byte} {o : Opts} (h : Ok fp o) {i j : Nat} (hi : i < 3) (hj : j < o.num .bssplit_nr i) :
    sentNum fp be t o .bssplit_bs (64 * i + j) = put fp be 8 (.i 8) (((o.bss i).map (·.1)).getD j 0) := by
  have b0 := (h.bss 0 (by decide)).1
  have b1 := (h.bss 1 (by decide)).1
  have b2 := (h.bss 2 (by decide)).1
  unfold sentNum
  rw [net1_dp (by decide)]
  iterate 7 rw [wr_ne (by decide)]
  match i, hi with
  | 0, _ =>
    rw [wr_out (by omega), wr_ne (by decide), wr_out (by omega), wr_ne (by decide), wr_in hj]
    rfl
  | 1, _ =>
    rw [wr_out (by omega), wr_ne (by decide), wr_in hj]
    rfl
  | 2, _ =>
    rw [wr_in hj]
    rfl

theorem sent_perc {fp : Fp} {be : Bool} {t : F → Nat → List Byte} {o : Opts} (h : Ok fp o) {i j : Nat} (hi : i < 3) (hj : j < o.num .bssplit_nr i) :
    sentNum fp be t o .bssplit_perc (64 * i + j) = put fp be 4 (.i 4) (((o.bss i).map (·.2)).getD j 0) := by
  have b0 := (h.bss 0 (by decide)).1
  have b1 := (h.bss 1 (by decide)).1
  have b2 := (h.bss 2 (by decide)).1
  unfold sentNum
  rw [net1_dp (by decide)]
  iterate 6 rw [wr_ne (by decide)]
  match i, hi with
  | 0, _ =>
    rw [wr_out (by omega), wr_ne (by decide), wr_out (by omega), wr_ne (by decide), wr_in hj]
    rfl
  | 1, _ =>
    rw [wr_out (by omega), wr_ne (by decide), wr_in hj]
    rfl
  | 2, _ =>
    rw [wr_in hj]
    rfl

theorem sent_za {fp : Fp} {be : Bool} {t : F → Nat → List Byte} {o : Opts} (h : Ok fp o) {i j : Nat} (hi : i < 3) (hj : j < o.num .zone_split_nr i) :
    sentNum fp be t o .zone_split_access (256 * i + j) = put fp be 1 (.i 1) (((o.zs i).map (·.1)).getD j 0) := by
  have b0 := (h.zs 0 (by decide)).1
  have b1 := (h.zs 1 (by decide)).1
  have b2 := (h.zs 2 (by decide)).1
  unfold sentNum
  rw [net1_dp (by decide)]
  rw [wr_ne (by decide)]
  match i, hi with
  | 0, _ =>
    rw [wr_out (by omega), wr_ne (by decide), wr_out (by omega), wr_ne (by decide), wr_in hj]
    rfl
  | 1, _ =>
    rw [wr_out (by omega), wr_ne (by decide), wr_in hj]
    rfl
  | 2, _ =>
    rw [wr_in hj]
    rfl

theorem sent_zp {fp : Fp} {be : Bool} {t : F → Nat → List Byte} {o : Opts} (h : Ok fp o) {i j : Nat} (hi : i < 3) (hj : j < o.num .zone_split_nr i) :
    sentNum fp be t o .zone_split_perc (256 * i + j) = put fp be 1 (.i 1) (((o.zs i).map (·.2.1)).getD j 0) := by
  have b0 := (h.zs 0 (by decide)).1
  have b1 := (h.zs 1 (by decide)).1
  have b2 := (h.zs 2 (by decide)).1
  unfold sentNum
  rw [net1_dp (by decide)]
  match i, hi with
  | 0, _ =>
    rw [wr_out (by omega), wr_ne (by decide), wr_out (by omega), wr_ne (by decide), wr_in hj]
    rfl
  | 1, _ =>
    rw [wr_out (by omega), wr_ne (by decide), wr_in hj]
    rfl
  | 2, _ =>
    rw [wr_in hj]
    rfl

/-! ## Receiving -/

/-- The numbers after the first and after the second table. -/
def numA (fp : Fp) (be : Bool) (t : Pack) (o : Opts) : F → Nat → Nat := cpuTabA.foldl (cpu1 fp be t.num) o.num
@[inherit_doc numA]
def numB (fp : Fp) (be : Bool) (t : Pack) (o : Opts) : F → Nat → Nat := cpuTabB.foldl (cpu1 fp be t.num) (numA fp be t o)

/-- What the receiver has afterwards. -/
def recvd (fp : Fp) (be : Bool) (junk : Nat) (o : Opts) (t : Pack) : Opts where
  num := cpu1 fp be t.num (numB fp be t o) ⟨.dp_ids, .dp_ids, false, .i 2, numB fp be t o .dp_nr_ids 0⟩
  str := fun s => if s ∈ cpuStr.map Prod.fst then strVal (o.str s) (t.str s) else o.str s
  bss := fun k => if k < 3 ∧ numA fp be t o .bssplit_nr k ≠ 0 then rdBss fp be t.num k (numA fp be t o .bssplit_nr k) else o.bss k
  zs := fun k => if k < 3 ∧ numA fp be t o .zone_split_nr k ≠ 0 then rdZs fp be junk t.num k (numA fp be t o .zone_split_nr k) else o.zs k
  seq := if numB fp be t o .random_sequence_nr 0 ≠ 0 then rdSeq fp be t.num (numB fp be t o .random_sequence_nr 0) else o.seq
  vpat := t.pat.take (numA fp be t o .verify_pattern_bytes 0)
  bpat := (t.pat.drop (numA fp be t o .verify_pattern_bytes 0)).take (numA fp be t o .buffer_pattern_bytes 0)

theorem three {α : Type} (P : Nat → Prop) [DecidablePred P] (g u : Nat → α) :
    (fun k => if k = 2 ∧ P 2 then g 2 else if k = 1 ∧ P 1 then g 1 else if k = 0 ∧ P 0 then g 0 else u k) =
      fun k => if k < 3 ∧ P k then g k else u k := by
  funext k
  match k with
  | 0 => simp
  | 1 => simp
  | 2 => simp
  | k + 3 =>
    have h0 : ¬ k + 3 = 2 := by omega
    have h1 : ¬ k + 3 = 1 := by omega
    have h2 : ¬ k + 3 = 0 := by omega
    have h3 : ¬ k + 3 < 3 := by omega
    simp [h0, h1, h3]

theorem toCpu_eq {fp : Fp} {be : Bool} {hs junk : Nat} {o : Opts} {t : Pack} {sz : Nat} (hsz : hs ≤ sz)
    (hstr : ∀ s, s ∉ keptStr → (0 : Byte) ∈ t.str s)
    (hb : ∀ i, i < 3 → numA fp be t o .bssplit_nr i ≤ 64) (hz : ∀ i, i < 3 → numA fp be t o .zone_split_nr i ≤ 256)
    (hv : numA fp be t o .verify_pattern_bytes 0 < maxPat) (hw : numA fp be t o .buffer_pattern_bytes 0 < maxPat)
    (hp : packSize hs (numA fp be t o) ≤ sz) (hq : numB fp be t o .random_sequence_nr 0 ≤ 64) (hd : numB fp be t o .dp_nr_ids 0 ≤ 128) :
    toCpu fp be hs junk o t sz = some (recvd fp be junk o t, true) := by
  have hs1 := strsCpu_eq t.str cpuStr cpuStr_nodup cpuStr_diag
    (fun p hp => hstr p.1 ((cpuStr_all p.1).mp (List.mem_map_of_mem hp))) o.str
  unfold toCpu
  rw [if_neg (Nat.not_lt.mpr hsz)]
  simp only [hs1, Option.bind_eq_bind, Option.bind_some]
  have hnA : (cpuTabA.foldl (cpu1 fp be t.num) o.num) = numA fp be t o := rfl
  simp only [hnA]
  rw [cpuBss_eq (hb 0 (by decide))]
  simp only [Option.bind_some]
  rw [cpuBss_eq (hb 1 (by decide))]
  simp only [Option.bind_some]
  rw [cpuBss_eq (hb 2 (by decide))]
  simp only [Option.bind_some]
  rw [cpuZs_eq (hz 0 (by decide))]
  simp only [Option.bind_some]
  rw [cpuZs_eq (hz 1 (by decide))]
  simp only [Option.bind_some]
  rw [cpuZs_eq (hz 2 (by decide))]
  simp only [Option.bind_some]
  have hc : ¬ (numA fp be t o .verify_pattern_bytes 0 ≥ maxPat ∨ numA fp be t o .buffer_pattern_bytes 0 ≥ maxPat ∨
      packSize hs (numA fp be t o) > sz) := by
    generalize numA fp be t o .verify_pattern_bytes 0 = x at hv
    generalize numA fp be t o .buffer_pattern_bytes 0 = y at hw
    generalize packSize hs (numA fp be t o) = z at hp
    generalize maxPat = M at hv hw
    omega
  rw [if_neg hc]
  have hnB : (cpuTabB.foldl (cpu1 fp be t.num) (numA fp be t o)) = numB fp be t o := rfl
  simp only [hnB]
  generalize hB : numB fp be t o = nB at hq hd
  rw [cpuSeq_eq]
  simp only [Option.bind_some, cpuDp]
  have hd' : ¬ cnt .dp_ids < nB .dp_nr_ids 0 := Nat.not_lt.mpr hd
  rw [if_neg hd']
  have e1 := three (fun k => numA fp be t o .bssplit_nr k ≠ 0) (fun k => rdBss fp be t.num k (numA fp be t o .bssplit_nr k)) o.bss
  have e2 := three (fun k => numA fp be t o .zone_split_nr k ≠ 0) (fun k => rdZs fp be junk t.num k (numA fp be t o .zone_split_nr k)) o.zs
  simp only [Option.bind_some, Option.pure_def, recvd, hB]
  rw [← e1, ← e2]
  exact hq

theorem toCpu_refused {fp : Fp} {be : Bool} {hs junk : Nat} {o : Opts} {t : Pack} {sz : Nat} (hsz : hs ≤ sz)
    (hstr : ∀ s, s ∉ keptStr → (0 : Byte) ∈ t.str s)
    (hb : ∀ i, i < 3 → numA fp be t o .bssplit_nr i ≤ 64) (hz : ∀ i, i < 3 → numA fp be t o .zone_split_nr i ≤ 256)
    (hc : numA fp be t o .verify_pattern_bytes 0 ≥ maxPat ∨ numA fp be t o .buffer_pattern_bytes 0 ≥ maxPat ∨
      packSize hs (numA fp be t o) > sz) :
    ∃ r, toCpu fp be hs junk o t sz = some (r, false) := by
  have hs1 := strsCpu_eq t.str cpuStr cpuStr_nodup cpuStr_diag
    (fun p hp => hstr p.1 ((cpuStr_all p.1).mp (List.mem_map_of_mem hp))) o.str
  unfold toCpu
  rw [if_neg (Nat.not_lt.mpr hsz)]
  simp only [hs1, Option.bind_eq_bind, Option.bind_some]
  have hnA : (cpuTabA.foldl (cpu1 fp be t.num) o.num) = numA fp be t o := rfl
  simp only [hnA]
  rw [cpuBss_eq (hb 0 (by decide))]
  simp only [Option.bind_some]
  rw [cpuBss_eq (hb 1 (by decide))]
  simp only [Option.bind_some]
  rw [cpuBss_eq (hb 2 (by decide))]
  simp only [Option.bind_some]
  rw [cpuZs_eq (hz 0 (by decide))]
  simp only [Option.bind_some]
  rw [cpuZs_eq (hz 1 (by decide))]
  simp only [Option.bind_some]
  rw [cpuZs_eq (hz 2 (by decide))]
  simp only [Option.bind_some]
  rw [if_pos hc]
  exact ⟨_, rfl⟩

end Fio.Cconv
