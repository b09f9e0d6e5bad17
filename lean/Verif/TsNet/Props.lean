import Verif.TsNet.Loops

namespace Fio.TsNet

theorem le_zero (w : Nat) : le w 0 = List.replicate w 0 := by
  induction w with
  | zero => rfl
  | succ w ih => rw [le, Nat.zero_div, ih]; rfl

theorem dec_le (be : Bool) (w v : Nat) (hv : v < 256 ^ w) : swapLe be w (dec be (le w v)) = v := by
  rw [swapLe_dec be w _ (le_length w v), fromLe_le, Nat.mod_eq_of_lt hv]

theorem num_lt {fp : Fp} {be : Bool} {ts : Ts} (ok : Ok fp be ts) (f : F) (i : Nat) : num be ts.h f i < 256 ^ width f := by
  unfold num
  rw [← ok.bytes f i]
  exact dec_lt ..

theorem put_i (fp : Fp) (be : Bool) (w v : Nat) (hv : v < 256 ^ w) : put fp be w (.i w) v = le w v := by
  have := put_eq fp be (.i w) v hv
  exact this

theorem sendHead_some {fp : Fp} {sb : Bool} {ts : Ts} (ok : Ok fp sb ts) (hbe : sb = false ∨ num sb ts.h .nrBlock 0 = 0) :
    ∃ h, sendHead fp sb ts.h = some h ∧
      (∀ f, ¬ Extra f → ∀ i, i < cnt f → h f i = put fp sb (width f) (convOf f) (num sb ts.h f i)) ∧
      (∀ i, i < num sb ts.h .nrBlock 0 → h .block i = put fp sb 4 (.i 4) (num sb ts.h .block i)) ∧
      (∀ f, Extra f → f ≠ .block → ∀ i, h f i = List.replicate (width f) 0) := by
  have hp : ∀ f, ¬ Extra f → ∀ i, i < cnt f →
      sendTab.foldl (send1 fp sb ts.h) (fun f _ => List.replicate (width f) 0) f i =
        put fp sb (width f) (convOf f) (num sb ts.h f i) :=
    fun f hf i hi => send_fold fp sb ts.h sendTab sendTab_nodup _ f _ _ i (sendTab_all f hf) hi
  have hnb : dec sb (sendTab.foldl (send1 fp sb ts.h) (fun f _ => List.replicate (width f) 0) .nrBlock 0) =
      num sb ts.h .nrBlock 0 := by
    rw [hp .nrBlock (by decide) 0 (by decide)]
    have hlt := num_lt ok .nrBlock 0
    have : put fp sb (width .nrBlock) (convOf .nrBlock) (num sb ts.h .nrBlock 0) = le 8 (num sb ts.h .nrBlock 0) :=
      put_i fp sb 8 _ hlt
    rw [this]
    rcases hbe with rfl | hz
    · have := dec_enc false 8 _ hlt
      simpa [enc] using this
    · rw [hz, le_zero]
      cases sb <;> decide
  unfold sendHead
  simp only
  rw [hnb, if_neg (by have := ok.block; omega)]
  refine ⟨_, rfl, ?_, ?_, ?_⟩
  · intro f hf i hi
    unfold send1
    rw [if_neg]
    · exact hp f hf i hi
    · rintro ⟨rfl, _⟩
      exact hf (Or.inl rfl)
  · intro i hi
    unfold send1
    rw [if_pos ⟨rfl, hi⟩]
    rfl
  · intro f hf hb i
    unfold send1
    rw [if_neg fun h => hb h.1]
    exact send_fold_other fp sb ts.h sendTab _ f i (sendTab_not f hf)

theorem recvHead_some (fp : Fp) (cb : Bool) (h : Head) (nb : Nat) (hnb : h .nrBlock 0 = le 8 nb) (hle : nb ≤ 8192) :
    ∃ r, recvHead fp cb h = some r ∧
      (∀ f, ¬ Extra f ∨ f = .nrPrio → ∀ i, i < cnt f → r f i = get fp cb (width f) (convOf f) (h f i)) ∧
      (∀ i, i < nb → r .block i = get fp cb 4 (.i 4) (h .block i)) := by
  have hp : ∀ f, ¬ Extra f ∨ f = .nrPrio → ∀ i, i < cnt f →
      recvTab.foldl (recv1 fp cb) h f i = get fp cb (width f) (convOf f) (h f i) :=
    fun f hf i hi => recv_fold fp cb recvTab recvTab_nodup _ f _ _ i (recvTab_all f hf) hi
  have hn : dec cb (recvTab.foldl (recv1 fp cb) h .nrBlock 0) = nb := by
    rw [hp .nrBlock (Or.inl (by decide)) 0 (by decide), hnb]
    have hlt : nb < 256 ^ 8 := by omega
    have := get_put fp false cb (.i 8) nb hlt (by simp)
    have e : put fp false (C.i 8).width (.i 8) nb = le 8 nb := put_i fp false 8 nb hlt
    rw [e] at this
    exact this
  unfold recvHead
  simp only
  rw [hn, if_neg (by omega)]
  refine ⟨_, rfl, ?_, ?_⟩
  · intro f hf i hi
    unfold recv1
    rw [if_neg]
    · exact hp f hf i hi
    · rintro ⟨rfl, _⟩
      rcases hf with hf | hf
      · exact hf (Or.inl rfl)
      · simp at hf
  · intro i hi
    unfold recv1
    rw [if_pos ⟨rfl, hi⟩]
    exact congrArg (get fp cb 4 (.i 4)) (recv_fold_other fp cb recvTab h .block i (recvTab_not .block (Or.inl rfl) (by decide)))

/-- What is in a message. -/
structure Sent (fp : Fp) (sb : Bool) (ts : Ts) (m : Msg) (S : Nat → Nat) (P : Nat) : Prop where
  nums : ∀ f, ¬ Extra f → ∀ i, i < cnt f → m.h f i = put fp sb (width f) (convOf f) (num sb ts.h f i)
  block : ∀ i, i < num sb ts.h .nrBlock 0 → m.h .block i = put fp sb 4 (.i 4) (num sb ts.h .block i)
  nr : ∀ i, i < 3 → m.h .nrPrio i = le 4 (num sb ts.h .nrPrio i)
  off : ∀ i, i < 3 → num sb ts.h .nrPrio i ≠ 0 → m.h .prioOff i = le 8 (S i) ∧ S i < 256 ^ 8 ∧ m.e.hs ≤ S i ∧
    S i + num sb ts.h .nrPrio i * psize ≤ m.e.size ∧
    ((num sb ts.h .ssState 0).testBit 5 = true → num sb ts.h .ssDur 0 ≠ 0 → S i + num sb ts.h .nrPrio i * psize ≤ P)
  sep : ∀ i, i < 3 → ∀ i', i' < 3 → i ≠ i' → num sb ts.h .nrPrio i ≠ 0 → num sb ts.h .nrPrio i' ≠ 0 →
    S i + num sb ts.h .nrPrio i * psize ≤ S i' ∨ S i' + num sb ts.h .nrPrio i' * psize ≤ S i
  prio : ∀ i, i < 3 → ∀ k, k < num sb ts.h .nrPrio i → ∀ o ∈ sendPrioOps,
    m.e.bytes (S i + k * psize + o.1) o.2.1 = put fp sb o.2.1 o.2.2 (ts.prio i k o.1)
  ring : (num sb ts.h .ssState 0).testBit 5 = true → num sb ts.h .ssDur 0 ≠ 0 →
    m.h .ssIopsOff 0 = le 8 P ∧ m.h .ssBwOff 0 = le 8 (P + 8 * num sb ts.h .ssDur 0) ∧
    m.h .ssLatOff 0 = le 8 (P + 8 * num sb ts.h .ssDur 0 + 8 * num sb ts.h .ssDur 0) ∧
    P + 24 * num sb ts.h .ssDur 0 < 256 ^ 8 ∧ m.e.hs ≤ P ∧ P + 24 * num sb ts.h .ssDur 0 ≤ m.e.size ∧
    ∀ k, k < num sb ts.h .ssDur 0 → m.e.bytes (P + 8 * k) 8 = put fp sb 8 (.i 8) (ts.iops k) ∧
      m.e.bytes (P + 8 * num sb ts.h .ssDur 0 + 8 * k) 8 = put fp sb 8 (.i 8) (ts.bw k) ∧
      m.e.bytes (P + 8 * num sb ts.h .ssDur 0 + 8 * num sb ts.h .ssDur 0 + 8 * k) 8 = put fp sb 8 (.i 8) (ts.lat k)
  name : m.name = snprintf 128 ts.name
  verror : m.verror = snprintf 128 ts.verror
  desc : m.desc = snprintf 256 ts.desc

theorem mem3 {i : Nat} (h : i < 3) : i ∈ [0, 1, 2] := by
  simp
  omega

theorem sendSs_some (fp : Fp) (be : Bool) (ts : Ts) (dur : Nat) (h : Head) (wp : Nat) (e : Ext) (hb : e.hs ≤ wp)
    (hz : wp + 24 * dur ≤ e.size) :
    ∃ h' e', sendSs fp be ts dur h wp e = some (h', e') ∧ e'.hs = e.hs ∧ e'.size = e.size ∧
      (∀ f i, f ≠ .ssIopsOff → f ≠ .ssBwOff → f ≠ .ssLatOff → h' f i = h f i) ∧
      h' .ssIopsOff 0 = le 8 wp ∧ h' .ssBwOff 0 = le 8 (wp + 8 * dur) ∧ h' .ssLatOff 0 = le 8 (wp + 8 * dur + 8 * dur) ∧
      (∀ k, k < dur → e'.bytes (wp + 8 * k) 8 = put fp be 8 (.i 8) (ts.iops k) ∧
        e'.bytes (wp + 8 * dur + 8 * k) 8 = put fp be 8 (.i 8) (ts.bw k) ∧
        e'.bytes (wp + 8 * dur + 8 * dur + 8 * k) 8 = put fp be 8 (.i 8) (ts.lat k)) ∧
      (∀ x, x < wp → e'.mem x = e.mem x) := by
  obtain ⟨e1, a1, a2, a3, a4, a5⟩ := sendArr_some fp be ts.iops dur wp e hb (by omega)
  obtain ⟨e2, b1, b2, b3, b4, b5⟩ := sendArr_some fp be ts.bw dur (wp + 8 * dur) e1 (by omega) (by omega)
  obtain ⟨e3, c1, c2, c3, c4, c5⟩ := sendArr_some fp be ts.lat dur (wp + 8 * dur + 8 * dur) e2 (by omega) (by omega)
  refine ⟨setEl (setEl (setEl h .ssIopsOff 0 (enc be 8 (swapLe be 8 wp))) .ssBwOff 0 (enc be 8 (swapLe be 8 (wp + 8 * dur))))
    .ssLatOff 0 (enc be 8 (swapLe be 8 (wp + 8 * dur + 8 * dur))), e3, ?_, by omega, by omega, ?_, ?_, ?_, ?_, ?_, ?_⟩
  · unfold sendSs
    rw [a1]
    simp only
    rw [b1]
    simp only
    rw [c1]
  · intro f i h1 h2 h3
    simp [setEl, h1, h2, h3]
  · simp [setEl, enc_swapLe]
  · simp [setEl, enc_swapLe]
  · simp [setEl, enc_swapLe]
  · intro k hk
    refine ⟨?_, ?_, c4 k hk⟩
    · rw [← a4 k hk, bytes_congr e3 e2 _ _ (fun x _ _ => c5 x (by omega)), bytes_congr e2 e1 _ _ (fun x _ _ => b5 x (by omega))]
    · rw [← b4 k hk, bytes_congr e3 e2 _ _ (fun x _ _ => c5 x (by omega))]
  · intro x hx
    rw [c5 x (by omega), b5 x (by omega), a5 x (by omega)]

theorem bound (P a b c d hs M : Nat) (hP : P = 14912) (hM : M = 2 ^ 31) (ha : a < M) (hb : b < M) (hc : c < M) (hd : d ≤ 24 * M)
    (hh : hs < 2 * M) : a * P + b * P + c * P + d + hs < 2 ^ 64 := by
  have h1 : a * P ≤ M * P := Nat.mul_le_mul_right _ (by omega)
  have h2 : b * P ≤ M * P := Nat.mul_le_mul_right _ (by omega)
  have h3 : c * P ≤ M * P := Nat.mul_le_mul_right _ (by omega)
  subst hP hM
  omega

theorem serverSend_some {fp : Fp} {sb : Bool} {ts : Ts} (hs : Nat) (hhs : hs < 2 ^ 32) (ok : Ok fp sb ts)
    (hbe : sb = false ∨ num sb ts.h .nrBlock 0 = 0) :
    ∃ m S P, serverSend fp sb hs ts = some m ∧ Sent fp sb ts m S P := by
  obtain ⟨h, h1, h2, h3, h4⟩ := sendHead_some ok hbe
  have n0 := ok.nr 0 (by omega)
  have n1 := ok.nr 1 (by omega)
  have n2 := ok.nr 2 (by omega)
  have hdur : ∀ d, d = (if hasData (num sb ts.h .ssState 0) then 3 * num sb ts.h .ssDur 0 * 8 % 2 ^ 64 else 0) →
      d = (if hasData (num sb ts.h .ssState 0) then 24 * num sb ts.h .ssDur 0 else 0) ∧ d ≤ 24 * 2 ^ 31 := by
    intro d hd
    by_cases hh : hasData (num sb ts.h .ssState 0) = true
    · have := ok.dur hh
      rw [if_pos hh] at hd ⊢
      rw [Nat.mod_eq_of_lt (by omega)] at hd
      omega
    · rw [if_neg hh] at hd ⊢
      omega
  unfold serverSend
  rw [h1]
  simp only
  have e0 : ∀ i, dec sb (ts.h .nrPrio i) = num sb ts.h .nrPrio i := fun _ => rfl
  have e1 : dec sb (ts.h .ssState 0) = num sb ts.h .ssState 0 := rfl
  have e2 : dec sb (ts.h .ssDur 0) = num sb ts.h .ssDur 0 := rfl
  simp only [e0, e1, e2]
  generalize hss : (if hasData (num sb ts.h .ssState 0) then 3 * num sb ts.h .ssDur 0 * 8 % 2 ^ 64 else 0) = ss
  obtain ⟨hss1, hss2⟩ := hdur ss hss.symm
  have hb := bound psize _ _ _ ss hs (2 ^ 31) psize_eq rfl n0 n1 n2 hss2 (by omega)
  have hpos : 0 < psize := by rw [psize_eq]; omega
  have hpr : (num sb ts.h .nrPrio 0 * psize + num sb ts.h .nrPrio 1 * psize + num sb ts.h .nrPrio 2 * psize) % 2 ^ 64 =
      num sb ts.h .nrPrio 0 * psize + num sb ts.h .nrPrio 1 * psize + num sb ts.h .nrPrio 2 * psize := Nat.mod_eq_of_lt (by omega)
  rw [hpr]
  have hsum : ([0, 1, 2].map fun i => num sb ts.h .nrPrio i * psize).sum =
      num sb ts.h .nrPrio 0 * psize + num sb ts.h .nrPrio 1 * psize + num sb ts.h .nrPrio 2 * psize := by
    simp
    omega
  generalize hpz : num sb ts.h .nrPrio 0 * psize + num sb ts.h .nrPrio 1 * psize + num sb ts.h .nrPrio 2 * psize = pz at *
  have hz : ∀ i, i < 3 → pz = 0 → num sb ts.h .nrPrio i = 0 := by
    intro i hi h0
    have : num sb ts.h .nrPrio i * psize = 0 := by
      obtain rfl | rfl | rfl : i = 0 ∨ i = 1 ∨ i = 2 := by omega
      all_goals omega
    rcases Nat.mul_eq_zero.1 this with h | h
    · exact h
    · omega
  have hsz : (num sb ts.h .ssState 0).testBit 5 = true → ss = 24 * num sb ts.h .ssDur 0 := by
    intro hh
    rw [hss1]
    exact if_pos hh
  have hsn : ss ≠ 0 → (num sb ts.h .ssState 0).testBit 5 = true := by
    intro hne
    by_cases hh : hasData (num sb ts.h .ssState 0) = true
    · exact hh
    · rw [hss1, if_neg hh] at hne
      exact absurd rfl hne
  split
  · rename_i hzero
    have hzero : pz + ss = 0 := by
      rw [Nat.mod_eq_of_lt (by omega)] at hzero
      exact hzero
    refine ⟨_, fun _ => 0, 0, rfl, ⟨h2, h3, ?_, ?_, ?_, ?_, ?_, rfl, rfl, rfl⟩⟩
    · intro i hi
      simp only
      rw [h4 .nrPrio (by decide) (by decide), hz i hi (by omega), le_zero]
      rfl
    · intro i hi hne
      exact absurd (hz i hi (by omega)) hne
    · intro i hi i' hi' _ hne
      exact absurd (hz i hi (by omega)) hne
    · intro i hi k hk
      rw [hz i hi (by omega)] at hk
      omega
    · intro hh hne
      have := hsz hh
      omega
  · rename_i hnz
    have hmod : (pz + ss + hs) % 2 ^ 64 = pz + ss + hs := Nat.mod_eq_of_lt (by omega)
    rw [hmod]
    obtain ⟨h', e', S, g1, g2, g3, g4, g5, g6, g7, g8, g9, g10⟩ := sendDirs_some fp sb ts [0, 1, 2] (by decide) h hs
      ⟨hs, pz + ss + hs, fun _ => 0⟩ (Nat.le_refl _) (by rw [hsum]; simp only; omega)
    rw [hsum] at g1 g6 g9
    simp only at g2 g3
    have hif : (if pz ≠ 0 then sendDirs fp sb ts [0, 1, 2] h hs ⟨hs, pz + ss + hs, fun _ => 0⟩
        else some (h, hs, ⟨hs, pz + ss + hs, fun _ => 0⟩)) = some (h', hs + pz, e') := by
      split
      · exact g1
      · rename_i h0
        have h0 : pz = 0 := Classical.byContradiction h0
        rw [← g1]
        have z0 := hz 0 (by omega) h0
        have z1 := hz 1 (by omega) h0
        have z2 := hz 2 (by omega) h0
        unfold num at z0 z1 z2
        simp only [sendDirs, z0, z1, z2, sendPrios_zero]
        rfl
    rw [hif]
    simp only
    have nr' : ∀ i, i < 3 → h' .nrPrio i = le 4 (num sb ts.h .nrPrio i) := by
      intro i hi
      by_cases hn : num sb ts.h .nrPrio i = 0
      · rw [g5 i (mem3 hi) hn, h4 .nrPrio (by decide) (by decide), hn, le_zero]
        rfl
      · rw [(g4 i (mem3 hi) hn).2, enc_swapLe]
    have other : ∀ f, f ≠ .prioOff → f ≠ .nrPrio → ∀ i, h' f i = h f i := fun f a b i => g10 f i (Or.inl ⟨a, b⟩)
    by_cases hs0 : ss = 0
    · rw [if_neg (by simp [hs0])]
      refine ⟨_, S, 0, rfl, ⟨?_, ?_, nr', ?_, ?_, ?_, ?_, rfl, rfl, rfl⟩⟩
      · intro f hf i hi
        simp only
        rw [other f (fun e => hf (by rw [e]; decide)) (fun e => hf (by rw [e]; decide)), h2 f hf i hi]
      · intro i hi
        simp only
        rw [other _ (by decide) (by decide), h3 i hi]
      · intro i hi hne
        have hreg := g6 i (mem3 hi)
        refine ⟨by simp only; rw [(g4 i (mem3 hi) hne).1, enc_swapLe], by omega, by simp only; omega, by simp only; omega, ?_⟩
        intro hh hd
        have := hsz hh
        omega
      · intro i hi i' hi' hne _ _
        exact g7 i (mem3 hi) i' (mem3 hi') hne
      · intro i hi k hk o ho
        exact g8 i (mem3 hi) k hk o ho
      · intro hh hd
        have := hsz hh
        omega
    · rw [if_pos hs0]
      have hh := hsn hs0
      have hd := ok.dur hh
      have hss' := hsz hh
      rw [if_neg (by omega)]
      obtain ⟨h5, e5, k1, k2, k3, k4, k5, k6, k7, k8, k9⟩ := sendSs_some fp sb ts (num sb ts.h .ssDur 0) h' (hs + pz) e' (by omega)
        (by omega)
      rw [k1]
      refine ⟨_, S, hs + pz, rfl, ⟨?_, ?_, ?_, ?_, ?_, ?_, ?_, rfl, rfl, rfl⟩⟩
      · intro f hf i hi
        simp only
        rw [k4 f i (fun e => hf (by rw [e]; decide)) (fun e => hf (by rw [e]; decide)) (fun e => hf (by rw [e]; decide)),
          other f (fun e => hf (by rw [e]; decide)) (fun e => hf (by rw [e]; decide)), h2 f hf i hi]
      · intro i hi
        simp only
        rw [k4 _ _ (by decide) (by decide) (by decide), other _ (by decide) (by decide), h3 i hi]
      · intro i hi
        simp only
        rw [k4 _ _ (by decide) (by decide) (by decide), nr' i hi]
      · intro i hi hne
        have hreg := g6 i (mem3 hi)
        refine ⟨?_, by omega, by simp only; omega, by simp only; omega, fun _ _ => by omega⟩
        simp only
        rw [k4 _ _ (by decide) (by decide) (by decide), (g4 i (mem3 hi) hne).1, enc_swapLe]
      · intro i hi i' hi' hne _ _
        exact g7 i (mem3 hi) i' (mem3 hi') hne
      · intro i hi k hk o ho
        rw [← g8 i (mem3 hi) k hk o ho]
        have hreg := g6 i (mem3 hi)
        have hle := prioOps_le o ho
        have hkk : (k + 1) * psize ≤ num sb ts.h .nrPrio i * psize := Nat.mul_le_mul_right _ (by omega)
        rw [Nat.succ_mul] at hkk
        exact bytes_congr _ _ _ _ fun x _ _ => k9 x (by omega)
      · intro _ _
        exact ⟨k5, k6, k7, by omega, by simp only; omega, by simp only; omega, k8⟩

/-! ## Strings -/

theorem takeWhile_nul (s t : List Byte) (h : (0 : Byte) ∉ s) : (s ++ 0 :: t).takeWhile (· ≠ 0) = s := by
  induction s with
  | nil => simp
  | cons b s ih =>
    have hb : b ≠ 0 := fun e => h (e ▸ List.mem_cons_self)
    rw [List.cons_append, List.takeWhile_cons, if_pos (by simpa using hb), ih fun hm => h (List.mem_cons_of_mem _ hm)]

theorem snprintf_str (n : Nat) (a s : List Byte) (hl : a.length = n) (h : Str a s) : Str (snprintf n a) s := by
  obtain ⟨h0, t, rfl⟩ := h
  have hlen : s.length < n := by
    rw [← hl]
    simp
  refine ⟨h0, List.replicate (n - s.length - 1) 0, ?_⟩
  unfold snprintf cstr
  rw [takeWhile_nul s t h0]
  simp only
  rw [List.take_of_length_le (by omega)]
  congr 1
  rw [show n - s.length = (n - s.length - 1) + 1 by omega, List.replicate_succ]
  rfl

/-! ## The claim -/

theorem C95_arrives_partial (fp : Fp) (sb cb : Bool) (hs : Nat) (hhs : hs < 2 ^ 32) (ts : Ts) (ok : Ok fp sb ts)
    (hbe : sb = false ∨ num sb ts.h .nrBlock 0 = 0) :
    ∃ m r, serverSend fp sb hs ts = some m ∧ clientRecv fp cb m = some r ∧ Same sb cb ts r := by
  obtain ⟨m, S, P, hm, sent⟩ := serverSend_some hs hhs ok hbe
  have hnb : m.h .nrBlock 0 = le 8 (num sb ts.h .nrBlock 0) := by
    rw [sent.nums .nrBlock (by decide) 0 (by decide)]
    exact put_i fp sb 8 _ (num_lt ok .nrBlock 0)
  obtain ⟨r, r1, r2, r3⟩ := recvHead_some fp cb m.h _ hnb ok.block
  have hnums : ∀ f, ¬ Extra f → ∀ i, i < cnt f → num cb r f i = num sb ts.h f i := by
    intro f hf i hi
    unfold num
    rw [r2 f (Or.inl hf) i hi, sent.nums f hf i hi, ← convOf_width f]
    apply get_put
    · rw [convOf_width f]
      exact num_lt ok f i
    · intro hc
      exact ok.fps f (convOf_fp f hc) i hi
  have hnr : ∀ i, i < 3 → num cb r .nrPrio i = num sb ts.h .nrPrio i := by
    intro i hi
    unfold num
    rw [r2 .nrPrio (Or.inr rfl) i hi, sent.nr i hi]
    have hlt := num_lt ok .nrPrio i
    have := get_put fp sb cb (.i 4) (num sb ts.h .nrPrio i) hlt (by simp)
    rw [show put fp sb (C.i 4).width (.i 4) (num sb ts.h .nrPrio i) = le 4 (num sb ts.h .nrPrio i) from put_i fp sb 4 _ hlt] at this
    exact this
  have hptr : ∀ i, i < 3 → num sb ts.h .nrPrio i ≠ 0 → swapLe cb 8 (dec cb (m.h .prioOff i)) = S i := by
    intro i hi hne
    have := sent.off i hi hne
    rw [this.1, dec_le _ _ _ this.2.1]
  have lt3 : ∀ i ∈ [0, 1, 2], i < 3 := by simp
  obtain ⟨e1, d1, d2, d3, d4, d5⟩ := recvDirs_some fp cb r (fun i => swapLe cb 8 (dec cb (m.h .prioOff i))) [0, 1, 2] (by decide) m.e
    (by
      intro i hi hne
      have hi := lt3 i hi
      rw [hnr i hi] at hne ⊢
      rw [hptr i hi hne]
      have := sent.off i hi hne
      exact ⟨this.2.2.1, this.2.2.2.1⟩)
    (by
      intro i hi i' hi' hii hne hne'
      have hi := lt3 i hi
      have hi' := lt3 i' hi'
      rw [hnr i hi] at hne ⊢
      rw [hnr i' hi'] at hne' ⊢
      rw [hptr i hi hne, hptr i' hi' hne']
      exact sent.sep i hi i' hi' hii hne hne')
  have hst : num cb r .ssState 0 = num sb ts.h .ssState 0 := hnums _ (by decide) 0 (by decide)
  have hdu : num cb r .ssDur 0 = num sb ts.h .ssDur 0 := hnums _ (by decide) 0 (by decide)
  have hgp : ∀ i, i < 3 → ∀ j, j < num sb ts.h .nrPrio i → ∀ off w d, Member off w d →
      dec cb (get fp cb w (if d then C.fp else C.i w) (put fp sb w (if d then C.fp else C.i w) (ts.prio i j off))) = ts.prio i j off := by
    intro i hi j hj off w d hmem
    obtain ⟨hv, hf⟩ := ok.prio i hi j hj off w d hmem
    have hw : (if d then C.fp else C.i w).width = w := by
      rcases hmem with ⟨k, hk, rfl, rfl, rfl⟩ | ⟨h, rfl, rfl⟩ | ⟨h, rfl, rfl⟩ | ⟨h, rfl, rfl⟩ <;> rfl
    have := get_put fp sb cb (if d then C.fp else C.i w) (ts.prio i j off) (by rw [hw]; exact hv) (by
      intro hc
      apply hf
      cases d
      · simp at hc
      · rfl)
    rw [hw] at this
    exact this
  have hprio : ∀ i, i < 3 → ∀ j, j < num sb ts.h .nrPrio i → ∀ off w d, Member off w d →
      S i + j * psize + off + w ≤ m.e.size ∧
      ((num sb ts.h .ssState 0).testBit 5 = true → num sb ts.h .ssDur 0 ≠ 0 → S i + j * psize + off + w ≤ P) ∧
      dec cb (e1.bytes (S i + j * psize + off) w) = ts.prio i j off := by
    intro i hi j hj off w d hmem
    have hop := member_op off w d hmem
    have hle := prioOps_le _ hop
    simp only at hle
    have hoff := sent.off i hi (by omega)
    have hkk : (j + 1) * psize ≤ num sb ts.h .nrPrio i * psize := Nat.mul_le_mul_right _ (by omega)
    rw [Nat.succ_mul] at hkk
    refine ⟨by omega, fun h h' => by have := hoff.2.2.2.2 h h'; omega, ?_⟩
    have hx := d4 i (mem3 hi) j (by rw [hnr i hi]; exact hj) _ hop
    simp only at hx
    rw [hptr i hi (by omega)] at hx
    rw [hx, sent.prio i hi j hj _ hop]
    exact hgp i hi j hj off w d hmem
  have hblock : ∀ i, i < num sb ts.h .nrBlock 0 → num cb r .block i = num sb ts.h .block i := by
    intro i hi
    unfold num
    rw [r3 i hi, sent.block i hi]
    exact get_put fp sb cb (.i 4) _ (num_lt ok .block i) (by simp)
  have hall : ∀ f, ¬ Place f → f ≠ .block → ∀ i, i < cnt f → num cb r f i = num sb ts.h f i := by
    intro f hp hb i hi
    by_cases hf : f = .nrPrio
    · subst hf
      exact hnr i hi
    · apply hnums f _ i hi
      rintro (h | h | h | h | h | h)
      · exact hb h
      · exact hf h
      · exact hp (Or.inl h)
      · exact hp (Or.inr (Or.inl h))
      · exact hp (Or.inr (Or.inr (Or.inl h)))
      · exact hp (Or.inr (Or.inr (Or.inr h)))
  refine ⟨m, ?_⟩
  unfold clientRecv
  simp only
  rw [r1]
  simp only
  rw [d1]
  simp only
  have es : dec cb (r .ssState 0) = num sb ts.h .ssState 0 := hst
  have ed : dec cb (r .ssDur 0) = num sb ts.h .ssDur 0 := hdu
  rw [es, ed]
  by_cases hring : hasData (num sb ts.h .ssState 0) = true ∧ num sb ts.h .ssDur 0 ≠ 0
  · obtain ⟨hh, hd⟩ := hring
    obtain ⟨q1, q2, q3, q4, q5, q6, q7⟩ := sent.ring hh hd
    rw [if_pos hh, q1, q2, q3, dec_le _ _ _ (by omega), dec_le _ _ _ (by omega), dec_le _ _ _ (by omega)]
    obtain ⟨e2, f1, f2, f3, f4, f5⟩ := recvSs_some fp cb P (num sb ts.h .ssDur 0) (num sb ts.h .ssDur 0) 0 e1 (by omega)
      (by omega) (by omega)
    rw [f1]
    refine ⟨_, hm, rfl, ⟨hall, hblock, ?_, ?_, ?_, ?_, ?_⟩⟩
    · intro i hi j hj off w d hmem
      simp only
      rw [hptr i hi (by omega), ← psize_eq]
      obtain ⟨a1, a2, a3⟩ := hprio i hi j hj off w d hmem
      refine ⟨by omega, ?_⟩
      rw [← a3]
      congr 1
      apply bytes_congr
      intro x _ _
      apply f5
      have := a2 hh hd
      intro j _ _ q hq
      rcases hq with rfl | rfl | rfl <;> omega
    · intro _ k hk
      simp only
      have b0 : ∀ q, q = P ∨ q = P + 8 * num sb ts.h .ssDur 0 ∨ q = P + 8 * num sb ts.h .ssDur 0 + 8 * num sb ts.h .ssDur 0 →
          e2.bytes (q + 8 * k) 8 = get fp cb 8 (.i 8) (m.e.bytes (q + 8 * k) 8) := by
        intro q hq
        rw [f4 k (by omega) hk q hq, bytes_congr e1 m.e]
        intro x hx1 hx2
        apply d5
        intro i hi hc
        have hi := lt3 i hi
        rw [hnr i hi] at hc
        have hne : num sb ts.h .nrPrio i ≠ 0 := by
          intro hz
          rw [hz, Nat.zero_mul] at hc
          omega
        rw [hptr i hi hne] at hc
        have := (sent.off i hi hne).2.2.2.2 hh hd
        rcases hq with rfl | rfl | rfl <;> omega
      have ring := ok.ring k hk
      have q7 := q7 k hk
      rw [b0 _ (Or.inl rfl), b0 _ (Or.inr (Or.inl rfl)), b0 _ (Or.inr (Or.inr rfl)), q7.1, q7.2.1, q7.2.2]
      exact ⟨get_put fp sb cb (.i 8) _ ring.1 (by simp), get_put fp sb cb (.i 8) _ ring.2.1 (by simp),
        get_put fp sb cb (.i 8) _ ring.2.2 (by simp)⟩
    · intro s hs
      simp only
      rw [sent.name]
      exact snprintf_str _ _ _ ok.name.1 hs
    · intro s hs
      simp only
      rw [sent.verror]
      exact snprintf_str _ _ _ ok.verror.1 hs
    · intro s hs
      simp only
      rw [sent.desc]
      exact snprintf_str _ _ _ ok.desc.1 hs
  · have hno : ∀ a b c, (if hasData (num sb ts.h .ssState 0) = true then recvSs fp cb a b c (num sb ts.h .ssDur 0) 0 e1 else some e1) =
        some e1 := by
      intro a b c
      split
      · rename_i hh
        have : num sb ts.h .ssDur 0 = 0 := by
          apply Classical.byContradiction
          intro hd
          exact hring ⟨hh, hd⟩
        rw [this]
        rfl
      · rfl
    rw [hno]
    refine ⟨_, hm, rfl, ⟨hall, hblock, ?_, ?_, ?_, ?_, ?_⟩⟩
    · intro i hi j hj off w d hmem
      simp only
      rw [hptr i hi (by omega), ← psize_eq]
      obtain ⟨a1, a2, a3⟩ := hprio i hi j hj off w d hmem
      exact ⟨by omega, a3⟩
    · intro hh k hk
      exact absurd ⟨hh, by omega⟩ hring
    · intro s hs
      simp only
      rw [sent.name]
      exact snprintf_str _ _ _ ok.name.1 hs
    · intro s hs
      simp only
      rw [sent.verror]
      exact snprintf_str _ _ _ ok.verror.1 hs
    · intro s hs
      simp only
      rw [sent.desc]
      exact snprintf_str _ _ _ ok.desc.1 hs

end Fio.TsNet
