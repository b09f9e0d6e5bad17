import Verif.NetLog.Model

namespace Fio.NetLog
open Fio.TsNet (enc dec swapLe enc_length dec_enc enc_swapLe swapLe_dec)

/-! ## One field -/

theorem swapAt_mid (be : Bool) (pre A post m : List Byte) (a w : Nat) (hm : m = pre ++ (A ++ post)) (ha : a = pre.length) (hA : A.length = w) :
    swapAt be a w m = some (pre ++ (enc be w (swapLe be w (dec be A)) ++ post)) := by
  subst hm ha hA
  rw [swapAt, if_pos (by simp)]
  simp [List.drop_append]

theorem rd_mid (be : Bool) (pre A post m : List Byte) (a w : Nat) (hm : m = pre ++ (A ++ post)) (ha : a = pre.length) (hA : A.length = w) :
    rd be m a w = some (dec be A) := by
  subst hm ha hA
  rw [rd, if_pos (by simp)]
  simp

/-- Conversion on a little endian host changes nothing. -/
theorem enc_dec_false (w : Nat) (A : List Byte) (hA : A.length = w) : enc false w (swapLe false w (dec false A)) = A := by
  subst hA
  rw [enc_swapLe]
  simp only [dec, Bool.false_eq_true, if_false]
  exact le_fromLe A

theorem swapAt_false (a w : Nat) (m : List Byte) (h : a + w ≤ m.length) : swapAt false a w m = some m := by
  rw [swapAt, if_pos h, enc_dec_false w _ (by simp; omega)]
  congr 1
  rw [← List.drop_drop, List.take_append_drop, List.take_append_drop]

theorem swaps_false (base : Nat) (fs : List (Nat × Nat)) (m : List Byte) (h : ∀ f ∈ fs, base + f.1 + f.2 ≤ m.length) :
    swaps false base fs m = some m := by
  induction fs with
  | nil => rfl
  | cons f fs ih =>
    obtain ⟨o, w⟩ := f
    rw [swaps, swapAt_false _ _ _ (h (o, w) (by simp)), Option.bind_some, ih (fun f hf => h f (by simp [hf]))]

theorem srvF_le (off iss : Bool) (hi : iss = true → off = true) : ∀ f ∈ srvF false off iss, f.1 + f.2 ≤ esz off iss := by
  cases off <;> cases iss <;> first | (exact absurd (hi rfl) (by decide)) | decide

theorem srvConv_false (off iss : Bool) (hi : iss = true → off = true) (n : Nat) : ∀ (i : Nat) (m : List Byte), (i + n) * esz off iss ≤ m.length →
    srvConv false false off iss i n m = some m := by
  induction n with
  | zero => intros; rfl
  | succ n ih =>
    intro i m h
    have h1 : (i + 1) * esz off iss ≤ (i + (n + 1)) * esz off iss := Nat.mul_le_mul_right _ (by omega)
    rw [srvConv, swaps_false, Option.bind_some]
    · exact ih (i + 1) m (by rw [show i + 1 + n = i + (n + 1) by omega]; exact h)
    · intro f hf
      have := srvF_le off iss hi f hf
      rw [Nat.succ_mul] at h1
      omega

theorem cliF_le : ∀ f ∈ cliF false false false, f.1 + f.2 ≤ 40 := by decide

theorem cliConv_false (n : Nat) : ∀ (i : Nat) (m : List Byte), (i + n) * 40 ≤ m.length → cliConv false false false false i n m = some m := by
  induction n with
  | zero => intros; rfl
  | succ n ih =>
    intro i m h
    rw [cliConv]
    simp only [Bool.false_eq_true, if_false, Nat.add_zero]
    rw [swaps_false, Option.bind_some]
    · exact ih (i + 1) m (by omega)
    · intro f hf
      have := cliF_le f hf
      have : esz false false = 40 := rfl
      rw [this]
      omega

/-! ## A sample without offset on any hosts -/

/-- The bytes of a sample without offset when the `i`-th field is as given by `f`. -/
def rec (x0 x1 x2 x3 x4 x6 : List Byte) : List Byte := x0 ++ (x1 ++ (x2 ++ (x3 ++ (x4 ++ ([0, 0] ++ x6)))))

theorem swaps_srv (be : Bool) (pre post x0 x1 x2 x3 x4 x6 : List Byte) (h0 : x0.length = 8) (h1 : x1.length = 8) (h2 : x2.length = 8)
    (h3 : x3.length = 4) (h4 : x4.length = 2) (h6 : x6.length = 8) :
    let g (w : Nat) (x : List Byte) := enc be w (swapLe be w (dec be x))
    swaps be pre.length (srvF false false false) (pre ++ (rec x0 x1 x2 x3 x4 x6 ++ post))
      = some (pre ++ (rec (g 8 x0) (g 8 x1) (g 8 x2) (g 4 x3) x4 (g 8 x6) ++ post)) := by
  intro g
  have hg : ∀ w x, (g w x).length = w := fun w x => enc_length ..
  have hF : srvF false false false = [(0, 8), (8, 8), (16, 8), (24, 4), (32, 8)] := rfl
  rw [hF]
  simp only [swaps]
  rw [swapAt_mid be pre x0 (x1 ++ (x2 ++ (x3 ++ (x4 ++ ([0, 0] ++ x6)))) ++ post) _ _ 8 (by simp [rec]) (by simp) h0, Option.bind_some]
  rw [swapAt_mid be (pre ++ g 8 x0) x1 (x2 ++ (x3 ++ (x4 ++ ([0, 0] ++ x6))) ++ post) _ _ 8 (by simp [g]) (by simp [hg]) h1, Option.bind_some]
  rw [swapAt_mid be (pre ++ g 8 x0 ++ g 8 x1) x2 (x3 ++ (x4 ++ ([0, 0] ++ x6)) ++ post) _ _ 8 (by simp [g]) (by simp [hg]) h2, Option.bind_some]
  rw [swapAt_mid be (pre ++ g 8 x0 ++ g 8 x1 ++ g 8 x2) x3 ((x4 ++ ([0, 0] ++ x6)) ++ post) _ _ 4 (by simp [g]) (by simp [hg]) h3, Option.bind_some]
  rw [swapAt_mid be (pre ++ g 8 x0 ++ g 8 x1 ++ g 8 x2 ++ g 4 x3 ++ x4 ++ [0, 0]) x6 post _ _ 8 (by simp [g]) (by simp [hg, h4]) h6, Option.bind_some]
  simp [rec, g]

theorem swaps_cli (be : Bool) (pre post x0 x1 x2 x3 x4 x6 : List Byte) (h0 : x0.length = 8) (h1 : x1.length = 8) (h2 : x2.length = 8)
    (h3 : x3.length = 4) (h4 : x4.length = 2) (h6 : x6.length = 8) :
    let g (w : Nat) (x : List Byte) := enc be w (swapLe be w (dec be x))
    swaps be pre.length (cliF false false false) (pre ++ (rec x0 x1 x2 x3 x4 x6 ++ post))
      = some (pre ++ (rec (g 8 x0) (g 8 x1) (g 8 x2) (g 4 x3) (g 2 x4) (g 8 x6) ++ post)) := by
  intro g
  have hg : ∀ w x, (g w x).length = w := fun w x => enc_length ..
  have hF : cliF false false false = [(0, 8), (8, 8), (16, 8), (24, 4), (32, 8), (28, 2)] := rfl
  rw [hF]
  simp only [swaps]
  rw [swapAt_mid be pre x0 (x1 ++ (x2 ++ (x3 ++ (x4 ++ ([0, 0] ++ x6)))) ++ post) _ _ 8 (by simp [rec]) (by simp) h0, Option.bind_some]
  rw [swapAt_mid be (pre ++ g 8 x0) x1 (x2 ++ (x3 ++ (x4 ++ ([0, 0] ++ x6))) ++ post) _ _ 8 (by simp [g]) (by simp [hg]) h1, Option.bind_some]
  rw [swapAt_mid be (pre ++ g 8 x0 ++ g 8 x1) x2 (x3 ++ (x4 ++ ([0, 0] ++ x6)) ++ post) _ _ 8 (by simp [g]) (by simp [hg]) h2, Option.bind_some]
  rw [swapAt_mid be (pre ++ g 8 x0 ++ g 8 x1 ++ g 8 x2) x3 ((x4 ++ ([0, 0] ++ x6)) ++ post) _ _ 4 (by simp [g]) (by simp [hg]) h3, Option.bind_some]
  rw [swapAt_mid be (pre ++ g 8 x0 ++ g 8 x1 ++ g 8 x2 ++ g 4 x3 ++ x4 ++ [0, 0]) x6 post _ _ 8 (by simp [g]) (by simp [hg, h4]) h6, Option.bind_some]
  rw [swapAt_mid be (pre ++ g 8 x0 ++ g 8 x1 ++ g 8 x2 ++ g 4 x3) x4 ([0, 0] ++ g 8 x6 ++ post) _ _ 2 (by simp [g]) (by simp [hg]) h4, Option.bind_some]
  simp [rec, g]

/-- A sample on the wire, the priority as on the server. -/
def wireB (sb : Bool) (c : Cfg) (s : Smp) : List Byte :=
  rec (le 8 s.time) (le 8 s.val0) (le 8 s.val1) (le 4 (s.dir + mask c)) (enc sb 2 s.prio) (le 8 s.bs)

theorem smpB_rec (be : Bool) (c : Cfg) (s : Smp) (h : c.offset = false) (h' : c.issue = false) :
    smpB be c s = rec (enc be 8 s.time) (enc be 8 s.val0) (enc be 8 s.val1) (enc be 4 (s.dir + mask c)) (enc be 2 s.prio) (enc be 8 s.bs) := by
  simp [smpB, rec, h, h']

theorem mask_lt (c : Cfg) : mask c ≤ 0xF0000000 := by
  obtain ⟨a, b, d, e⟩ := c
  cases a <;> cases b <;> cases d <;> cases e <;> decide

theorem word_lt (c : Cfg) (s : Smp) (h : s.Ok) : s.dir + mask c < 256 ^ 4 := by
  have := mask_lt c
  have h4 : s.dir < 2 ^ 28 := h.2.2.2.1
  have : (256 : Nat) ^ 4 = 4294967296 := by decide
  have : (2 : Nat) ^ 28 = 268435456 := by decide
  omega

theorem p64 : (2 : Nat) ^ 64 = 256 ^ 8 := by decide
theorem p16 : (2 : Nat) ^ 16 = 256 ^ 2 := by decide

theorem g_enc (be : Bool) (w v : Nat) (h : v < 256 ^ w) : enc be w (swapLe be w (dec be (enc be w v))) = le w v := by
  rw [dec_enc be w v h, enc_swapLe]

theorem dec_le_enc (be : Bool) (w v : Nat) (h : v < 256 ^ w) : enc be w (swapLe be w (dec be (le w v))) = enc be w v := by
  rw [swapLe_dec be w _ (le_length ..), fromLe_le, Nat.mod_eq_of_lt h]

theorem srvConv_all (sb : Bool) (c : Cfg) (ho : c.offset = false) (hi : c.issue = false) (ss : List Smp) (hs : ∀ s ∈ ss, s.Ok) :
    ∀ (pre : List Byte) (i : Nat), pre.length = i * 40 →
    srvConv sb false false false i ss.length (pre ++ (ss.map (smpB sb c)).flatten) = some (pre ++ (ss.map (wireB sb c)).flatten) := by
  induction ss with
  | nil => intros; simp [srvConv]
  | cons s ss ih =>
    intro pre i hp
    have hok := hs s (by simp)
    obtain ⟨k0, k1, k2, k3, k4, k5, -, -⟩ := id hok
    rw [List.length_cons, srvConv, show i * esz false false = pre.length from hp.symm, List.map_cons, List.flatten_cons, smpB_rec sb c s ho hi]
    have := swaps_srv sb pre ((ss.map (smpB sb c)).flatten) (enc sb 8 s.time) (enc sb 8 s.val0) (enc sb 8 s.val1) (enc sb 4 (s.dir + mask c))
      (enc sb 2 s.prio) (enc sb 8 s.bs) (enc_length ..) (enc_length ..) (enc_length ..) (enc_length ..) (enc_length ..) (enc_length ..)
    simp only at this
    rw [this, Option.bind_some]
    rw [g_enc sb 8 _ (p64 ▸ k0), g_enc sb 8 _ (p64 ▸ k1), g_enc sb 8 _ (p64 ▸ k2), g_enc sb 4 _ (word_lt c s hok), g_enc sb 8 _ (p64 ▸ k5)]
    rw [← List.append_assoc]
    have h2 := ih (fun s h => hs s (by simp [h])) (pre ++ rec (le 8 s.time) (le 8 s.val0) (le 8 s.val1) (le 4 (s.dir + mask c)) (enc sb 2 s.prio) (le 8 s.bs))
      (i + 1) (by simp [rec, hp, enc_length]; omega)
    rw [h2]
    simp [wireB]

theorem prioX_ok (sb : Bool) (s : Smp) (h : s.Ok) : (prioX sb s).Ok := by
  unfold prioX
  split
  · obtain ⟨h0, h1, h2, h3, h4, h5, h6, h7⟩ := h
    exact ⟨h0, h1, h2, h3, by simp only; omega, h5, h6, h7⟩
  · exact h

theorem fromLe_prio (sb : Bool) (s : Smp) (h : s.Ok) : fromLe (enc sb 2 s.prio) = (prioX sb s).prio := by
  have h4 := h.2.2.2.2.1
  cases sb with
  | false => simp only [enc, prioX, Bool.false_eq_true, if_false]; rw [fromLe_le]; exact Nat.mod_eq_of_lt (by omega)
  | true => simp [enc, prioX, le, fromLe]; omega

theorem cliConv_all (sb cb : Bool) (c : Cfg) (ho : c.offset = false) (hi : c.issue = false) (ss : List Smp) (hs : ∀ s ∈ ss, s.Ok) :
    ∀ (pre : List Byte) (i : Nat), pre.length = i * 40 →
    cliConv cb false false false i ss.length (pre ++ (ss.map (wireB sb c)).flatten)
      = some (pre ++ (ss.map fun s => smpB cb c (prioX sb s)).flatten) := by
  induction ss with
  | nil => intros; simp [cliConv]
  | cons s ss ih =>
    intro pre i hp
    have hok := hs s (by simp)
    obtain ⟨k0, k1, k2, k3, k4, k5, -, -⟩ := id hok
    rw [List.length_cons, cliConv]
    simp only [Bool.false_eq_true, if_false, Nat.add_zero]
    rw [show i * esz false false = pre.length from hp.symm, List.map_cons, List.flatten_cons, wireB]
    have := swaps_cli cb pre ((ss.map (wireB sb c)).flatten) (le 8 s.time) (le 8 s.val0) (le 8 s.val1) (le 4 (s.dir + mask c))
      (enc sb 2 s.prio) (le 8 s.bs) (le_length ..) (le_length ..) (le_length ..) (le_length ..) (enc_length ..) (le_length ..)
    simp only at this
    rw [this, Option.bind_some]
    rw [dec_le_enc cb 8 _ (p64 ▸ k0), dec_le_enc cb 8 _ (p64 ▸ k1), dec_le_enc cb 8 _ (p64 ▸ k2), dec_le_enc cb 4 _ (word_lt c s hok),
      dec_le_enc cb 8 _ (p64 ▸ k5), swapLe_dec cb 2 _ (enc_length ..), fromLe_prio sb s hok]
    have he : rec (enc cb 8 s.time) (enc cb 8 s.val0) (enc cb 8 s.val1) (enc cb 4 (s.dir + mask c)) (enc cb 2 (prioX sb s).prio) (enc cb 8 s.bs)
        = smpB cb c (prioX sb s) := by
      rw [smpB_rec cb c _ ho hi]
      unfold prioX; cases sb <;> simp
    rw [he, ← List.append_assoc]
    have hl : (smpB cb c (prioX sb s)).length = 40 := by rw [smpB_rec cb c _ ho hi]; simp [rec, enc_length]
    have h2 := ih (fun s h => hs s (by simp [h])) (pre ++ smpB cb c (prioX sb s)) (i + 1) (by simp [hp, hl]; omega)
    rw [h2]
    simp

/-! ## Printing -/

theorem bits_mask (c : Cfg) (d : Nat) (h : d < 2 ^ 28) : bits (d + mask c) = c ∧ (d + mask c) % 0x10000000 = d := by
  obtain ⟨a, b, e, f⟩ := c
  have : (2 : Nat) ^ 28 = 268435456 := by decide
  cases a <;> cases b <;> cases e <;> cases f <;> simp [bits, mask] <;> omega

theorem smpB_length (be : Bool) (c : Cfg) (s : Smp) : (smpB be c s).length = esz c.offset c.issue := by
  unfold smpB esz
  cases c.offset <;> cases c.issue <;> simp [enc_length]

/-- The fields of a sample as text. -/
def fieldsOf (c : Cfg) (s : Smp) : List (List Char) :=
  [fU s.time ++ (", ".toList ++ fD s.val0)] ++ (if c.avgMax then [", ".toList ++ fD s.val1] else [])
    ++ [", ".toList ++ (fU s.dir ++ (", ".toList ++ fU s.bs))] ++ (if c.offset then [", ".toList ++ fU s.off] else [])
    ++ [", ".toList ++ (if c.prio then fX s.prio else fU (if s.prio / 8192 = 1 then 1 else 0))] ++ (if c.issue then [", ".toList ++ fU s.iss] else [])

theorem fields_eq (be : Bool) (c : Cfg) (hc : c.issue = true → c.offset = true) (s : Smp) (h : s.Ok) (pre post : List Byte) :
    fields be c (pre ++ (smpB be c s ++ post)) pre.length = some (fieldsOf c s) := by
  obtain ⟨k0, k1, k2, k3, k4, k5, k6, k7⟩ := id h
  generalize hm : pre ++ (smpB be c s ++ post) = m
  have hm' : m = pre ++ (enc be 8 s.time ++ (enc be 8 s.val0 ++ (enc be 8 s.val1 ++ (enc be 4 (s.dir + mask c) ++ (enc be 2 s.prio ++ ([0, 0]
    ++ (enc be 8 s.bs ++ ((if c.offset then enc be 8 s.off else []) ++ ((if c.issue then enc be 8 s.iss else []) ++ post))))))))) := by
    rw [← hm]; simp [smpB]
  have r0 : rd be m pre.length 8 = some s.time := by
    rw [rd_mid be pre (enc be 8 s.time) _ m _ 8 hm' rfl (enc_length ..), dec_enc be 8 _ (p64 ▸ k0)]
  have r1 : rd be m (pre.length + 8) 8 = some s.val0 := by
    rw [rd_mid be (pre ++ enc be 8 s.time) (enc be 8 s.val0) _ m _ 8 (by rw [hm']; simp only [List.append_assoc]; rfl)
      (by simp [enc_length]) (enc_length ..), dec_enc be 8 _ (p64 ▸ k1)]
  have r2 : rd be m (pre.length + 16) 8 = some s.val1 := by
    rw [rd_mid be (pre ++ enc be 8 s.time ++ enc be 8 s.val0) (enc be 8 s.val1) _ m _ 8 (by rw [hm']; simp only [List.append_assoc]; rfl)
      (by simp [enc_length]) (enc_length ..), dec_enc be 8 _ (p64 ▸ k2)]
  have r3 : rd be m (pre.length + 24) 4 = some (s.dir + mask c) := by
    rw [rd_mid be (pre ++ enc be 8 s.time ++ enc be 8 s.val0 ++ enc be 8 s.val1) (enc be 4 (s.dir + mask c)) _ m _ 4
      (by rw [hm']; simp only [List.append_assoc]; rfl) (by simp [enc_length]) (enc_length ..), dec_enc be 4 _ (word_lt c s h)]
  have r4 : rd be m (pre.length + 28) 2 = some s.prio := by
    rw [rd_mid be (pre ++ enc be 8 s.time ++ enc be 8 s.val0 ++ enc be 8 s.val1 ++ enc be 4 (s.dir + mask c)) (enc be 2 s.prio) _ m _ 2
      (by rw [hm']; simp only [List.append_assoc]; rfl) (by simp [enc_length]) (enc_length ..), dec_enc be 2 _ (p16 ▸ k4)]
  have r5 : rd be m (pre.length + 32) 8 = some s.bs := by
    rw [rd_mid be (pre ++ enc be 8 s.time ++ enc be 8 s.val0 ++ enc be 8 s.val1 ++ enc be 4 (s.dir + mask c) ++ enc be 2 s.prio ++ [0, 0])
      (enc be 8 s.bs) _ m _ 8
      (by rw [hm']; simp only [List.append_assoc]; rfl) (by simp [enc_length]) (enc_length ..), dec_enc be 8 _ (p64 ▸ k5)]
  have r6 : c.offset = true → rd be m (pre.length + 40) 8 = some s.off := by
    intro ho
    rw [ho, if_pos rfl] at hm'
    rw [rd_mid be (pre ++ enc be 8 s.time ++ enc be 8 s.val0 ++ enc be 8 s.val1 ++ enc be 4 (s.dir + mask c) ++ enc be 2 s.prio ++ [0, 0]
      ++ enc be 8 s.bs) (enc be 8 s.off) _ m _ 8
      (by rw [hm']; simp only [List.append_assoc]; rfl) (by simp [enc_length]) (enc_length ..), dec_enc be 8 _ (p64 ▸ k6)]
  have r7 : c.issue = true → rd be m (pre.length + 48) 8 = some s.iss := by
    intro hi
    rw [hc hi, hi, if_pos rfl, if_pos rfl] at hm'
    rw [rd_mid be (pre ++ enc be 8 s.time ++ enc be 8 s.val0 ++ enc be 8 s.val1 ++ enc be 4 (s.dir + mask c) ++ enc be 2 s.prio ++ [0, 0]
      ++ enc be 8 s.bs ++ enc be 8 s.off) (enc be 8 s.iss) _ m _ 8
      (by rw [hm']; simp only [List.append_assoc]; rfl) (by simp [enc_length]) (enc_length ..), dec_enc be 8 _ (p64 ▸ k7)]
  have hd := (bits_mask c s.dir k3).2
  unfold fields fieldsOf
  rw [r0, r1, r2, r3, r4, r5]
  by_cases ho : c.offset = true
  · by_cases hi : c.issue = true
    · simp [ho, hi, r6 ho, r7 hi, hd]
    · simp [ho, hi, r6 ho, hd]
  · by_cases hi : c.issue = true
    · exact absurd (hc hi) ho
    · simp [ho, hi, hd]

theorem put_fits : ∀ (fs : List (List Char)) (buf : List Char), buf.length + (fs.flatten).length < 256 → put buf fs = some (buf ++ fs.flatten)
  | [], buf, _ => by simp [put]
  | f :: fs, buf, h => by
    rw [List.flatten_cons, List.length_append] at h
    rw [put, if_neg (by omega), put_fits fs _ (by rw [List.length_append]; omega)]
    simp

theorem fU_len (n k : Nat) (hk : 0 < k) (h : n < 10 ^ k) : (fU n).length ≤ k := (Nat.length_toDigits_le_iff (by decide) hk).2 h

theorem fU_64 (n : Nat) (h : n < 2 ^ 64) : (fU n).length ≤ 20 :=
  fU_len n 20 (by decide) (Nat.lt_trans h (by decide))

theorem fD_64 (n : Nat) (h : n < 2 ^ 64) : (fD n).length ≤ 21 := by
  unfold fD
  split
  · have := fU_64 n h; omega
  · have h2 : (2 : Nat) ^ 64 = 0x10000000000000000 := by decide
    have := fU_64 (0x10000000000000000 - n) (by omega)
    simp; omega

theorem fX_len (n : Nat) (h : n < 2 ^ 16) : (fX n).length ≤ 6 := by
  have : (Nat.toDigits 16 n).length ≤ 4 := (Nat.length_toDigits_le_iff (by decide) (by decide)).2 (by simpa using h)
  simp [fX]; omega

theorem fieldsOf_len (c : Cfg) (s : Smp) (h : s.Ok) : (fieldsOf c s).flatten.length < 256 := by
  obtain ⟨k0, k1, k2, k3, k4, k5, k6, k7⟩ := h
  have h0 := fU_64 _ k0
  have h1 := fD_64 _ k1
  have h2 := fD_64 _ k2
  have h3 := fU_64 s.dir (Nat.lt_trans k3 (by decide))
  have h4 := fX_len _ k4
  have h5 := fU_64 _ k5
  have h6 := fU_64 _ k6
  have h7 := fU_64 _ k7
  have h8 : (fU (if s.prio / 8192 = 1 then 1 else 0)).length ≤ 20 := fU_64 _ (by split <;> decide)
  unfold fieldsOf
  obtain ⟨a, b, e, f⟩ := c
  cases a <;> cases b <;> cases e <;> cases f <;> simp <;> omega

theorem fX_hex (n : Nat) (h : n < 2 ^ 16) : fX n = hex4 n := by
  have h16 : (1 : Nat) < 16 := by decide
  unfold fX hex4
  by_cases h1 : n < 16
  · rw [Nat.toDigits_of_lt_base h1]
    have e1 : n / 4096 = 0 := by omega
    have e2 : n / 256 % 16 = 0 := by omega
    have e3 : n / 16 % 16 = 0 := by omega
    have e4 : n % 16 = n := by omega
    rw [e1, e2, e3, e4]; rfl
  · rw [Nat.toDigits_of_base_le h16 (by omega)]
    by_cases h2 : n / 16 < 16
    · rw [Nat.toDigits_of_lt_base h2]
      have e1 : n / 4096 = 0 := by omega
      have e2 : n / 256 % 16 = 0 := by omega
      have e3 : n / 16 % 16 = n / 16 := by omega
      rw [e1, e2, e3]; rfl
    · rw [Nat.toDigits_of_base_le h16 (n := n / 16) (by omega), Nat.div_div_eq_div_mul]
      by_cases h3 : n / (16 * 16) < 16
      · rw [Nat.toDigits_of_lt_base h3]
        have e1 : n / 4096 = 0 := by omega
        have e2 : n / 256 % 16 = n / (16 * 16) := by omega
        rw [e1, e2]; rfl
      · rw [Nat.toDigits_of_base_le h16 (n := n / (16 * 16)) (by omega), Nat.div_div_eq_div_mul,
          Nat.toDigits_of_lt_base (n := n / (16 * 16 * 16)) (by omega)]
        rfl

theorem fieldsOf_text (c : Cfg) (s : Smp) (h : s.Ok) : (fieldsOf c s).flatten ++ ['\n'] = text c s := by
  have hx := fX_hex s.prio h.2.2.2.2.1
  unfold fieldsOf text
  rw [hx]
  have hD : ∀ n, fD n = sgn n := fun n => rfl
  have hU : ∀ n, fU n = num n := fun n => rfl
  simp only [hD, hU]
  obtain ⟨a, b, e, f⟩ := c
  cases a <;> cases b <;> cases e <;> cases f <;> simp [List.intercalate, List.intersperse]

theorem lines_eq (be : Bool) (c : Cfg) (hc : c.issue = true → c.offset = true) (ss : List Smp) (hs : ∀ s ∈ ss, s.Ok) (post : List Byte) :
    ∀ (pre : List Byte) (i : Nat), pre.length = i * esz c.offset c.issue →
    lines be c (pre ++ (bufB be c ss ++ post)) i ss.length = some (texts c ss) := by
  induction ss with
  | nil => intros; simp [lines, texts]
  | cons s ss ih =>
    intro pre i hp
    have hok := hs s (by simp)
    rw [List.length_cons, lines, ← hp]
    have hb : bufB be c (s :: ss) = smpB be c s ++ bufB be c ss := by simp [bufB]
    rw [hb, List.append_assoc, fields_eq be c hc s hok, Option.bind_some, put_fits _ _ (by simpa using fieldsOf_len c s hok)]
    have h2 := ih (fun s h => hs s (by simp [h])) (pre ++ smpB be c s) (i + 1) (by rw [List.length_append, hp, smpB_length, Nat.succ_mul])
    rw [List.append_assoc] at h2
    simp only [List.nil_append]
    rw [h2, fieldsOf_text c s hok]
    simp [texts]

theorem bufB_length (be : Bool) (c : Cfg) (ss : List Smp) : (bufB be c ss).length = ss.length * esz c.offset c.issue := by
  induction ss with
  | nil => simp [bufB]
  | cons s ss ih =>
    have hb : bufB be c (s :: ss) = smpB be c s ++ bufB be c ss := by simp [bufB]
    rw [hb, List.length_append, smpB_length, ih, List.length_cons, Nat.succ_mul, Nat.add_comm]

theorem bufB_append (be : Bool) (c : Cfg) (a b : List Smp) : bufB be c (a ++ b) = bufB be c a ++ bufB be c b := by simp [bufB]

theorem esz_pos (a b : Bool) : 0 < esz a b := by unfold esz; omega

/-- The word with the bits of the first sample. -/
theorem rd_first (be : Bool) (c : Cfg) (s : Smp) (h : s.Ok) (post : List Byte) : rd be (smpB be c s ++ post) 24 4 = some (s.dir + mask c) := by
  rw [rd_mid be (enc be 8 s.time ++ enc be 8 s.val0 ++ enc be 8 s.val1) (enc be 4 (s.dir + mask c)) _ _ _ 4
      (by simp only [smpB, List.append_assoc]; rfl) (by simp [enc_length]) (enc_length ..), dec_enc be 4 _ (word_lt c s h)]

/-- `flush_samples` of the first `k` samples of a buffer. -/
theorem flush_take (be : Bool) (c : Cfg) (hc : c.issue = true → c.offset = true) (ss : List Smp) (hs : ∀ s ∈ ss, s.Ok) (post : List Byte)
    (size : Nat) (h : size / esz c.offset c.issue ≤ ss.length) (hn : ss ≠ []) :
    flush be (bufB be c ss ++ post) size = some (texts c (ss.take (size / esz c.offset c.issue))) := by
  unfold flush
  by_cases h0 : size = 0
  · subst h0; simp [texts]
  · rw [if_neg h0]
    cases ss with
    | nil => exact absurd rfl hn
    | cons s ss =>
      have hok := hs s (by simp)
      have hb : bufB be c (s :: ss) = smpB be c s ++ bufB be c ss := by simp [bufB]
      have hr : rd be (bufB be c (s :: ss) ++ post) 24 4 = some (s.dir + mask c) := by
        rw [hb, List.append_assoc]; exact rd_first be c s hok _
      rw [hr, Option.bind_some, (bits_mask c s.dir hok.2.2.2.1).1]
      generalize size / esz c.offset c.issue = k at h ⊢
      generalize s :: ss = l at h hs ⊢
      have hl : (l.take k).length = k := by rw [List.length_take]; omega
      have := lines_eq be c hc (l.take k) (fun s h => hs s (List.mem_of_mem_take h)) (bufB be c (l.drop k) ++ post) [] 0 (by simp)
      rw [hl, List.nil_append, ← List.append_assoc, ← bufB_append, List.take_append_drop] at this
      exact this

theorem flush_all (be : Bool) (c : Cfg) (hc : c.issue = true → c.offset = true) (ss : List Smp) (hs : ∀ s ∈ ss, s.Ok) :
    flush be (bufB be c ss) (ss.length * esz c.offset c.issue) = some (texts c ss) := by
  by_cases hn : ss = []
  · subst hn; simp [flush, texts]
  · have hd : ss.length * esz c.offset c.issue / esz c.offset c.issue = ss.length := Nat.mul_div_cancel _ (esz_pos _ _)
    have := flush_take be c hc ss hs [] (ss.length * esz c.offset c.issue) (by rw [hd]; exact Nat.le_refl _) hn
    rw [List.append_nil, hd, List.take_length] at this
    exact this


/-! ## Header and payload -/

theorem hv_put (sb cb : Bool) (w v : Nat) (h : v < 256 ^ w) : hv cb (enc sb w (swapLe sb w v)) = v := by
  rw [enc_swapLe, hv, le_length, swapLe_dec cb w _ (le_length ..), fromLe_le, Nat.mod_eq_of_lt h]

/-- The bytes of all buffers on the wire, no offsets. -/
theorem send_wire (sb : Bool) (c : Cfg) (ho : c.offset = false) (hi : c.issue = false) (bufs : List (List Smp)) (hs : ∀ s ∈ bufs.flatten, s.Ok) :
    bufs.foldr (fun ss r => (srvConv sb false false false 0 ss.length (bufB sb c ss)).bind fun b => r.map (b ++ ·)) (some [])
      = some ((bufs.flatten.map (wireB sb c)).flatten) := by
  induction bufs with
  | nil => rfl
  | cons ss bufs ih =>
    rw [List.foldr_cons, ih (fun s h => hs s (by simp at h ⊢; exact Or.inr h))]
    have := srvConv_all sb c ho hi ss (fun s h => hs s (by simp [h])) [] 0 rfl
    simp only [List.nil_append] at this
    rw [bufB, this]
    simp

theorem send_le (c : Cfg) (hc : c.issue = true → c.offset = true) (bufs : List (List Smp)) :
    bufs.foldr (fun ss r => (srvConv false false c.offset c.issue 0 ss.length (bufB false c ss)).bind fun b => r.map (b ++ ·)) (some [])
      = some (bufB false c bufs.flatten) := by
  induction bufs with
  | nil => rfl
  | cons ss bufs ih =>
    rw [List.foldr_cons, ih, srvConv_false c.offset c.issue hc ss.length 0 _ (by rw [bufB_length]; simp)]
    simp [bufB]

theorem sum_len (bufs : List (List Smp)) : (bufs.map List.length).sum = bufs.flatten.length := by rw [List.length_flatten]

end Fio.NetLog
