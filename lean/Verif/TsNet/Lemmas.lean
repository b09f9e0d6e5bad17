import Verif.TsNet.Model

namespace Fio.TsNet

theorem enc_length (be : Bool) (w v : Nat) : (enc be w v).length = w := by
  unfold enc
  split <;> simp

theorem fromLe_mod (w : Nat) (l : List Byte) (h : l.length = w) : fromLe l % 256 ^ w = fromLe l := by
  subst h
  exact Nat.mod_eq_of_lt (fromLe_lt l)

theorem dec_enc (be : Bool) (w v : Nat) (h : v < 256 ^ w) : dec be (enc be w v) = v := by
  unfold dec enc
  cases be <;> simp [fromLe_le, Nat.mod_eq_of_lt h]

theorem dec_lt (be : Bool) (bs : List Byte) : dec be bs < 256 ^ bs.length := by
  unfold dec
  cases be
  · exact fromLe_lt bs
  · have := fromLe_lt bs.reverse
    simpa using this

theorem swapLe_lt (be : Bool) (w v : Nat) (h : v < 256 ^ w) : swapLe be w v < 256 ^ w := by
  unfold swapLe
  cases be
  · exact h
  · have := fromLe_lt (le w v).reverse
    simpa using this

/-- What is on the wire is little endian. -/
theorem enc_swapLe (be : Bool) (w v : Nat) : enc be w (swapLe be w v) = le w v := by
  unfold enc swapLe
  cases be
  · simp
  · simp only [if_true]
    have h := le_fromLe (le w v).reverse
    simp only [List.length_reverse, le_length] at h
    rw [h, List.reverse_reverse]

theorem swapLe_dec (be : Bool) (w : Nat) (bs : List Byte) (h : bs.length = w) : swapLe be w (dec be bs) = fromLe bs := by
  unfold dec swapLe
  cases be
  · simp
  · simp only [if_true]
    have h1 := le_fromLe bs.reverse
    rw [List.length_reverse, h] at h1
    rw [h1, List.reverse_reverse]

def C.width : C → Nat
  | .i w => w
  | .fp => 8

theorem put_eq (fp : Fp) (be : Bool) (c : C) (v : Nat) (hv : v < 256 ^ c.width) :
    put fp be c.width c v = le c.width (match c with | .i _ => v | .fp => fp.pack v) := by
  unfold put
  cases c with
  | i w =>
    simp only [C.width] at hv ⊢
    rw [Nat.mod_eq_of_lt hv, enc_swapLe]
  | fp =>
    simp only [C.width]
    rw [enc_swapLe]

theorem put_length (fp : Fp) (be : Bool) (d : Nat) (c : C) (v : Nat) : (put fp be d c v).length = d := enc_length ..

theorem get_length (fp : Fp) (be : Bool) (d : Nat) (c : C) (bs : List Byte) : (get fp be d c bs).length = d := enc_length ..

/-- One number arrives. -/
theorem get_put (fp : Fp) (sb cb : Bool) (c : C) (v : Nat) (hv : v < 256 ^ c.width) (hf : c = .fp → fp.unpack (fp.pack v) = v) :
    dec cb (get fp cb c.width c (put fp sb c.width c v)) = v := by
  rw [put_eq fp sb c v hv]
  unfold get
  cases c with
  | i w =>
    simp only [C.width] at hv ⊢
    have h1 : dec cb (le w v) % 256 ^ w = dec cb (le w v) := by
      apply Nat.mod_eq_of_lt
      have := dec_lt cb (le w v)
      rwa [le_length] at this
    rw [h1, swapLe_dec cb w _ (le_length w v), fromLe_le, Nat.mod_eq_of_lt hv, dec_enc _ _ _ hv]
  | fp =>
    simp only [C.width] at hv ⊢
    rw [swapLe_dec cb 8 _ (le_length _ _), fromLe_le, Nat.mod_eq_of_lt (fp.pack_lt v), hf rfl, dec_enc _ _ _ hv]

/-! ## The struct -/

theorem send_fold_other (fp : Fp) (be : Bool) (ts : Head) (tab : Tab) (p : Head) (f : F) (i : Nat) (h : ∀ t ∈ tab, t.1 ≠ f) :
    tab.foldl (send1 fp be ts) p f i = p f i := by
  induction tab generalizing p with
  | nil => rfl
  | cons t tab ih =>
    rw [List.foldl_cons, ih _ fun x hx => h x (List.mem_cons_of_mem _ hx)]
    unfold send1
    rw [if_neg]
    rintro ⟨e, _⟩
    exact h t List.mem_cons_self e.symm

theorem send_fold (fp : Fp) (be : Bool) (ts : Head) (tab : Tab) (hn : (tab.map Prod.fst).Nodup) (p : Head) (f : F) (c : C) (n i : Nat)
    (h : (f, c, n) ∈ tab) (hi : i < n) : tab.foldl (send1 fp be ts) p f i = put fp be (width f) c (dec be (ts f i)) := by
  induction tab generalizing p with
  | nil => simp at h
  | cons t tab ih =>
    rw [List.map_cons, List.nodup_cons] at hn
    rw [List.foldl_cons]
    rcases List.mem_cons.1 h with e | e
    · rw [send_fold_other]
      · unfold send1
        rw [← e]
        simp [hi]
      · intro x hx e'
        apply hn.1
        rw [← e]
        exact List.mem_map.2 ⟨x, hx, e'⟩
    · exact ih hn.2 _ e

theorem recv_fold_other (fp : Fp) (be : Bool) (tab : Tab) (p : Head) (f : F) (i : Nat) (h : ∀ t ∈ tab, t.1 ≠ f) :
    tab.foldl (recv1 fp be) p f i = p f i := by
  induction tab generalizing p with
  | nil => rfl
  | cons t tab ih =>
    rw [List.foldl_cons, ih _ fun x hx => h x (List.mem_cons_of_mem _ hx)]
    unfold recv1
    rw [if_neg]
    rintro ⟨e, _⟩
    exact h t List.mem_cons_self e.symm

theorem recv_fold (fp : Fp) (be : Bool) (tab : Tab) (hn : (tab.map Prod.fst).Nodup) (p : Head) (f : F) (c : C) (n i : Nat)
    (h : (f, c, n) ∈ tab) (hi : i < n) : tab.foldl (recv1 fp be) p f i = get fp be (width f) c (p f i) := by
  induction tab generalizing p with
  | nil => simp at h
  | cons t tab ih =>
    rw [List.map_cons, List.nodup_cons] at hn
    rw [List.foldl_cons]
    rcases List.mem_cons.1 h with e | e
    · rw [recv_fold_other]
      · unfold recv1
        rw [← e]
        simp [hi]
      · intro x hx e'
        apply hn.1
        rw [← e]
        exact List.mem_map.2 ⟨x, hx, e'⟩
    · rw [ih hn.2 _ e]
      unfold recv1
      rw [if_neg]
      rintro ⟨e', _⟩
      apply hn.1
      rw [← e']
      exact List.mem_map.2 ⟨_, e, rfl⟩

def convOf (f : F) : C := if isFp f then .fp else .i (width f)

theorem convOf_width (f : F) : (convOf f).width = width f := by
  unfold convOf
  cases f <;> try rfl
  case st s g => cases g <;> rfl

theorem convOf_fp (f : F) (h : convOf f = .fp) : isFp f = true := by
  unfold convOf at h
  split at h
  · assumption
  · simp at h

theorem sendTab_nodup : (sendTab.map Prod.fst).Nodup := by decide +kernel
theorem recvTab_nodup : (recvTab.map Prod.fst).Nodup := by decide +kernel

/-- Not in the struct of the server: the arrays behind, and `block_infos`. -/
def Extra (f : F) : Prop := f = .block ∨ f = .nrPrio ∨ f = .prioOff ∨ f = .ssIopsOff ∨ f = .ssBwOff ∨ f = .ssLatOff

instance (f : F) : Decidable (Extra f) := by unfold Extra; infer_instance

theorem sendTab_all (f : F) (h : ¬ Extra f) : (f, convOf f, cnt f) ∈ sendTab := by
  cases f
  case st s g => cases s <;> cases g <;> decide +kernel
  all_goals first | decide +kernel | exact absurd (by simp [Extra]) h

theorem recvTab_all (f : F) (h : ¬ Extra f ∨ f = .nrPrio) : (f, convOf f, cnt f) ∈ recvTab := by
  cases f
  case st s g => cases s <;> cases g <;> decide +kernel
  all_goals first | decide +kernel | exact absurd h (by simp [Extra])

theorem sendTab_not (f : F) (h : Extra f) : ∀ t ∈ sendTab, t.1 ≠ f := by
  have : ∀ t ∈ sendTab, ¬ Extra t.1 := by decide +kernel
  intro t ht e
  exact this t ht (e ▸ h)

theorem recvTab_not (f : F) (h : Extra f) (h1 : f ≠ .nrPrio) : ∀ t ∈ recvTab, t.1 ≠ f := by
  have : ∀ t ∈ recvTab, t.1 = .nrPrio ∨ ¬ Extra t.1 := by decide +kernel
  intro t ht e
  rcases this t ht with h2 | h2
  · exact h1 (e ▸ h2)
  · exact h2 (e ▸ h)

/-! ## Behind the struct -/

theorem bytes_length (e : Ext) (a w : Nat) : (e.bytes a w).length = w := by simp [Ext.bytes]

theorem bytes_congr (e e' : Ext) (a w : Nat) (h : ∀ x, a ≤ x → x < a + w → e.mem x = e'.mem x) : e.bytes a w = e'.bytes a w := by
  unfold Ext.bytes
  apply List.map_congr_left
  intro k hk
  rw [List.mem_range] at hk
  exact h _ (by omega) (by omega)

theorem write_some (e : Ext) (a : Nat) (bs : List Byte) (h : e.ok a bs.length) :
    ∃ e', e.write a bs = some e' ∧ e'.hs = e.hs ∧ e'.size = e.size ∧ e'.bytes a bs.length = bs ∧
      ∀ x, ¬ (a ≤ x ∧ x < a + bs.length) → e'.mem x = e.mem x := by
  refine ⟨_, if_pos h, rfl, rfl, ?_, ?_⟩
  · unfold Ext.bytes
    apply List.ext_getElem
    · simp
    · intro n h1 h2
      simp only [List.getElem_map, List.getElem_range]
      rw [if_pos (by omega), Nat.add_sub_cancel_left, List.getD_eq_getElem?_getD, List.getElem?_eq_getElem h2]
      rfl
  · intro x hx
    exact if_neg hx

/-- The members do not overlap. -/
def Sep (a b : Op) : Prop := a.1 + a.2.1 ≤ b.1 ∨ b.1 + b.2.1 ≤ a.1

theorem send_some (fp : Fp) (be : Bool) (base : Nat) (val : Nat → Nat) (os : List Op) (e : Ext) (L : Nat)
    (hs : os.Pairwise Sep) (hL : ∀ o ∈ os, o.1 + o.2.1 ≤ L) (hb : e.hs ≤ base) (hz : base + L ≤ e.size) :
    ∃ e', send fp be base val os e = some e' ∧ e'.hs = e.hs ∧ e'.size = e.size ∧
      (∀ o ∈ os, e'.bytes (base + o.1) o.2.1 = put fp be o.2.1 o.2.2 (val o.1)) ∧
      (∀ x, (∀ o ∈ os, ¬ (base + o.1 ≤ x ∧ x < base + o.1 + o.2.1)) → e'.mem x = e.mem x) := by
  induction os generalizing e with
  | nil => exact ⟨e, rfl, rfl, rfl, by simp, fun _ _ => rfl⟩
  | cons o os ih =>
    rw [List.pairwise_cons] at hs
    have ho := hL o List.mem_cons_self
    obtain ⟨e1, h1, h2, h3, h4, h5⟩ := write_some e (base + o.1) (put fp be o.2.1 o.2.2 (val o.1))
      ⟨by omega, by rw [put_length]; omega⟩
    rw [put_length] at h4 h5
    obtain ⟨e2, g1, g2, g3, g4, g5⟩ := ih e1 hs.2 (fun o ho => hL o (List.mem_cons_of_mem _ ho)) (by omega) (by omega)
    refine ⟨e2, by rw [send, h1]; exact g1, by omega, by omega, ?_, ?_⟩
    · intro o' ho'
      rcases List.mem_cons.1 ho' with rfl | ho'
      · rw [bytes_congr e2 e1, h4]
        intro x hx1 hx2
        apply g5
        intro o2 ho2 hc
        rcases hs.1 o2 ho2 with h | h <;> omega
      · exact g4 o' ho'
    · intro x hx
      rw [g5 x fun o ho => hx o (List.mem_cons_of_mem _ ho), h5 x (hx o List.mem_cons_self)]

theorem recv_some (fp : Fp) (be : Bool) (base : Nat) (os : List Op) (e : Ext)
    (hs : os.Pairwise Sep) (hL : ∀ o ∈ os, e.ok (base + o.1) o.2.1) :
    ∃ e', recv fp be base os e = some e' ∧ e'.hs = e.hs ∧ e'.size = e.size ∧
      (∀ o ∈ os, e'.bytes (base + o.1) o.2.1 = get fp be o.2.1 o.2.2 (e.bytes (base + o.1) o.2.1)) ∧
      (∀ x, (∀ o ∈ os, ¬ (base + o.1 ≤ x ∧ x < base + o.1 + o.2.1)) → e'.mem x = e.mem x) := by
  induction os generalizing e with
  | nil => exact ⟨e, rfl, rfl, rfl, by simp, fun _ _ => rfl⟩
  | cons o os ih =>
    rw [List.pairwise_cons] at hs
    have ho := hL o List.mem_cons_self
    obtain ⟨e1, h1, h2, h3, h4, h5⟩ := write_some e (base + o.1) (get fp be o.2.1 o.2.2 (e.bytes (base + o.1) o.2.1))
      (by rw [get_length]; exact ho)
    rw [get_length] at h4 h5
    obtain ⟨e2, g1, g2, g3, g4, g5⟩ := ih e1 hs.2 (fun o ho => by
      have := hL o (List.mem_cons_of_mem _ ho)
      unfold Ext.ok at this ⊢
      rw [h2, h3]
      exact this)
    refine ⟨e2, by rw [recv, h1]; exact g1, by omega, by omega, ?_, ?_⟩
    · intro o' ho'
      rcases List.mem_cons.1 ho' with rfl | ho'
      · rw [bytes_congr e2 e1, h4]
        intro x hx1 hx2
        apply g5
        intro o2 ho2 hc
        rcases hs.1 o2 ho2 with h | h <;> omega
      · rw [g4 o' ho', bytes_congr e1 e]
        intro x hx1 hx2
        apply h5
        intro hc
        rcases hs.1 o' ho' with h | h <;> omega
    · intro x hx
      rw [g5 x fun o ho => hx o (List.mem_cons_of_mem _ ho), h5 x (hx o List.mem_cons_self)]

end Fio.TsNet
