import Verif.TsNet.Lemmas
import Verif.TsNet.Spec

namespace Fio.TsNet

theorem range_ops_pairwise (n : Nat) : ((List.range n).map fun k => ((8 * k, 8, C.i 8) : Op)).Pairwise Sep := by
  rw [List.pairwise_map]
  apply List.Pairwise.imp _ List.pairwise_lt_range
  intro a b h
  exact Or.inl (by simp only; omega)

theorem prioOps_pairwise : sendPrioOps.Pairwise Sep := by
  unfold sendPrioOps
  rw [List.pairwise_append]
  refine ⟨range_ops_pairwise _, ?_, ?_⟩
  · simp only [List.pairwise_cons, List.mem_cons, List.not_mem_nil, or_false, Sep]
    generalize plNr = N
    refine ⟨?_, ?_, ?_, ?_, ?_, ?_, List.Pairwise.nil⟩ <;> intro o ho
    · rcases ho with rfl | rfl | rfl | rfl | rfl <;> exact Or.inl (by simp only; omega)
    · rcases ho with rfl | rfl | rfl | rfl <;> exact Or.inl (by simp only; omega)
    · rcases ho with rfl | rfl | rfl <;> exact Or.inl (by simp only; omega)
    · rcases ho with rfl | rfl <;> exact Or.inl (by simp only; omega)
    · rcases ho with rfl <;> exact Or.inl (by simp only; omega)
    · exact ho.elim
  · intro a ha b hb
    rw [List.mem_map] at ha
    obtain ⟨k, hk, rfl⟩ := ha
    rw [List.mem_range] at hk
    simp only [List.mem_cons, List.not_mem_nil, or_false] at hb
    left
    revert hk hb
    generalize plNr = N
    intro hk hb
    rcases hb with rfl | rfl | rfl | rfl | rfl | rfl <;> simp only <;> omega

theorem prioOps_le : ∀ o ∈ sendPrioOps, o.1 + o.2.1 ≤ psize := by
  intro o ho
  unfold sendPrioOps at ho
  unfold psize
  rw [List.mem_append] at ho
  revert ho
  generalize plNr = N
  intro ho
  rcases ho with ho | ho
  · rw [List.mem_map] at ho
    obtain ⟨k, hk, rfl⟩ := ho
    rw [List.mem_range] at hk
    simp only
    omega
  · simp only [List.mem_cons, List.not_mem_nil, or_false] at ho
    rcases ho with rfl | rfl | rfl | rfl | rfl | rfl <;> simp only <;> omega

theorem recvPrioOps_eq : recvPrioOps = sendPrioOps := rfl

theorem member_op (off w : Nat) (d : Bool) (h : Member off w d) :
    (off, w, if d then C.fp else C.i w) ∈ sendPrioOps := by
  unfold sendPrioOps
  rw [List.mem_append]
  rcases h with ⟨k, hk, rfl, rfl, rfl⟩ | ⟨h, rfl, rfl⟩ | ⟨h, rfl, rfl⟩ | ⟨h, rfl, rfl⟩
  · left
    exact List.mem_map.2 ⟨k, List.mem_range.2 hk, rfl⟩
  · right
    rcases h with rfl | rfl | rfl <;> simp [plNr]
  · right
    rcases h with rfl | rfl <;> simp [plNr]
  · right
    subst h
    simp [plNr]

theorem psize_eq : psize = 14912 := rfl

attribute [local irreducible] psize plNr sendPrioOps recvPrioOps

theorem sendPrios_zero (fp : Fp) (be : Bool) (prio : Nat → Nat → Nat) (j wp : Nat) (e : Ext) :
    sendPrios fp be prio 0 j wp e = some (e, wp) := rfl

theorem sendPrios_succ (fp : Fp) (be : Bool) (prio : Nat → Nat → Nat) (n j wp : Nat) (e : Ext) :
    sendPrios fp be prio (n + 1) j wp e =
      match send fp be wp (prio j) sendPrioOps e with
      | none => none
      | some e => sendPrios fp be prio n (j + 1) (wp + psize) e := rfl

theorem recvPrios_zero (fp : Fp) (be : Bool) (ptr j : Nat) (e : Ext) : recvPrios fp be ptr 0 j e = some e := rfl

theorem recvPrios_succ (fp : Fp) (be : Bool) (ptr n j : Nat) (e : Ext) :
    recvPrios fp be ptr (n + 1) j e =
      match recv fp be (ptr + j * psize) recvPrioOps e with
      | none => none
      | some e => recvPrios fp be ptr n (j + 1) e := rfl


theorem sendPrios_some (fp : Fp) (be : Bool) (prio : Nat → Nat → Nat) (n j wp : Nat) (e : Ext) (hb : e.hs ≤ wp)
    (hz : wp + n * psize ≤ e.size) :
    ∃ e', sendPrios fp be prio n j wp e = some (e', wp + n * psize) ∧ e'.hs = e.hs ∧ e'.size = e.size ∧
      (∀ k, k < n → ∀ o ∈ sendPrioOps, e'.bytes (wp + k * psize + o.1) o.2.1 = put fp be o.2.1 o.2.2 (prio (j + k) o.1)) ∧
      (∀ x, ¬ (wp ≤ x ∧ x < wp + n * psize) → e'.mem x = e.mem x) := by
  induction n generalizing j wp e with
  | zero => exact ⟨e, by rw [sendPrios_zero, Nat.zero_mul, Nat.add_zero], rfl, rfl, by intro k hk; omega, fun _ _ => rfl⟩
  | succ n ih =>
    rw [Nat.succ_mul] at hz
    obtain ⟨e1, h1, h2, h3, h4, h5⟩ := send_some fp be wp (prio j) sendPrioOps e psize prioOps_pairwise prioOps_le hb (by omega)
    obtain ⟨e2, g1, g2, g3, g4, g5⟩ := ih (j + 1) (wp + psize) e1 (by omega) (by omega)
    refine ⟨e2, ?_, by omega, by omega, ?_, ?_⟩
    · rw [sendPrios_succ, h1]
      simp only
      rw [g1, Nat.succ_mul]
      congr 2
      omega
    · intro k hk o ho
      have hle := prioOps_le o ho
      cases k with
      | zero =>
        rw [Nat.zero_mul, Nat.add_zero, Nat.add_zero, ← h4 o ho]
        apply bytes_congr
        intro x hx1 hx2
        apply g5
        omega
      | succ k =>
        have := g4 k (by omega) o ho
        rw [Nat.succ_mul, show wp + (k * psize + psize) + o.1 = wp + psize + k * psize + o.1 by omega, this,
          show j + 1 + k = j + (k + 1) by omega]
    · intro x hx
      rw [Nat.succ_mul] at hx
      rw [g5 x (by omega), h5 x]
      intro o ho
      have := prioOps_le o ho
      omega

theorem recvPrios_some (fp : Fp) (be : Bool) (ptr n j : Nat) (e : Ext) (hb : n ≠ 0 → e.hs ≤ ptr)
    (hz : n ≠ 0 → ptr + (j + n) * psize ≤ e.size) :
    ∃ e', recvPrios fp be ptr n j e = some e' ∧ e'.hs = e.hs ∧ e'.size = e.size ∧
      (∀ k, j ≤ k → k < j + n → ∀ o ∈ sendPrioOps,
        e'.bytes (ptr + k * psize + o.1) o.2.1 = get fp be o.2.1 o.2.2 (e.bytes (ptr + k * psize + o.1) o.2.1)) ∧
      (∀ x, ¬ (ptr + j * psize ≤ x ∧ x < ptr + (j + n) * psize) → e'.mem x = e.mem x) := by
  induction n generalizing j e with
  | zero => exact ⟨e, recvPrios_zero .., rfl, rfl, by intro k hk hk'; omega, fun _ _ => rfl⟩
  | succ n ih =>
    have hz' := hz (by omega)
    have hb' := hb (by omega)
    have hj : (j + 1) * psize ≤ (j + (n + 1)) * psize := Nat.mul_le_mul_right _ (by omega)
    have hj1 : (j + 1) * psize = j * psize + psize := Nat.succ_mul ..
    obtain ⟨e1, h1, h2, h3, h4, h5⟩ := recv_some fp be (ptr + j * psize) sendPrioOps e prioOps_pairwise (by
      intro o ho
      have := prioOps_le o ho
      exact ⟨by omega, by omega⟩)
    obtain ⟨e2, g1, g2, g3, g4, g5⟩ := ih (j + 1) e1 (by omega) (by
      intro _
      rw [show j + 1 + n = j + (n + 1) by omega]
      omega)
    rw [show j + 1 + n = j + (n + 1) by omega] at g5
    refine ⟨e2, ?_, by omega, by omega, ?_, ?_⟩
    · rw [recvPrios_succ, recvPrioOps_eq, h1]
      exact g1
    · intro k hk1 hk2 o ho
      have hle := prioOps_le o ho
      rcases Nat.lt_or_ge j k with hk | hk
      · rw [g4 k (by omega) (by omega) o ho]
        congr 1
        have hkk : (j + 1) * psize ≤ k * psize := Nat.mul_le_mul_right _ (by omega)
        apply bytes_congr
        intro x hx1 hx2
        apply h5
        intro o' ho'
        have := prioOps_le o' ho'
        omega
      · obtain rfl : k = j := by omega
        rw [← h4 o ho]
        apply bytes_congr
        intro x hx1 hx2
        apply g5
        omega
    · intro x hx
      rw [g5 x (by omega), h5 x]
      intro o ho
      have := prioOps_le o ho
      omega

theorem sendDirs_some (fp : Fp) (be : Bool) (ts : Ts) (is : List Nat) (hn : is.Nodup) (h : Head) (wp : Nat) (e : Ext) (hb : e.hs ≤ wp)
    (hz : wp + (is.map fun i => num be ts.h .nrPrio i * psize).sum ≤ e.size) :
    ∃ (h' : Head) (e' : Ext) (S : Nat → Nat), sendDirs fp be ts is h wp e = some (h', wp + (is.map fun i => num be ts.h .nrPrio i * psize).sum, e') ∧
      e'.hs = e.hs ∧ e'.size = e.size ∧
      (∀ i ∈ is, num be ts.h .nrPrio i ≠ 0 →
        h' .prioOff i = enc be 8 (swapLe be 8 (S i)) ∧ h' .nrPrio i = enc be 4 (swapLe be 4 (num be ts.h .nrPrio i))) ∧
      (∀ i ∈ is, num be ts.h .nrPrio i = 0 → h' .nrPrio i = h .nrPrio i) ∧
      (∀ i ∈ is, wp ≤ S i ∧ S i + num be ts.h .nrPrio i * psize ≤ wp + (is.map fun i => num be ts.h .nrPrio i * psize).sum) ∧
      (∀ i ∈ is, ∀ i' ∈ is, i ≠ i' → S i + num be ts.h .nrPrio i * psize ≤ S i' ∨ S i' + num be ts.h .nrPrio i' * psize ≤ S i) ∧
      (∀ i ∈ is, ∀ k, k < num be ts.h .nrPrio i → ∀ o ∈ sendPrioOps,
        e'.bytes (S i + k * psize + o.1) o.2.1 = put fp be o.2.1 o.2.2 (ts.prio i k o.1)) ∧
      (∀ x, ¬ (wp ≤ x ∧ x < wp + (is.map fun i => num be ts.h .nrPrio i * psize).sum) → e'.mem x = e.mem x) ∧
      (∀ f i, (f ≠ .prioOff ∧ f ≠ .nrPrio) ∨ i ∉ is → h' f i = h f i) := by
  induction is generalizing h wp e with
  | nil =>
    refine ⟨h, e, fun _ => 0, by simp [sendDirs], rfl, rfl, ?_, ?_, ?_, ?_, ?_, fun _ _ => rfl, fun _ _ _ => rfl⟩ <;> simp
  | cons i is ih =>
    rw [List.nodup_cons] at hn
    rw [List.map_cons, List.sum_cons] at hz
    obtain ⟨e1, h1, h2, h3, h4, h5⟩ := sendPrios_some fp be (ts.prio i) (num be ts.h .nrPrio i) 0 wp e hb (by omega)
    obtain ⟨h', e2, S, g1, g2, g3, g4, g5, g6, g7, g8, g9, g10⟩ := ih hn.2
      (if num be ts.h .nrPrio i ≠ 0 then
          setEl (setEl h .prioOff i (enc be 8 (swapLe be 8 wp))) .nrPrio i (enc be 4 (swapLe be 4 (num be ts.h .nrPrio i)))
        else h) (wp + num be ts.h .nrPrio i * psize) e1 (by omega) (by omega)
    simp only [List.map_cons, List.sum_cons]
    generalize hsum : (is.map fun i => num be ts.h .nrPrio i * psize).sum = sm at *
    have hne : ∀ i' ∈ is, i' ≠ i := fun i' hi' e => hn.1 (e ▸ hi')
    refine ⟨h', e2, fun x => if x = i then wp else S x, ?_, by omega, by omega, ?_, ?_, ?_, ?_, ?_, ?_, ?_⟩
    · rw [sendDirs]
      simp only
      have : dec be (ts.h .nrPrio i) = num be ts.h .nrPrio i := rfl
      rw [this, h1]
      simp only
      rw [g1, Nat.add_assoc]
    · intro i' hi' hnz
      rcases List.mem_cons.1 hi' with rfl | hi'
      · simp only
        rw [if_pos trivial, g10 _ _ (Or.inr hn.1), g10 _ _ (Or.inr hn.1), if_pos hnz]
        simp [setEl]
      · simp only
        rw [if_neg (hne i' hi')]
        exact g4 i' hi' hnz
    · intro i' hi' hz'
      rcases List.mem_cons.1 hi' with rfl | hi'
      · rw [g10 _ _ (Or.inr hn.1), if_neg (by simp [hz'])]
      · rw [g5 i' hi' hz']
        split
        · simp [setEl, hne i' hi']
        · rfl
    · intro i' hi'
      simp only
      rcases List.mem_cons.1 hi' with rfl | hi'
      · rw [if_pos rfl]
        omega
      · rw [if_neg (hne i' hi')]
        have := g6 i' hi'
        omega
    · intro a ha b hb' hab
      simp only
      rcases List.mem_cons.1 ha with ea | ha2 <;> rcases List.mem_cons.1 hb' with eb | hb2
      · exact absurd (ea.trans eb.symm) hab
      · subst ea
        rw [if_pos rfl, if_neg (hne b hb2)]
        have := g6 b hb2
        omega
      · subst eb
        rw [if_neg (hne a ha2), if_pos rfl]
        have := g6 a ha2
        omega
      · rw [if_neg (hne a ha2), if_neg (hne b hb2)]
        exact g7 a ha2 b hb2 hab
    · intro i' hi' k hk o ho
      simp only
      have hle := prioOps_le o ho
      rcases List.mem_cons.1 hi' with rfl | hi'
      · rw [if_pos rfl]
        have := h4 k hk o ho
        rw [Nat.zero_add] at this
        rw [← this]
        have hkk : (k + 1) * psize ≤ num be ts.h .nrPrio i' * psize := Nat.mul_le_mul_right _ (by omega)
        rw [Nat.succ_mul] at hkk
        apply bytes_congr
        intro x hx1 hx2
        apply g9
        omega
      · rw [if_neg (hne i' hi')]
        exact g8 i' hi' k hk o ho
    · intro x hx
      rw [g9 x (by omega), h5 x (by omega)]
    · intro f i' hf
      have hf' : (f ≠ .prioOff ∧ f ≠ .nrPrio) ∨ i' ∉ is := by
        rcases hf with hf | hf
        · exact Or.inl hf
        · exact Or.inr fun hc => hf (List.mem_cons_of_mem _ hc)
      rw [g10 f i' hf']
      split
      · unfold setEl
        rcases hf with hf | hf
        · simp [hf.1, hf.2]
        · have : i' ≠ i := fun e => hf (e ▸ List.mem_cons_self)
          simp [this]
      · rfl

theorem recvDirs_some (fp : Fp) (be : Bool) (h : Head) (ptr : Nat → Nat) (is : List Nat) (hn : is.Nodup) (e : Ext)
    (hb : ∀ i ∈ is, num be h .nrPrio i ≠ 0 → e.hs ≤ ptr i ∧ ptr i + num be h .nrPrio i * psize ≤ e.size)
    (hd : ∀ i ∈ is, ∀ i' ∈ is, i ≠ i' → num be h .nrPrio i ≠ 0 → num be h .nrPrio i' ≠ 0 →
      ptr i + num be h .nrPrio i * psize ≤ ptr i' ∨ ptr i' + num be h .nrPrio i' * psize ≤ ptr i) :
    ∃ e', recvDirs fp be h ptr is e = some e' ∧ e'.hs = e.hs ∧ e'.size = e.size ∧
      (∀ i ∈ is, ∀ k, k < num be h .nrPrio i → ∀ o ∈ sendPrioOps,
        e'.bytes (ptr i + k * psize + o.1) o.2.1 = get fp be o.2.1 o.2.2 (e.bytes (ptr i + k * psize + o.1) o.2.1)) ∧
      (∀ x, (∀ i ∈ is, ¬ (ptr i ≤ x ∧ x < ptr i + num be h .nrPrio i * psize)) → e'.mem x = e.mem x) := by
  induction is generalizing e with
  | nil => exact ⟨e, rfl, rfl, rfl, by simp, fun _ _ => rfl⟩
  | cons i is ih =>
    rw [List.nodup_cons] at hn
    have hne : ∀ i' ∈ is, i' ≠ i := fun i' hi' e => hn.1 (e ▸ hi')
    obtain ⟨e1, h1, h2, h3, h4, h5⟩ := recvPrios_some fp be (ptr i) (num be h .nrPrio i) 0 e (fun hz => (hb i List.mem_cons_self hz).1)
      (fun hz => by rw [Nat.zero_add]; exact (hb i List.mem_cons_self hz).2)
    rw [Nat.zero_mul, Nat.zero_add, Nat.add_zero] at h5
    obtain ⟨e2, g1, g2, g3, g4, g5⟩ := ih hn.2 e1
      (fun i' hi' hz => by
        have := hb i' (List.mem_cons_of_mem _ hi') hz
        omega)
      (fun a ha b hb' => hd a (List.mem_cons_of_mem _ ha) b (List.mem_cons_of_mem _ hb'))
    have ltn : ∀ i' k, k < num be h .nrPrio i' → k * psize + psize ≤ num be h .nrPrio i' * psize := by
      intro i' k hk
      have := Nat.mul_le_mul_right psize (show k + 1 ≤ num be h .nrPrio i' by omega)
      rw [Nat.succ_mul] at this
      exact this
    refine ⟨e2, ?_, by omega, by omega, ?_, ?_⟩
    · rw [recvDirs]
      have : dec be (h .nrPrio i) = num be h .nrPrio i := rfl
      rw [this, h1]
      exact g1
    · intro i' hi' k hk o ho
      have hle := prioOps_le o ho
      have hk' := ltn i' k hk
      rcases List.mem_cons.1 hi' with rfl | hi'
      · rw [← h4 k (by omega) (by omega) o ho]
        apply bytes_congr
        intro x hx1 hx2
        apply g5
        intro a ha hc
        have hpos : num be h .nrPrio a ≠ 0 := by
          intro hz
          rw [hz, Nat.zero_mul] at hc
          omega
        rcases hd i' List.mem_cons_self a (List.mem_cons_of_mem _ ha) (hne a ha).symm (by omega) hpos with h | h <;> omega
      · rw [g4 i' hi' k hk o ho]
        congr 1
        apply bytes_congr
        intro x hx1 hx2
        apply h5
        intro hc
        have hpos : num be h .nrPrio i ≠ 0 := by
          intro hz
          rw [hz, Nat.zero_mul] at hc
          omega
        rcases hd i List.mem_cons_self i' (List.mem_cons_of_mem _ hi') (hne i' hi').symm hpos (by omega) with h | h <;> omega
    · intro x hx
      rw [g5 x fun i hi => hx i (List.mem_cons_of_mem _ hi), h5 x (hx i List.mem_cons_self)]

/-! ## Rings -/

theorem sendArr_some (fp : Fp) (be : Bool) (v : Nat → Nat) (n wp : Nat) (e : Ext) (hb : e.hs ≤ wp) (hz : wp + 8 * n ≤ e.size) :
    ∃ e', send fp be wp (fun a => v (a / 8)) (arrOps n) e = some e' ∧ e'.hs = e.hs ∧ e'.size = e.size ∧
      (∀ k, k < n → e'.bytes (wp + 8 * k) 8 = put fp be 8 (.i 8) (v k)) ∧
      (∀ x, ¬ (wp ≤ x ∧ x < wp + 8 * n) → e'.mem x = e.mem x) := by
  have hm : ∀ o ∈ arrOps n, ∃ k, k < n ∧ o = (8 * k, 8, .i 8) := by
    intro o ho
    unfold arrOps at ho
    rw [List.mem_map] at ho
    obtain ⟨k, hk, rfl⟩ := ho
    exact ⟨k, List.mem_range.1 hk, rfl⟩
  obtain ⟨e', h1, h2, h3, h4, h5⟩ := send_some fp be wp (fun a => v (a / 8)) (arrOps n) e (8 * n) (range_ops_pairwise n) (by
    intro o ho
    obtain ⟨k, hk, rfl⟩ := hm o ho
    simp only
    omega) hb hz
  refine ⟨e', h1, h2, h3, ?_, ?_⟩
  · intro k hk
    have := h4 (8 * k, 8, .i 8) (List.mem_map.2 ⟨k, List.mem_range.2 hk, rfl⟩)
    simpa using this
  · intro x hx
    apply h5
    intro o ho
    obtain ⟨k, hk, rfl⟩ := hm o ho
    simp only
    omega

theorem recvSs_some (fp : Fp) (be : Bool) (p N n k : Nat) (e : Ext) (hk : k + n = N) (hb : n ≠ 0 → e.hs ≤ p)
    (hz : n ≠ 0 → p + 24 * N ≤ e.size) :
    ∃ e', recvSs fp be p (p + 8 * N) (p + 8 * N + 8 * N) n k e = some e' ∧ e'.hs = e.hs ∧ e'.size = e.size ∧
      (∀ j, k ≤ j → j < N → ∀ q, q = p ∨ q = p + 8 * N ∨ q = p + 8 * N + 8 * N →
        e'.bytes (q + 8 * j) 8 = get fp be 8 (.i 8) (e.bytes (q + 8 * j) 8)) ∧
      (∀ x, (∀ j, k ≤ j → j < N → ∀ q, q = p ∨ q = p + 8 * N ∨ q = p + 8 * N + 8 * N → ¬ (q + 8 * j ≤ x ∧ x < q + 8 * j + 8)) →
        e'.mem x = e.mem x) := by
  induction n generalizing k e with
  | zero => exact ⟨e, rfl, rfl, rfl, by intro j h1 h2; omega, fun _ _ => rfl⟩
  | succ n ih =>
    have hz' := hz (by omega)
    have hb' := hb (by omega)
    obtain ⟨e1, h1, h2, h3, h4, h5⟩ := recv_some fp be 0
      [(p + 8 * k, 8, .i 8), (p + 8 * N + 8 * k, 8, .i 8), (p + 8 * N + 8 * N + 8 * k, 8, .i 8)] e (by
        simp only [List.pairwise_cons, List.mem_cons, List.not_mem_nil, or_false, Sep]
        refine ⟨?_, ?_, ?_, List.Pairwise.nil⟩ <;> intro o ho
        · rcases ho with rfl | rfl <;> exact Or.inl (by simp only; omega)
        · rcases ho with rfl <;> exact Or.inl (by simp only; omega)
        · exact ho.elim) (by
        intro o ho
        simp only [List.mem_cons, List.not_mem_nil, or_false] at ho
        rcases ho with rfl | rfl | rfl <;> exact ⟨by simp only; omega, by simp only; omega⟩)
    have h4a := h4 (p + 8 * k, 8, .i 8) (by simp)
    have h4b := h4 (p + 8 * N + 8 * k, 8, .i 8) (by simp)
    have h4c := h4 (p + 8 * N + 8 * N + 8 * k, 8, .i 8) (by simp)
    simp only [Nat.zero_add] at h4a h4b h4c
    have h5' : ∀ x, ¬ (p + 8 * k ≤ x ∧ x < p + 8 * k + 8) → ¬ (p + 8 * N + 8 * k ≤ x ∧ x < p + 8 * N + 8 * k + 8) →
        ¬ (p + 8 * N + 8 * N + 8 * k ≤ x ∧ x < p + 8 * N + 8 * N + 8 * k + 8) → e1.mem x = e.mem x := by
      intro x a b c
      apply h5
      intro o ho
      simp only [List.mem_cons, List.not_mem_nil, or_false] at ho
      rcases ho with rfl | rfl | rfl <;> simp only [Nat.zero_add] <;> assumption
    obtain ⟨e2, g1, g2, g3, g4, g5⟩ := ih (k + 1) e1 (by omega) (by omega) (by omega)
    refine ⟨e2, ?_, by omega, by omega, ?_, ?_⟩
    · rw [recvSs, h1]
      exact g1
    · intro j hj1 hj2 q hq
      rcases Nat.lt_or_ge k j with hj | hj
      · rw [g4 j hj hj2 q hq]
        congr 1
        apply bytes_congr
        intro x hx1 hx2
        apply h5' <;> rcases hq with rfl | rfl | rfl <;> omega
      · obtain rfl : j = k := by omega
        have : e1.bytes (q + 8 * j) 8 = get fp be 8 (.i 8) (e.bytes (q + 8 * j) 8) := by
          rcases hq with rfl | rfl | rfl <;> assumption
        rw [← this]
        apply bytes_congr
        intro x hx1 hx2
        apply g5
        intro a ha1 ha2 q' hq'
        rcases hq with rfl | rfl | rfl <;> rcases hq' with rfl | rfl | rfl <;> omega
    · intro x hx
      rw [g5 x fun j a b q hq => hx j (by omega) b q hq]
      apply h5'
      · exact hx k (by omega) (by omega) _ (Or.inl rfl)
      · exact hx k (by omega) (by omega) _ (Or.inr (Or.inl rfl))
      · exact hx k (by omega) (by omega) _ (Or.inr (Or.inr rfl))

end Fio.TsNet
