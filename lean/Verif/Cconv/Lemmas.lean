import Verif.Cconv.Tabs

namespace Fio.Cconv

open Fio.TsNet (C Fp dec put get)
open Fio

/-! ## Folds -/

theorem net_fold_other (fp : Fp) (be : Bool) (o : F → Nat → Nat) (tab : List Asg) (t : F → Nat → List Byte) (f : F) (i : Nat)
    (h : ∀ a ∈ tab, a.dst ≠ f) : tab.foldl (net1 fp be o) t f i = t f i := by
  induction tab generalizing t with
  | nil => rfl
  | cons a tab ih =>
    rw [List.foldl_cons, ih _ fun x hx => h x (List.mem_cons_of_mem _ hx)]
    unfold net1
    rw [if_neg]
    intro hh
    exact h a List.mem_cons_self hh.1.symm

theorem net_fold (fp : Fp) (be : Bool) (o : F → Nat → Nat) (tab : List Asg) (hn : (tab.map Asg.dst).Nodup) (t : F → Nat → List Byte)
    (a : Asg) (ha : a ∈ tab) (hs : a.own = true → a.src = a.dst) (i : Nat) (hi : i < a.n) :
    tab.foldl (net1 fp be o) t a.dst i = put fp be (packW a.dst) a.c (if a.own then dec be (t a.dst i) else o a.src i) := by
  induction tab generalizing t with
  | nil => simp at ha
  | cons b tab ih =>
    rw [List.map_cons, List.nodup_cons] at hn
    rw [List.foldl_cons]
    rcases List.mem_cons.mp ha with rfl | hm
    · rw [net_fold_other]
      · unfold net1
        rw [if_pos ⟨rfl, hi⟩]
        by_cases hw : a.own = true
        · rw [if_pos hw, if_pos hw, hs hw]
        · rw [if_neg hw, if_neg hw]
      · intro x hx he
        exact hn.1 (he ▸ List.mem_map_of_mem hx)
    · rw [ih hn.2 _ hm]
      have hne : a.dst ≠ b.dst := fun he => hn.1 (he ▸ List.mem_map_of_mem hm)
      have : net1 fp be o t b a.dst i = t a.dst i := by
        unfold net1
        rw [if_neg]
        intro hh
        exact hne hh.1
      rw [this]

theorem net_fold_out (fp : Fp) (be : Bool) (o : F → Nat → Nat) (tab : List Asg) (hn : (tab.map Asg.dst).Nodup) (t : F → Nat → List Byte)
    (a : Asg) (ha : a ∈ tab) (i : Nat) (hi : ¬ i < a.n) : tab.foldl (net1 fp be o) t a.dst i = t a.dst i := by
  induction tab generalizing t with
  | nil => rfl
  | cons b tab ih =>
    rw [List.map_cons, List.nodup_cons] at hn
    rw [List.foldl_cons]
    rcases List.mem_cons.mp ha with rfl | hm
    · rw [net_fold_other]
      · unfold net1
        rw [if_neg]
        exact fun hh => hi hh.2
      · intro x hx he
        exact hn.1 (he ▸ List.mem_map_of_mem hx)
    · rw [ih hn.2 _ hm]
      have hne : a.dst ≠ b.dst := fun he => hn.1 (he ▸ List.mem_map_of_mem hm)
      unfold net1
      rw [if_neg]
      exact fun hh => hne hh.1

theorem cpu_fold_other (fp : Fp) (be : Bool) (t : F → Nat → List Byte) (tab : List Asg) (o : F → Nat → Nat) (f : F) (i : Nat)
    (h : ∀ a ∈ tab, a.dst ≠ f) : tab.foldl (cpu1 fp be t) o f i = o f i := by
  induction tab generalizing o with
  | nil => rfl
  | cons a tab ih =>
    rw [List.foldl_cons, ih _ fun x hx => h x (List.mem_cons_of_mem _ hx)]
    unfold cpu1
    rw [if_neg]
    intro hh
    exact h a List.mem_cons_self hh.1.symm

theorem cpu_fold (fp : Fp) (be : Bool) (t : F → Nat → List Byte) (tab : List Asg) (hn : (tab.map Asg.dst).Nodup) (o : F → Nat → Nat)
    (a : Asg) (ha : a ∈ tab) (i : Nat) (hi : i < a.n) :
    tab.foldl (cpu1 fp be t) o a.dst i = dec be (get fp be (optW a.dst) a.c (t a.src i)) := by
  induction tab generalizing o with
  | nil => simp at ha
  | cons b tab ih =>
    rw [List.map_cons, List.nodup_cons] at hn
    rw [List.foldl_cons]
    rcases List.mem_cons.mp ha with rfl | hm
    · rw [cpu_fold_other]
      · unfold cpu1
        rw [if_pos ⟨rfl, hi⟩]
      · intro x hx he
        exact hn.1 (he ▸ List.mem_map_of_mem hx)
    · exact ih hn.2 _ hm

theorem cpu_fold_out (fp : Fp) (be : Bool) (t : F → Nat → List Byte) (tab : List Asg) (hn : (tab.map Asg.dst).Nodup) (o : F → Nat → Nat)
    (a : Asg) (ha : a ∈ tab) (i : Nat) (hi : ¬ i < a.n) : tab.foldl (cpu1 fp be t) o a.dst i = o a.dst i := by
  induction tab generalizing o with
  | nil => rfl
  | cons b tab ih =>
    rw [List.map_cons, List.nodup_cons] at hn
    rw [List.foldl_cons]
    rcases List.mem_cons.mp ha with rfl | hm
    · rw [cpu_fold_other]
      · unfold cpu1
        rw [if_neg]
        exact fun hh => hi hh.2
      · intro x hx he
        exact hn.1 (he ▸ List.mem_map_of_mem hx)
    · rw [ih hn.2 _ hm]
      have hne : a.dst ≠ b.dst := fun he => hn.1 (he ▸ List.mem_map_of_mem hm)
      unfold cpu1
      rw [if_neg]
      exact fun hh => hne hh.1

/-! ## Strings -/

theorem netStr_nodup : (netStr.map Prod.fst).Nodup := by decide +kernel
theorem netStr_diag : ∀ p ∈ netStr, p.2 = p.1 := by decide +kernel
theorem cpuStr_nodup : (cpuStr.map Prod.fst).Nodup := by decide +kernel
theorem cpuStr_diag : ∀ p ∈ cpuStr, p.2 = p.1 := by decide +kernel
theorem netStr_all (s : S) : s ∈ netStr.map Prod.fst ↔ s ∉ keptStr := by cases s <;> decide +kernel
theorem cpuStr_all (s : S) : s ∈ cpuStr.map Prod.fst ↔ s ∉ keptStr := by cases s <;> decide +kernel

theorem strNet_fold (o : S → Option (List Byte)) (tab : List (S × S)) (hn : (tab.map Prod.fst).Nodup) (hd : ∀ p ∈ tab, p.2 = p.1)
    (t : S → List Byte) (s : S) :
    tab.foldl (strNet1 o) t s = if s ∈ tab.map Prod.fst then strNet (t s) (o s) else t s := by
  induction tab generalizing t with
  | nil => rfl
  | cons p tab ih =>
    rw [List.map_cons, List.nodup_cons] at hn
    rw [List.foldl_cons, ih hn.2 fun x hx => hd x (List.mem_cons_of_mem _ hx)]
    have hp := hd p List.mem_cons_self
    by_cases h1 : s = p.1
    · subst h1
      rw [if_neg hn.1, if_pos (by simp)]
      simp [strNet1, hp]
    · have h2 : strNet1 o t p s = t s := by simp [strNet1, h1]
      rw [h2]
      by_cases h3 : s ∈ tab.map Prod.fst
      · rw [if_pos h3, if_pos (by rw [List.map_cons]; exact List.mem_cons_of_mem _ h3)]
      · rw [if_neg h3, if_neg]
        rw [List.map_cons, List.mem_cons]
        intro h
        rcases h with h | h
        · exact h1 h
        · exact h3 h

/-- The value of `strCpu` where it has one. -/
def strVal (old : Option (List Byte)) (b : List Byte) : Option (List Byte) :=
  if (b.takeWhile (· != 0)).length != 0 then some (b.takeWhile (· != 0)) else old

theorem strsCpu_eq (t : S → List Byte) (tab : List (S × S)) (hn : (tab.map Prod.fst).Nodup) (hd : ∀ p ∈ tab, p.2 = p.1)
    (h0 : ∀ p ∈ tab, (0 : Byte) ∈ t p.1) (o : S → Option (List Byte)) :
    strsCpu t tab o = some fun s => if s ∈ tab.map Prod.fst then strVal (o s) (t s) else o s := by
  induction tab generalizing o with
  | nil => simp [strsCpu]
  | cons p tab ih =>
    rw [List.map_cons, List.nodup_cons] at hn
    have hp := hd p List.mem_cons_self
    have hz : (t p.2).contains 0 = true := by rw [hp]; simpa using h0 p List.mem_cons_self
    simp only [strsCpu, strCpu, hz, if_true, Option.bind_eq_bind, Option.bind_some]
    rw [ih hn.2 (fun x hx => hd x (List.mem_cons_of_mem _ hx)) fun x hx => h0 x (List.mem_cons_of_mem _ hx)]
    congr 1
    funext s
    by_cases h1 : s = p.1
    · subst h1
      have hm : p.1 ∈ (p :: tab).map Prod.fst := by simp
      rw [if_neg hn.1, if_pos hm, if_pos rfl, hp]
      rfl
    · rw [if_neg h1]
      by_cases h3 : s ∈ tab.map Prod.fst
      · rw [if_pos h3, if_pos (by rw [List.map_cons]; exact List.mem_cons_of_mem _ h3)]
      · rw [if_neg h3, if_neg]
        rw [List.map_cons, List.mem_cons]
        intro h
        rcases h with h | h
        · exact h1 h
        · exact h3 h

theorem takeWhile_ne (x r : List Byte) (h : (0 : Byte) ∉ x) : (x ++ 0 :: r).takeWhile (· != 0) = x := by
  induction x with
  | nil => simp
  | cons c x ih =>
    rw [List.mem_cons, not_or] at h
    have hc : (c != 0) = true := by simpa using fun hh : c = 0 => h.1 hh.symm
    rw [List.cons_append, List.takeWhile_cons, if_pos hc, ih h.2]

theorem strNet_zero (old : List Byte) (s : Option (List Byte)) : (0 : Byte) ∈ strNet old s := by
  unfold strNet
  split <;> simp

theorem strNet_read (new old : Option (List Byte)) (b : List Byte) (h : ∀ x, new = some x → (0 : Byte) ∉ x) :
    strVal old (strNet b new) = cutStr old new := by
  unfold strVal strNet
  match new with
  | none => simp [cutStr]
  | some [] => simp [cutStr]
  | some (c :: x) =>
    have h1 : (0 : Byte) ∉ (c :: x).take 255 := fun hh => h _ rfl (List.mem_of_mem_take hh)
    simp only
    rw [takeWhile_ne _ _ h1]
    rw [if_pos (by simp)]
    rfl

/-! ## Lists -/

/-- What `netList` writes. -/
def wr (fp : Fp) (be : Bool) (f : F) (c : C) (base n : Nat) (l : List Nat) (t : F → Nat → List Byte) : F → Nat → List Byte :=
  fun g i => if g = f ∧ base ≤ i ∧ i < base + n then put fp be (packW f) c (l.getD (i - base) 0) else t g i

theorem netList_eq {fp : Fp} {be : Bool} {f : F} {c : C} {base n : Nat} {l : List Nat} {t : F → Nat → List Byte} (h : n ≤ l.length) :
    netList fp be f c base n l t = some (wr fp be f c base n l t) := by
  unfold netList
  rw [if_neg (Nat.not_lt.mpr h)]
  rfl

theorem wr_ne {fp : Fp} {be : Bool} {f : F} {c : C} {base n : Nat} {l : List Nat} {t : F → Nat → List Byte} {g : F} {i : Nat} (h : g ≠ f) :
    wr fp be f c base n l t g i = t g i := by
  unfold wr
  rw [if_neg]
  exact fun hh => h hh.1

theorem wr_out {fp : Fp} {be : Bool} {f : F} {c : C} {base n : Nat} {l : List Nat} {t : F → Nat → List Byte} {g : F} {i : Nat}
    (h : i < base ∨ base + n ≤ i) : wr fp be f c base n l t g i = t g i := by
  unfold wr
  rw [if_neg]
  intro hh
  omega

theorem wr_in {fp : Fp} {be : Bool} {f : F} {c : C} {base n : Nat} {l : List Nat} {t : F → Nat → List Byte} {j : Nat} (h : j < n) :
    wr fp be f c base n l t f (base + j) = put fp be (packW f) c (l.getD j 0) := by
  unfold wr
  rw [if_pos ⟨rfl, by omega, by omega⟩, Nat.add_sub_cancel_left]

/-- The numbers of the block size splits of direction `i`, as they are read. -/
def rdBss (fp : Fp) (be : Bool) (t : F → Nat → List Byte) (i n : Nat) : List (Nat × Nat) :=
  (List.range n).map fun j => (dec be (get fp be 8 (.i 8) (t .bssplit_bs (64 * i + j))), dec be (get fp be 4 (.i 4) (t .bssplit_perc (64 * i + j))))

theorem cpuBss_eq {fp : Fp} {be : Bool} {t : F → Nat → List Byte} {o : Opts} {i : Nat} (h : o.num .bssplit_nr i ≤ 64) :
    cpuBss fp be t o i = some { o with bss := fun k => if k = i ∧ o.num .bssplit_nr i ≠ 0 then rdBss fp be t i (o.num .bssplit_nr i) else o.bss k } := by
  unfold cpuBss
  by_cases h0 : o.num .bssplit_nr i = 0
  · simp [h0]
  · simp only [if_neg h0, cpuList, if_neg (Nat.not_lt.mpr h), Option.bind_eq_bind, Option.bind_some, List.zip_map']
    simp [h0, rdBss]

/-- The numbers of the zone splits of direction `i`, as they are read. -/
def rdZs (fp : Fp) (be : Bool) (junk : Nat) (t : F → Nat → List Byte) (i n : Nat) : List (Nat × Nat × Nat) :=
  (List.range n).map fun j =>
    (dec be (get fp be 1 (.i 1) (t .zone_split_access (256 * i + j))), dec be (get fp be 1 (.i 1) (t .zone_split_perc (256 * i + j))), junk)

theorem cpuZs_eq {fp : Fp} {be : Bool} {junk : Nat} {t : F → Nat → List Byte} {o : Opts} {i : Nat} (h : o.num .zone_split_nr i ≤ 256) :
    cpuZs fp be junk t o i =
      some { o with zs := fun k => if k = i ∧ o.num .zone_split_nr i ≠ 0 then rdZs fp be junk t i (o.num .zone_split_nr i) else o.zs k } := by
  unfold cpuZs
  by_cases h0 : o.num .zone_split_nr i = 0
  · simp [h0]
  · simp only [if_neg h0, cpuList, if_neg (Nat.not_lt.mpr h), Option.bind_eq_bind, Option.bind_some, List.zip_map']
    simp [h0, rdZs]
    rfl

/-- The sequence as it is read. -/
def rdSeq (fp : Fp) (be : Bool) (t : F → Nat → List Byte) (n : Nat) : List Nat :=
  (List.range n).map fun j => dec be (get fp be 4 (.i 4) (t .random_sequence_arr j))

theorem cpuSeq_eq {fp : Fp} {be : Bool} {t : F → Nat → List Byte} {o : Opts} (h : o.num .random_sequence_nr 0 ≤ 64) :
    cpuSeq fp be t o =
      some { o with seq := if o.num .random_sequence_nr 0 ≠ 0 then rdSeq fp be t (o.num .random_sequence_nr 0) else o.seq } := by
  unfold cpuSeq
  by_cases h0 : o.num .random_sequence_nr 0 = 0
  · simp [h0]
  · simp only [if_neg h0, cpuList, if_neg (Nat.not_lt.mpr h), Option.bind_eq_bind, Option.bind_some]
    simp [h0, rdSeq]

end Fio.Cconv
