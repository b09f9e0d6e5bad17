import Verif.Zbd.Model
import Mathlib.Data.List.Perm.Basic
import Mathlib.Data.List.Nodup
import Mathlib.Tactic.Ring
/-
What the steps do to the array of write target zones and to the marks of the zones.
-/
namespace Fio.Zbd

/-- Zone `i` is marked as a write target. -/
def Dev.flag (d : Dev) (i : Nat) : Bool := (d.zones[i]?).any Zone.write

/-- The part of the array in use. -/
def Dev.used (d : Dev) : List Nat := d.arr.take d.num

/-- What a step does to the write target zones. -/
inductive Eff (j : Job) (d : Dev) (i : Nat) : Job → Dev → Prop where
  | same (d' : Dev) (hm : d'.max = d.max) (hn : d'.num = d.num) (ha : d'.arr = d.arr)
      (hl : d'.zones.length = d.zones.length)
      (hf : ∀ k, d'.flag k = d.flag k) : Eff j d i j d'
  | add (d' : Dev) (hm : d'.max = d.max) (h0 : d.flag i = false) (hz : i < d.zones.length)
      (hl : d'.zones.length = d.zones.length)
      (hj : ¬(j.jobMax > 0 ∧ j.num ≥ j.jobMax)) (hlt : d.num < d.max) (hal : d.num < d.arr.length)
      (hn : d'.num = d.num + 1) (ha : d'.arr = d.arr.set d.num i)
      (hf : ∀ k, d'.flag k = (d.flag k || k == i)) :
      Eff j d i { j with num := j.num + 1 } d'
  | del (d' : Dev) (hm : d'.max = d.max) (h0 : d.flag i = true) (zi : Nat) (hzi : zi < d.num)
      (hl : d'.zones.length = d.zones.length)
      (hi : d.arr[zi]? = some i)
      (hn : d'.num = d.num - 1) (ha : d'.arr = memmoveDown d.arr zi)
      (hf : ∀ k, d'.flag k = (d.flag k && k != i)) :
      Eff j d i { j with num := j.num - 1 } d'

theorem findZi_spec (arr : List Nat) (i : Nat) : ∀ left zi,
    findZi arr i left zi = zi + left ∨
    (findZi arr i left zi < zi + left ∧ arr[findZi arr i left zi]? = some i)
  | 0, zi => by simp [findZi]
  | left + 1, zi => by
    unfold findZi
    split
    · right; constructor
      · omega
      · assumption
    · rcases findZi_spec arr i left (zi + 1) with h | h
      · left; omega
      · right; exact ⟨by omega, h.2⟩

theorem findZi_none (arr : List Nat) (i : Nat) : ∀ left zi,
    findZi arr i left zi = zi + left → ∀ k, zi ≤ k → k < zi + left → arr[k]? ≠ some i
  | 0, zi, _, k, h1, h2 => by omega
  | left + 1, zi, h, k, h1, h2 => by
    unfold findZi at h
    split at h
    · omega
    · next hne =>
      rcases Nat.eq_or_lt_of_le h1 with h3 | h3
      · subst h3; exact hne
      · exact findZi_none arr i left (zi + 1) (by omega) k (by omega) (by omega)

theorem flag_set {d : Dev} {i : Nat} {z : Zone} (hz : d.zones[i]? = some z) (z' : Zone) (k : Nat) :
    ((d.zones.set i z')[k]?).any Zone.write = if k = i then z'.write else d.flag k := by
  have hlt : i < d.zones.length := by
    rw [List.getElem?_eq_some_iff] at hz; exact hz.1
  rw [List.getElem?_set]
  by_cases h : k = i
  · subst h; simp [hlt]
  · rw [if_neg (fun h' => h h'.symm), if_neg h]; rfl

theorem flag_eq {d : Dev} {i : Nat} {z : Zone} (hz : d.zones[i]? = some z) : d.flag i = z.write := by
  simp [Dev.flag, hz]

theorem eff_set {j : Job} {d d' : Dev} {i : Nat} {z z' : Zone} (hz : d.zones[i]? = some z)
    (hw : z'.write = z.write) (hm : d'.max = d.max) (hn : d'.num = d.num) (ha : d'.arr = d.arr)
    (hs : d'.zones = d.zones.set i z') : Eff j d i j d' := by
  refine .same d' hm hn ha (by simp [hs]) ?_
  intro k
  unfold Dev.flag
  rw [hs, flag_set hz]
  split
  · next h => subst h; rw [hw, hz]; rfl
  · rfl

theorem eff_put {j j' : Job} {d d' : Dev} {i : Nat} (h : put j d i = some (j', d')) :
    Eff j d i j' d' := by
  unfold put at h
  split at h
  · cases h
  next z hz =>
  split at h
  · cases h; exact .same _ rfl rfl rfl rfl fun _ => rfl
  next hw =>
  simp only at h
  split at h
  · cases h; exact .same _ rfl rfl rfl rfl fun _ => rfl
  next hne =>
  cases h
  rcases findZi_spec d.arr i d.num 0 with h | h
  · exfalso; rw [h] at hne; omega
  refine .del _ rfl ?_ _ (by omega) (by simp) h.2 rfl rfl ?_
  · rw [flag_eq hz]; simpa using hw
  intro k
  unfold Dev.flag
  simp only
  rw [flag_set hz]
  by_cases hk : k = i
  · simp [hk]
  · simp [hk, Dev.flag]

theorem eff_getIn {j : Job} {d : Dev} {i : Nat} {r : Bool × Job × Dev}
    (h : getIn j d i = some r) : Eff j d i r.2.1 r.2.2 := by
  have same : Eff j d i j d := .same _ rfl rfl rfl rfl fun _ => rfl
  unfold getIn at h
  split at h
  · cases h
  next z hz =>
  split at h
  · cases h; exact same
  split at h
  · cases h; exact same
  split at h
  · cases h; exact same
  split at h
  · cases h; exact same
  next hw =>
  split at h
  · cases h; exact same
  next hj =>
  split at h
  · cases h; exact same
  next hn =>
  unfold add at h
  split at h
  · next hal =>
    cases h
    refine .add _ rfl ?_ ?_ (by simp) hj (by omega) hal rfl rfl ?_
    · rw [flag_eq hz]; simpa using hw
    · rw [List.getElem?_eq_some_iff] at hz; exact hz.1
    intro k
    unfold Dev.flag
    simp only
    rw [flag_set hz]
    by_cases hk : k = i
    · simp [hk]
    · simp [hk, Dev.flag]
  · cases h

theorem eff_get {j : Job} {d : Dev} {i : Nat} {r : Bool × Job × Dev}
    (h : get j d i = some r) : Eff j d i r.2.1 r.2.2 := by
  unfold get at h
  split at h
  · cases h
  split at h
  · split at h
    · cases h
    · cases h; exact .same _ rfl rfl rfl rfl fun _ => rfl
    · exact eff_getIn h
  · exact eff_getIn h

theorem eff_act {j j' : Job} {d d' : Dev} {o : Op} (h : act j d o = some (j', d')) :
    Eff j d o.zone j' d' := by
  cases o with
  | getIn a z =>
    simp only [act, Option.map_eq_some_iff, Prod.mk.injEq] at h
    obtain ⟨r, hr, h1, h2⟩ := h
    subst h1 h2; exact eff_getIn hr
  | get a z =>
    simp only [act, Option.map_eq_some_iff, Prod.mk.injEq] at h
    obtain ⟨r, hr, h1, h2⟩ := h
    subst h1 h2; exact eff_get hr
  | put a z => exact eff_put h
  | resetWp a z =>
    simp only [act, Option.map_eq_some_iff, Prod.mk.injEq] at h
    obtain ⟨r, hr, h1, h2⟩ := h
    subst h1 h2
    unfold resetWp at hr
    split at hr
    · cases hr
    next zn hz =>
    split at hr
    · cases hr; exact .same _ rfl rfl rfl rfl fun _ => rfl
    · cases hr; exact eff_set hz (by rfl) rfl rfl rfl rfl
  | finish a z =>
    simp only [act, Option.map_eq_some_iff, Prod.mk.injEq] at h
    obtain ⟨r, hr, h1, h2⟩ := h
    subst h1 h2
    unfold finish at hr
    split at hr
    · next zn e hz _ => cases hr; exact eff_set hz (by rfl) rfl rfl rfl rfl
    · cases hr
  | queued a z off len =>
    simp only [act, Option.map_eq_some_iff, Prod.mk.injEq] at h
    obtain ⟨r, hr, h1, h2⟩ := h
    subst h1 h2
    unfold queued at hr
    split at hr
    · cases hr
    next zn hz => cases hr; exact eff_set hz (by rfl) rfl rfl rfl rfl
  | endIo a z off len =>
    simp only [act] at h
    unfold endIo at h
    split at h
    · cases h
    split at h
    · exact eff_put h
    · cases h; exact .same _ rfl rfl rfl rfl fun _ => rfl
  | recover a z wp =>
    simp only [act, Option.map_eq_some_iff, Prod.mk.injEq] at h
    obtain ⟨r, hr, h1, h2⟩ := h
    subst h1 h2
    unfold recover at hr
    split at hr
    · cases hr
    next zn hz => cases hr; exact eff_set hz (by rfl) rfl rfl rfl rfl

/-- The array and the marks agree. -/
structure Inv (d : Dev) : Prop where
  len : d.arr.length = maxWriteZones
  max : d.max ≤ maxWriteZones
  num : d.num ≤ d.max
  nodup : d.used.Nodup
  mem : ∀ i, i ∈ d.used ↔ d.flag i = true

theorem memmoveDown_length {arr : List Nat} {zi : Nat} (h : zi < arr.length) :
    (memmoveDown arr zi).length = arr.length := by
  simp [memmoveDown]; omega

theorem take_memmoveDown {arr : List Nat} {zi n : Nat} (h : zi < n) (hn : n ≤ arr.length) :
    (memmoveDown arr zi).take (n - 1) = (arr.take n).eraseIdx zi := by
  rw [List.eraseIdx_eq_take_drop_succ]
  unfold memmoveDown
  rw [List.take_append_of_le_length (by simp; omega)]
  rw [List.take_append, List.take_of_length_le (by simp; omega)]
  rw [List.take_take, Nat.min_eq_left (by omega), List.drop_take]
  congr 2
  simp; omega

theorem used_add {d d' : Dev} {i : Nat} (hal : d.num < d.arr.length) (hn : d'.num = d.num + 1)
    (ha : d'.arr = d.arr.set d.num i) : d'.used = d.used ++ [i] := by
  unfold Dev.used
  rw [hn, ha, List.take_add_one, List.take_set]
  rw [List.set_eq_of_length_le (by simp)]
  simp [hal]

theorem used_del {d d' : Dev} {zi : Nat} (h : Inv d) (hzi : zi < d.num) (hn : d'.num = d.num - 1)
    (ha : d'.arr = memmoveDown d.arr zi) : d'.used = d.used.eraseIdx zi := by
  unfold Dev.used
  rw [hn, ha]
  exact take_memmoveDown hzi (by rw [h.len]; exact Nat.le_trans h.num h.max)

theorem eraseIdx_eq_erase {l : List Nat} (hl : l.Nodup) {k i : Nat} (h : l[k]? = some i) :
    l.eraseIdx k = l.erase i := by
  rw [List.getElem?_eq_some_iff] at h
  obtain ⟨hk, rfl⟩ := h
  rw [List.Nodup.erase_getElem hl]

theorem used_del' {d d' : Dev} {zi i : Nat} (h : Inv d) (hzi : zi < d.num) (hi : d.arr[zi]? = some i)
    (hn : d'.num = d.num - 1)
    (ha : d'.arr = memmoveDown d.arr zi) : d'.used = d.used.erase i := by
  rw [used_del h hzi hn ha]
  apply eraseIdx_eq_erase h.nodup
  unfold Dev.used
  rw [List.getElem?_take_of_lt hzi, hi]

theorem Inv.eff {j j' : Job} {d d' : Dev} {i : Nat} (h : Inv d) (he : Eff j d i j' d') : Inv d' := by
  cases he with
  | same _ hm hn ha hl hf =>
    have hu : d'.used = d.used := by simp [Dev.used, hn, ha]
    exact ⟨ha ▸ h.len, hm ▸ h.max, by rw [hn, hm]; exact h.num, hu ▸ h.nodup,
      fun k => by rw [hu, hf]; exact h.mem k⟩
  | add _ hm h0 hz hl hj hlt hal hn ha hf =>
    have hu := used_add hal hn ha
    refine ⟨by simp [ha, h.len], hm ▸ h.max, by omega, ?_, ?_⟩
    · rw [hu, List.nodup_append]
      refine ⟨h.nodup, by simp, ?_⟩
      intro a hau b hb
      simp only [List.mem_singleton] at hb
      subst hb
      rintro rfl
      have := (h.mem a).mp hau
      rw [h0] at this; cases this
    · intro k
      rw [hu, hf, List.mem_append, h.mem k]
      simp
  | del _ hm h0 zi hzi hl hi hn ha hf =>
    have hu := used_del' h hzi hi hn ha
    have hlt : zi < d.arr.length := by
      rw [h.len]; exact Nat.lt_of_lt_of_le hzi (Nat.le_trans h.num h.max)
    refine ⟨by rw [ha, memmoveDown_length hlt, h.len], hm ▸ h.max, by have := h.num; omega, ?_, ?_⟩
    · rw [hu]; exact h.nodup.erase i
    · intro k
      rw [hu, hf, h.nodup.mem_erase_iff, h.mem k]
      simp [and_comm]

end Fio.Zbd
