import Verif.Sub.Spec
import Verif.Ini.Lemmas
/-!
# Lemmas on texts of options
-/

namespace Fio.Sub

open Fio.Ini (Str stripEnd)
open Spec

/-! ## Variables -/

theorem takeWhile_until (name r : Str) (x : Char) (h : x ∉ name) : (name ++ x :: r).takeWhile (· ≠ x) = name ∧ (name ++ x :: r).dropWhile (· ≠ x) = x :: r := by
  induction name with
  | nil => simp
  | cons c name ih =>
    have hc : c ≠ x := fun e => h (e ▸ List.mem_cons_self)
    have := ih (fun e => h (List.mem_cons_of_mem _ e))
    rw [List.cons_append, List.takeWhile_cons_of_pos (by simpa using hc), List.dropWhile_cons_of_pos (by simpa using hc), this.1, this.2]
    exact ⟨rfl, rfl⟩

/-- A text with an `x` in it, at its first. -/
theorem split_until (t : Str) (x : Char) (h : x ∈ t) : ∃ name r, t = name ++ x :: r ∧ x ∉ name := by
  induction t with
  | nil => cases h
  | cons c t ih =>
    by_cases hc : c = x
    · exact ⟨[], t, by rw [hc]; rfl, by simp⟩
    · rcases List.mem_cons.1 h with h | h
      · exact absurd h.symm hc
      · obtain ⟨name, r, h1, h2⟩ := ih h
        refine ⟨c :: name, r, by rw [h1]; rfl, ?_⟩
        intro hm
        rcases List.mem_cons.1 hm with hm | hm
        · exact hc hm.symm
        · exact h2 hm

theorem subsLoop_var (env : Str → Option Str) (n : Nat) (name r : Str) (nchr : Nat) (h : '}' ∉ name) (h0 : 0 < nchr) :
    subsLoop env (n + 1) ("${".toList ++ name ++ "}".toList ++ r) nchr =
      match env name with
      | some v => if v.length ≤ nchr then v ++ subsLoop env n r (nchr - v.length) else subsLoop env n r nchr
      | none => subsLoop env n r nchr := by
  have e : "${".toList ++ name ++ "}".toList ++ r = '$' :: '{' :: (name ++ '}' :: r) := by simp
  rw [e]
  have := takeWhile_until name r '}' h
  conv => lhs; unfold subsLoop
  rw [if_neg (by omega)]
  simp only
  rw [if_pos (by simp), this.1, this.2]
  rfl

theorem subsLoop_lit (env : Str → Option Str) (n : Nat) (c : Char) (t : Str) (nchr : Nat) (h0 : 0 < nchr)
    (hc : ¬ ∃ name r, '}' ∉ name ∧ c :: t = "${".toList ++ name ++ "}".toList ++ r) :
    subsLoop env (n + 1) (c :: t) nchr = c :: subsLoop env n t (nchr - 1) := by
  conv => lhs; unfold subsLoop
  rw [if_neg (by omega)]
  split
  · rename_i t'
    split
    · rename_i hm
      exfalso
      apply hc
      obtain ⟨name, r, h1, h2⟩ := split_until t' '}' hm
      exact ⟨name, r, h2, by rw [h1]; simp⟩
    · rfl
  · rfl

theorem subsLoop_zero (env : Str → Option Str) (n : Nat) (t : Str) : subsLoop env n t 0 = [] := by
  cases n with
  | zero => rfl
  | succ n => cases t <;> simp [subsLoop]

theorem subst_spec (env : Str → Option Str) (t out : Str) (h : Subst env t out) : ∀ n nchr, t.length < n → out.length ≤ nchr →
    (nchr = 0 → ∀ name, env name ≠ some []) → subsLoop env n t nchr = out := by
  induction h with
  | nil =>
    intro n nchr hn _ _
    obtain ⟨m, rfl⟩ : ∃ m, n = m + 1 := ⟨n - 1, by simp at hn; omega⟩
    rfl
  | var name t out hn h ih =>
    intro n nchr hl ho hz
    obtain ⟨m, rfl⟩ : ∃ m, n = m + 1 := ⟨n - 1, by omega⟩
    simp only [List.length_append] at hl ho
    by_cases h0 : nchr = 0
    · subst h0
      rw [subsLoop_zero]
      have : out = [] := List.length_eq_zero_iff.1 (by omega)
      have h2 : (env name).getD [] = [] := List.length_eq_zero_iff.1 (by omega)
      rw [this, h2]
      rfl
    · rw [subsLoop_var env m name t nchr hn (by omega)]
      have hlen : t.length < m := by
        have e1 : "${".toList.length = 2 := rfl
        omega
      cases hv : env name with
      | none =>
        simp only
        rw [ih m nchr hlen (by omega) (fun h => absurd h h0)]
        simp
      | some v =>
        rw [hv] at ho
        simp only [Option.getD_some] at ho
        simp only
        rw [if_pos (by omega)]
        by_cases hlast : nchr - v.length = 0
        · have : out = [] := List.length_eq_zero_iff.1 (by omega)
          rw [hlast, subsLoop_zero, this]
          simp
        · rw [ih m (nchr - v.length) hlen (by omega) (fun h => absurd h hlast)]
          simp
  | lit c t out hc h ih =>
    intro n nchr hl ho _
    obtain ⟨m, rfl⟩ : ∃ m, n = m + 1 := ⟨n - 1, by omega⟩
    simp only [List.length_cons] at hl ho
    rw [subsLoop_lit env m c t nchr (by omega) hc]
    by_cases hlast : nchr - 1 = 0
    · have : out = [] := List.length_eq_zero_iff.1 (by omega)
      rw [hlast, subsLoop_zero, this]
    · rw [ih m (nchr - 1) (by omega) (by omega) (fun h => absurd h hlast)]

theorem subst_exists (env : Str → Option Str) : ∀ (k : Nat) (t : Str), t.length ≤ k → ∃ out, Subst env t out := by
  intro k
  induction k with
  | zero => intro t ht; have e : t = [] := List.length_eq_zero_iff.1 (by omega); subst e; exact ⟨[], .nil⟩
  | succ k ih =>
    intro t ht
    cases t with
    | nil => exact ⟨[], .nil⟩
    | cons c t =>
      by_cases hc : ∃ name r, '}' ∉ name ∧ c :: t = "${".toList ++ name ++ "}".toList ++ r
      · obtain ⟨name, r, h1, h2⟩ := hc
        rw [h2] at ht ⊢
        have e1 : "${".toList.length = 2 := rfl
        simp only [List.length_append] at ht
        obtain ⟨out, ho⟩ := ih r (by omega)
        exact ⟨_, .var name r out h1 ho⟩
      · obtain ⟨out, ho⟩ := ih t (by simp at ht; omega)
        exact ⟨_, .lit c t out hc ho⟩

theorem subsLoop_len (env : Str → Option Str) : ∀ n t nchr, (subsLoop env n t nchr).length ≤ nchr := by
  intro n
  induction n with
  | zero => intro t nchr; simp [subsLoop]
  | succ n ih =>
    intro t nchr
    cases t with
    | nil => simp [subsLoop]
    | cons c t =>
      unfold subsLoop
      split
      · simp
      · split
        · split
          · simp only
            split
            · split
              · rename_i v _ _
                rw [List.length_append]
                refine Nat.le_trans (Nat.add_le_add_left (ih _ _) _) ?_
                omega
              · exact ih _ _
            · exact ih _ _
          · have := ih ('{' :: ‹List Char›) (nchr - 1)
            simp only [List.length_cons]
            omega
        · have := ih t (nchr - 1)
          simp only [List.length_cons]
          omega

/-! ## Keywords -/

theorem expand_drop (kws : List (Str × Str)) : ∀ (k : Nat) (t : Str), expand kws k t = expand kws 0 (t.drop k) := by
  intro k
  induction k with
  | zero => intro t; rfl
  | succ k ih =>
    intro t
    cases t with
    | nil => simp [expand]
    | cons c t => rw [List.drop_succ_cons, ← ih t]; conv => lhs; unfold expand

theorem expand_nil (kws : List (Str × Str)) : expand kws 0 [] = [] := by simp [expand]

theorem expand_hit (kws : List (Str × Str)) (w v r : Str) (hw : w ≠ []) (h : kws.find? (fun kv => kv.1.isPrefixOf (w ++ r)) = some (w, v)) :
    expand kws 0 (w ++ r) = v ++ expand kws 0 r := by
  cases w with
  | nil => exact absurd rfl hw
  | cons c w =>
    rw [List.cons_append] at h ⊢
    conv => lhs; unfold expand
    rw [h]
    simp only [List.length_cons, Nat.add_sub_cancel]
    rw [expand_drop]
    simp

theorem expand_miss (kws : List (Str × Str)) (c : Char) (t : Str) (h : kws.find? (fun kv => kv.1.isPrefixOf (c :: t)) = none) :
    expand kws 0 (c :: t) = c :: expand kws 0 t := by
  conv => lhs; unfold expand
  rw [h]

theorem expand_plain (kws : List (Str × Str)) (hk : ∀ kv ∈ kws, ∃ w, kv.1 = '$' :: w) (x r : Str) (hx : '$' ∉ x) :
    expand kws 0 (x ++ r) = x ++ expand kws 0 r := by
  induction x with
  | nil => rfl
  | cons c x ih =>
    rw [List.cons_append, expand_miss, ih (fun h => hx (List.mem_cons_of_mem _ h))]
    · rfl
    · rw [List.find?_eq_none]
      intro kv hkv
      obtain ⟨w, hw⟩ := hk kv hkv
      rw [hw]
      have : c ≠ '$' := fun e => hx (e ▸ List.mem_cons_self)
      simp [List.isPrefixOf, this.symm]

/-- A piece of the result without `$` and without characters of values comes from the text. -/
theorem prefix_of_expand (kws : List (Str × Str)) (hv : ∀ kv ∈ kws, kv.2 ≠ []) (x : Str) (hx : ∀ kv ∈ kws, ∀ c ∈ kv.2, c ∉ x) :
    ∀ s, x <+: expand kws 0 s → x <+: s := by
  induction x with
  | nil => intro s _; exact List.nil_prefix
  | cons a x ih =>
    intro s h
    cases s with
    | nil => rw [expand_nil] at h; exact absurd (List.prefix_nil.1 h) (by simp)
    | cons c t =>
      cases hf : kws.find? (fun kv => kv.1.isPrefixOf (c :: t)) with
      | some kv =>
        obtain ⟨w, v⟩ := kv
        have hm := List.mem_of_find?_eq_some hf
        have hne := hv _ hm
        conv at h => rhs; unfold expand
        rw [hf] at h
        simp only at h hne
        cases v with
        | nil => exact absurd rfl hne
        | cons b v =>
          rw [List.cons_append, List.cons_prefix_cons] at h
          exact absurd (h.1 ▸ List.mem_cons_self) (hx _ hm b List.mem_cons_self)
      | none =>
        rw [expand_miss kws c t hf, List.cons_prefix_cons] at h
        rw [List.cons_prefix_cons]
        exact ⟨h.1, ih (fun kv hkv c hc hm => hx kv hkv c hc (List.mem_cons_of_mem _ hm)) t h.2⟩

/-- One keyword after the others is the same as all at once. -/
theorem expand_comp (kws : List (Str × Str)) (w v : Str) (h : Kws (kws ++ [(w, v)])) :
    ∀ (k : Nat) (t : Str), t.length ≤ k → expand [(w, v)] 0 (expand kws 0 t) = expand (kws ++ [(w, v)]) 0 t := by
  obtain ⟨w', hw', hd⟩ := h.dollar (w, v) (by simp)
  simp only at hw'
  have hval := h.value (w, v) (by simp)
  have hk : ∀ kv ∈ kws, ∃ w, kv.1 = '$' :: w := fun kv hkv => by
    obtain ⟨w, h1, _⟩ := h.dollar kv (by simp [hkv]); exact ⟨w, h1⟩
  have hk1 : ∀ kv ∈ [(w, v)], ∃ w, kv.1 = '$' :: w := fun kv hkv => by
    obtain ⟨w, h1, _⟩ := h.dollar kv (by simp at hkv; simp [hkv]); exact ⟨w, h1⟩
  intro k
  induction k with
  | zero => intro t ht; have e : t = [] := List.length_eq_zero_iff.1 (by omega); subst e; simp [expand_nil]
  | succ k ih =>
    intro t ht
    cases t with
    | nil => simp [expand_nil]
    | cons c t =>
      simp only [List.length_cons] at ht
      cases hf : kws.find? (fun kv => kv.1.isPrefixOf (c :: t)) with
      | some kv =>
        obtain ⟨w1, v1⟩ := kv
        have hm := List.mem_of_find?_eq_some hf
        have hp := List.find?_some hf
        obtain ⟨r, hr⟩ := List.isPrefixOf_iff_prefix.1 hp
        simp only at hr
        obtain ⟨w1', e1, _⟩ := h.dollar (w1, v1) (by simp [hm])
        simp only at e1
        have hne : w1 ≠ [] := by rw [e1]; simp
        have hrl : r.length ≤ k := by
          have := congrArg List.length hr
          rw [e1] at this
          simp at this
          omega
        rw [← hr] at hf ⊢
        rw [expand_hit kws w1 v1 r hne hf, expand_plain [(w, v)] hk1 v1 _ (h.value (w1, v1) (by simp [hm])).2.1, ih r hrl]
        rw [expand_hit (kws ++ [(w, v)]) w1 v1 r hne (by rw [List.find?_append, hf]; rfl)]
      | none =>
        rw [expand_miss kws c t hf]
        by_cases hp : w <+: c :: t
        · obtain ⟨r, hr⟩ := hp
          rw [hw', List.cons_append] at hr
          injection hr with hc1 hr
          subst hc1
          have hne : w ≠ [] := by rw [hw']; simp
          rw [← hr, expand_plain kws hk w' r hd]
          have e2 : '$' :: (w' ++ expand kws 0 r) = w ++ expand kws 0 r := by rw [hw']; rfl
          have e3 : '$' :: (w' ++ r) = w ++ r := by rw [hw']; rfl
          rw [← hr, e3] at hf
          rw [e2, e3, expand_hit [(w, v)] w v _ hne (by simp), ih r (by rw [← hr] at ht; simp at ht; omega)]
          rw [expand_hit (kws ++ [(w, v)]) w v r hne (by rw [List.find?_append, hf]; simp)]
        · have hnp : ¬ w <+: c :: expand kws 0 t := by
            intro hh
            apply hp
            rw [hw', List.cons_prefix_cons] at hh ⊢
            refine ⟨hh.1, prefix_of_expand kws (fun kv hkv => (h.value kv (by simp [hkv])).1) w' ?_ t hh.2⟩
            intro kv hkv x hx hxw
            exact (h.value kv (by simp [hkv])).2.2.2 (w, v) (by simp) x hx (by simp only; rw [hw']; exact List.mem_cons_of_mem _ hxw)
          rw [expand_miss [(w, v)] c _ (by
            rw [List.find?_eq_none]; intro kv hkv; simp at hkv; subst hkv
            simp only; intro hh; exact hnp (List.isPrefixOf_iff_prefix.1 hh)), ih t (by omega)]
          rw [expand_miss (kws ++ [(w, v)]) c t (by
            rw [List.find?_append, hf, Option.none_or, List.find?_eq_none]; intro kv hkv; simp at hkv; subst hkv
            simp only; intro hh; exact hp (List.isPrefixOf_iff_prefix.1 hh))]

/-! ## One keyword -/

/-- No `w` begins in `d` (followed by `t`). -/
def NoStart (w d t : Str) : Prop := ∀ i, i < d.length → ¬ w <+: (d ++ t).drop i

theorem strstr_none (w t : Str) (hw : w ≠ []) (h : ∀ i, ¬ w <+: t.drop i) : strstr w t = none := by
  induction t with
  | nil =>
    unfold strstr
    rw [if_neg]
    intro hh
    exact hw (List.prefix_nil.1 (List.isPrefixOf_iff_prefix.1 hh))
  | cons c t ih =>
    unfold strstr
    rw [if_neg (fun hh : w.isPrefixOf (c :: t) = true => h 0 (List.isPrefixOf_iff_prefix.1 hh)), ih (fun i hi => h (i + 1) (by simpa using hi))]
    rfl

theorem strstr_some (w d t : Str) (h : NoStart w d t) (ht : w <+: t) : strstr w (d ++ t) = some d.length := by
  induction d with
  | nil =>
    cases t with
    | nil =>
      unfold strstr
      simp only [List.nil_append]
      rw [if_pos (List.isPrefixOf_iff_prefix.2 ht)]
      rfl
    | cons c t =>
      simp only [List.nil_append]
      unfold strstr
      rw [if_pos (List.isPrefixOf_iff_prefix.2 ht)]
      rfl
  | cons a d ih =>
    rw [List.cons_append]
    unfold strstr
    have h0 := h 0 (by simp)
    simp only [List.cons_append, List.drop_zero] at h0
    rw [if_neg (fun hh => h0 (List.isPrefixOf_iff_prefix.1 hh)), ih]
    · rfl
    · intro i hi
      have := h (i + 1) (by simp; omega)
      simpa using this

/-- A value in place of the keyword makes no new one. -/
theorem noStart_value (w v d r : Str) (hv : v ≠ []) (hd : ∀ c ∈ v, c ∉ w) (h : NoStart w d (w ++ r)) (hs : '$' ∉ v) (hw : ∃ w', w = '$' :: w') :
    NoStart w (d ++ v) r := by
  intro i hi hp
  by_cases h1 : i < d.length
  · by_cases h2 : i + w.length ≤ d.length
    · apply h i h1
      have e1 : (d ++ v ++ r).drop i = d.drop i ++ (v ++ r) := by rw [List.append_assoc, List.drop_append_of_le_length (by omega)]
      have e2 : (d ++ (w ++ r)).drop i = d.drop i ++ (w ++ r) := by rw [List.drop_append_of_le_length (by omega)]
      rw [e1] at hp
      rw [e2]
      have := List.prefix_of_prefix_length_le hp (List.prefix_append (d.drop i) (v ++ r)) (by simp; omega)
      exact this.trans (List.prefix_append _ _)
    · cases v with
      | nil => exact hv rfl
      | cons b v =>
        have e1 : (d ++ (b :: v) ++ r).drop i = d.drop i ++ (b :: (v ++ r)) := by
          rw [List.append_assoc, List.drop_append_of_le_length (by omega)]; rfl
        rw [e1] at hp
        obtain ⟨s, hs'⟩ := hp
        have hlen : (d.drop i).length < w.length := by simp; omega
        have g := congrArg (fun l => l[(d.drop i).length]?) hs'
        rw [List.getElem?_append_left hlen, List.getElem?_append_right (Nat.le_refl _), Nat.sub_self] at g
        simp only [List.getElem?_cons_zero] at g
        have : b ∈ w := List.mem_of_getElem? g
        exact hd b List.mem_cons_self this
  · obtain ⟨w', hw'⟩ := hw
    simp only [List.length_append] at hi
    have e1 : (d ++ v ++ r).drop i = (v.drop (i - d.length)) ++ r := by
      rw [List.append_assoc, List.drop_append, List.drop_of_length_le (by omega), List.nil_append, List.drop_append_of_le_length (by omega)]
    rw [e1, hw'] at hp
    cases hvd : v.drop (i - d.length) with
    | nil =>
      have := congrArg List.length hvd
      simp at this
      omega
    | cons b l =>
      rw [hvd, List.cons_append, List.cons_prefix_cons] at hp
      apply hs
      have : b ∈ v.drop (i - d.length) := by rw [hvd]; exact List.mem_cons_self
      rw [hp.1]
      exact List.mem_of_mem_drop this

/-- The loop of one keyword. -/
theorem replLoop_spec (w v : Str) (hw : ∃ w', w = '$' :: w' ∧ '$' ∉ w') (hv : v ≠ []) (hl : v.length ≤ w.length) (hd : ∀ c ∈ v, c ∉ w) (hs : '$' ∉ v) :
    ∀ (k : Nat) (t d : Str) (n : Nat) (b : Bool), t.length ≤ k → t.length < n → NoStart w d t →
      replLoop w v n (d ++ t) b = some (d ++ expand [(w, v)] 0 t, b || decide (expand [(w, v)] 0 t ≠ t)) := by
  obtain ⟨w', hw', hd'⟩ := hw
  have hne : w ≠ [] := by rw [hw']; simp
  intro k
  induction k with
  | zero =>
    intro t d n b ht hn h
    have ht0 : t = [] := List.length_eq_zero_iff.1 (by omega)
    subst ht0
    obtain ⟨m, rfl⟩ : ∃ m, n = m + 1 := ⟨n - 1, by simp at hn; omega⟩
    unfold replLoop
    rw [strstr_none w (d ++ []) hne]
    · rw [expand_nil]; simp
    · intro i hi
      by_cases h1 : i < d.length
      · exact h i h1 hi
      · rw [List.drop_of_length_le (by simp; omega)] at hi
        exact hne (List.prefix_nil.1 hi)
  | succ k ih =>
    intro t d n b ht hn h
    cases t with
    | nil => exact ih [] d n b (by simp) hn h
    | cons c t =>
      by_cases hp : w <+: c :: t
      · obtain ⟨r, hr⟩ := hp
        obtain ⟨m, rfl⟩ : ∃ m, n = m + 1 := ⟨n - 1, by omega⟩
        have hlen := congrArg List.length hr
        rw [hw'] at hlen
        simp only [List.length_append, List.length_cons] at hlen ht hn
        rw [← hr] at h ⊢
        have hstep : replLoop w v (m + 1) (d ++ (w ++ r)) b = replLoop w v m ((d ++ v) ++ r) true := by
          conv => lhs; unfold replLoop
          rw [strstr_some w d (w ++ r) h (List.prefix_append _ _)]
          simp only
          rw [if_neg (by omega)]
          congr 1
          rw [List.take_left, ← List.append_assoc, List.drop_append, List.drop_of_length_le (by simp)]
          simp
        rw [hstep]
        have hb' := ih r (d ++ v) m true (by omega) (by omega) (noStart_value w v d r hv hd h hs ⟨w', hw'⟩)
        have hdiff : v ++ expand [(w, v)] 0 r ≠ w ++ r := by
          intro he
          cases v with
          | nil => exact hv rfl
          | cons y v =>
            rw [hw', List.cons_append, List.cons_append] at he
            injection he with he _
            exact hs (he ▸ List.mem_cons_self)
        rw [hb', expand_hit [(w, v)] w v r hne (by simp), List.append_assoc, decide_eq_true hdiff]
        simp
      · have hn2 : NoStart w (d ++ [c]) t := by
          intro i hi hh
          rw [List.append_assoc] at hh
          simp only [List.singleton_append] at hh
          by_cases h1 : i < d.length
          · exact h i h1 hh
          · have : i = d.length := by simp at hi; omega
            rw [this, List.drop_left] at hh
            exact hp hh
        have hb' := ih t (d ++ [c]) n b (by simp at ht; omega) (by simp at hn; omega) hn2
        have e : d ++ c :: t = d ++ [c] ++ t := by simp
        rw [e, hb', expand_miss [(w, v)] c t (by
          rw [List.find?_eq_none]; intro kv hkv; simp at hkv; subst hkv
          simp only; intro hh; exact hp (List.isPrefixOf_iff_prefix.1 hh))]
        simp

/-- Each replacement takes away a `$`. -/
theorem expand_count (kws : List (Str × Str)) (h : Kws kws) : ∀ (k : Nat) (t : Str), t.length ≤ k →
    (expand kws 0 t).count '$' ≤ t.count '$' ∧ ((expand kws 0 t).count '$' = t.count '$' → expand kws 0 t = t) := by
  intro k
  induction k with
  | zero => intro t ht; have e : t = [] := List.length_eq_zero_iff.1 (by omega); subst e; simp [expand_nil]
  | succ k ih =>
    intro t ht
    cases t with
    | nil => simp [expand_nil]
    | cons c t =>
      simp only [List.length_cons] at ht
      cases hf : kws.find? (fun kv => kv.1.isPrefixOf (c :: t)) with
      | some kv =>
        obtain ⟨w, v⟩ := kv
        have hm := List.mem_of_find?_eq_some hf
        have hp := List.find?_some hf
        obtain ⟨r, hr⟩ := List.isPrefixOf_iff_prefix.1 hp
        simp only at hr
        obtain ⟨w', e1, hd⟩ := h.dollar (w, v) hm
        simp only at e1
        have hne : w ≠ [] := by rw [e1]; simp
        have hrl : r.length ≤ k := by
          have := congrArg List.length hr
          rw [e1] at this
          simp at this
          omega
        have h0 : v.count '$' = 0 := List.count_eq_zero.2 (h.value (w, v) hm).2.1
        have h1 : w.count '$' = 1 := by rw [e1, List.count_cons_self, List.count_eq_zero.2 hd]
        rw [← hr] at hf ⊢
        rw [expand_hit kws w v r hne hf, List.count_append, List.count_append, h0, h1]
        have := (ih r hrl).1
        exact ⟨by omega, fun hh => by omega⟩
      | none =>
        rw [expand_miss kws c t hf, List.count_cons, List.count_cons]
        have := ih t (by omega)
        exact ⟨by omega, fun hh => by rw [this.2 (by omega)]⟩

theorem replAll_spec (kws done : List (Str × Str)) (h : Kws (done ++ kws)) (t : Str) (b : Bool) :
    (expand (done ++ kws) 0 t).count '$' ≤ (expand done 0 t).count '$' ∧
    ((expand (done ++ kws) 0 t).count '$' = (expand done 0 t).count '$' → expand (done ++ kws) 0 t = expand done 0 t) ∧
    replAll kws (expand done 0 t) b = some (expand (done ++ kws) 0 t, b || decide (expand (done ++ kws) 0 t ≠ expand done 0 t)) := by
  induction kws generalizing done b with
  | nil => simp [replAll]
  | cons kv kws ih =>
    obtain ⟨w, v⟩ := kv
    have hv := h.value (w, v) (by simp)
    have h1 := replLoop_spec w v (h.dollar (w, v) (by simp)) hv.1 hv.2.2.1 (fun c hc => hv.2.2.2 (w, v) (by simp) c hc) hv.2.1
      _ (expand done 0 t) [] ((expand done 0 t).length + 1) b (Nat.le_refl _) (Nat.lt_succ_self _) (fun i hi => by simp at hi)
    simp only [List.nil_append] at h1
    have hk : Kws (done ++ [(w, v)]) := by
      refine ⟨fun kv hkv => h.dollar kv ?_, fun kv hkv => ?_⟩
      · simp at hkv ⊢; rcases hkv with hkv | hkv <;> simp [hkv]
      · have := h.value kv (by simp at hkv ⊢; rcases hkv with hkv | hkv <;> simp [hkv])
        refine ⟨this.1, this.2.1, this.2.2.1, fun kv' hkv' => this.2.2.2 kv' ?_⟩
        simp at hkv' ⊢; rcases hkv' with hkv' | hkv' <;> simp [hkv']
    have hk1 : Kws [(w, v)] := by
      refine ⟨fun kv hkv => hk.dollar kv (by simp at hkv; simp [hkv]), fun kv hkv => ?_⟩
      have := hk.value kv (by simp at hkv; simp [hkv])
      exact ⟨this.1, this.2.1, this.2.2.1, fun kv' hkv' => this.2.2.2 kv' (by simp at hkv'; simp [hkv'])⟩
    have hc := expand_comp done w v hk _ t (Nat.le_refl _)
    have hcnt := expand_count [(w, v)] hk1 _ (expand done 0 t) (Nat.le_refl _)
    rw [hc] at h1 hcnt
    obtain ⟨i1, i2, i3⟩ := ih (done ++ [(w, v)]) (by rw [List.append_assoc]; exact h) (b || decide (expand (done ++ [(w, v)]) 0 t ≠ expand done 0 t))
    have ea : done ++ [(w, v)] ++ kws = done ++ (w, v) :: kws := by simp
    rw [ea] at i1 i2 i3
    refine ⟨Nat.le_trans i1 hcnt.1, fun he => ?_, ?_⟩
    · rw [i2 (by omega), hcnt.2 (by omega)]
    · unfold replAll
      rw [h1, Option.bind_some]
      simp only
      rw [i3]
      congr 2
      rw [Bool.or_assoc]
      congr 1
      by_cases g1 : expand (done ++ [(w, v)]) 0 t = expand done 0 t
      · rw [g1]; simp
      · rw [decide_eq_true g1, Bool.true_or, Eq.comm, decide_eq_true_iff]
        intro he
        have := congrArg (List.count '$') he
        exact g1 (hcnt.2 (by omega))

end Fio.Sub
