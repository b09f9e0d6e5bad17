import Verif.Vsync.Spec

namespace Fio.Vsync

/-- Each unit starts where the one before ends. -/
def Contig : List U → Nat → Nat → Prop
  | [], a, b => a = b
  | u :: us, a, b => u.off = a ∧ Contig us (a + u.len) b

theorem Contig_append (v : List U) (u : U) : ∀ a b, Contig v a b → u.off = b → Contig (v ++ [u]) a (b + u.len) := by
  induction v with
  | nil => intro a b h hu; exact ⟨by rw [hu]; exact h.symm, by show a + u.len = b + u.len; rw [show a = b from h]⟩
  | cons w v ih => intro a b h hu; exact ⟨h.1, ih _ _ h.2 hu⟩

theorem total_append (v : List U) (u : U) : total (v ++ [u]) = total v + u.len := by
  induction v with
  | nil => simp [total]
  | cons w v ih => simp [total, ih]; omega

/-- A short transfer attributed to the units in order. -/
def dist : List U → Nat → List U
  | [], _ => []
  | u :: us, k => { u with resid := u.len - min k u.len, err := 0 } :: dist us (k - min k u.len)

theorem dist_length (v : List U) : ∀ k, (dist v k).length = v.length := by
  induction v with
  | nil => intro k; rfl
  | cons u v ih => intro k; simp [dist, ih]

theorem endLoop_eq (v : List U) : ∀ k, k < 2 ^ 32 → endLoop v k = dist v k := by
  induction v with
  | nil => intro k _; rfl
  | cons u v ih =>
    intro k hk
    have h1 : k % 2 ^ 32 = k := Nat.mod_eq_of_lt hk
    have h2 : (if k > u.len then u.len else k) = min k u.len := by split <;> omega
    unfold endLoop dist
    dsimp only
    rw [h1, h2, ih _ (by omega)]

theorem dist_total (v : List U) : (∀ u ∈ v, u.resid = 0 ∧ u.err = 0) → dist v (total v) = v := by
  induction v with
  | nil => intro _; rfl
  | cons u v ih =>
    intro h
    have hu := h u (List.mem_cons_self ..)
    unfold dist
    have h1 : min (total (u :: v)) u.len = u.len := by simp [total]
    have h2 : total (u :: v) - u.len = total v := by simp [total]
    rw [h1, h2, ih fun w hw => h w (List.mem_cons_of_mem _ hw)]
    cases u; simp at hu; simp [hu]

theorem endUnits_ok (v : List U) (qb k : Nat) (hk : k < 2 ^ 32) (hkt : k ≤ total v) (hq : total v ≤ qb)
    (h : ∀ u ∈ v, u.resid = 0 ∧ u.err = 0) : endUnits v qb (.ok k) = dist v k := by
  unfold endUnits
  dsimp only
  split
  · rename_i he
    have : k = total v := by omega
    rw [this, dist_total v h]
  · exact endLoop_eq v k hk

theorem dist_plain (v : List U) : ∀ k, (dist v k).map plain = v.map plain := by
  induction v with
  | nil => intro k; rfl
  | cons u v ih => intro k; simp [dist, ih, plain]

theorem dist_mem (v : List U) : ∀ k u', u' ∈ dist v k → ∃ u ∈ v, u'.file = u.file ∧ u'.dir = u.dir ∧ u'.err = 0 := by
  induction v with
  | nil => intro k u' h; simp [dist] at h
  | cons u v ih =>
    intro k u' h
    rcases List.mem_cons.1 h with h | h
    · exact ⟨u, List.mem_cons_self .., by rw [h], by rw [h], by rw [h]⟩
    · obtain ⟨w, hw, h⟩ := ih _ _ h
      exact ⟨w, List.mem_cons_of_mem _ hw, h⟩

theorem dist_sum (v : List U) : ∀ k, k ≤ total v → ((dist v k).map moved).sum = k := by
  induction v with
  | nil => intro k h; simp [total] at h; simp [dist, h]
  | cons u v ih =>
    intro k h
    simp only [total] at h
    simp only [dist, List.map_cons, List.sum_cons]
    rw [ih _ (by omega)]
    show (u.len - (u.len - min k u.len)) + (k - min k u.len) = k
    omega

def ents (v : List U) : List (Nat × Nat) := v.map fun u => (u.id, u.len)

/-- What a unit reports as moved was moved, from its own buffer at its own place. -/
theorem dist_served (v : List U) : ∀ a b k, Contig v a b → ∀ u ∈ dist v k, ∀ i, i < u.len - u.resid →
    a ≤ u.off ∧ u.off + i - a < k ∧ locate (ents v) (u.off + i - a) = some (u.id, i) := by
  induction v with
  | nil => intro a b k _ u h; simp [dist] at h
  | cons w v ih =>
    intro a b k hc u hu i hi
    obtain ⟨h0, hc⟩ := hc
    rcases List.mem_cons.1 hu with hu | hu
    · subst hu
      simp only at hi ⊢
      have e : w.off + i - a = i := by omega
      rw [e]
      refine ⟨by omega, by omega, ?_⟩
      show locate ((w.id, w.len) :: ents v) i = _
      unfold locate
      rw [if_pos (by omega)]
    · obtain ⟨h1, h2, h3⟩ := ih _ _ _ hc u hu i hi
      refine ⟨by omega, by omega, ?_⟩
      show locate ((w.id, w.len) :: ents v) _ = _
      unfold locate
      rw [if_neg (by omega)]
      have : u.off + i - a - w.len = u.off + i - (a + w.len) := by omega
      rw [this]; exact h3

/-- And every byte moved is reported. -/
theorem dist_pure (v : List U) : ∀ a b k, Contig v a b → k ≤ total v → ∀ q, q < k →
    ∃ u ∈ dist v k, ∃ i, locate (ents v) q = some (u.id, i) ∧ a + q = u.off + i ∧ i < u.len - u.resid := by
  induction v with
  | nil => intro a b k _ h q hq; simp [total] at h; omega
  | cons w v ih =>
    intro a b k hc hk q hq
    obtain ⟨h0, hc⟩ := hc
    simp only [total] at hk
    by_cases hlt : q < w.len
    · refine ⟨_, List.mem_cons_self .., q, ?_, ?_, ?_⟩
      · show locate ((w.id, w.len) :: ents v) q = _
        unfold locate
        rw [if_pos hlt]
      · show a + q = w.off + q; omega
      · show q < w.len - (w.len - min k w.len); omega
    · obtain ⟨u, hu, i, h1, h2, h3⟩ := ih _ _ (k - min k w.len) hc (by omega) (q - w.len) (by omega)
      refine ⟨u, List.mem_cons_of_mem _ hu, i, ?_, by omega, h3⟩
      show locate ((w.id, w.len) :: ents v) q = _
      unfold locate
      rw [if_neg hlt]; exact h1

theorem slots_length (n : Nat) : ∀ l v, slots l n = some v → v.length = n := by
  induction n with
  | zero => intro l v h; simp [slots] at h; simp [← h]
  | succ n ih =>
    intro l v h
    cases l with
    | nil => simp [slots] at h
    | cons x l =>
      cases x with
      | none => simp [slots] at h
      | some u =>
        simp [slots] at h
        obtain ⟨w, hw, rfl⟩ := h
        simp [ih _ _ hw]

theorem slots_set (n : Nat) (u : U) : ∀ l v, slots l n = some v → n < l.length →
    slots (l.set n (some u)) (n + 1) = some (v ++ [u]) := by
  induction n with
  | zero =>
    intro l v h hl
    simp [slots] at h
    subst h
    cases l with
    | nil => simp at hl
    | cons x l => simp [slots]
  | succ n ih =>
    intro l v h hl
    cases l with
    | nil => simp at hl
    | cons x l =>
      cases x with
      | none => simp [slots] at h
      | some w =>
        simp only [slots, Option.map_eq_some_iff] at h
        obtain ⟨v', hv', rfl⟩ := h
        have := ih l v' hv' (by simpa using hl)
        show slots (some w :: l.set n (some u)) (n + 1 + 1) = _
        rw [slots, this]; rfl

theorem slots_putBack (us : List U) (l : List (Option U)) : slots (putBack l us) us.length = some us := by
  unfold putBack
  generalize l.drop us.length = r
  induction us with
  | nil => simp [slots]
  | cons u us ih => simp [slots]; simpa using ih

/-- The state of the engine while units `v` are queued: adjacent, of one file and direction. -/
structure SdInv (depth : Nat) (sd : SD) (v : List U) : Prop where
  len : sd.ious.length = depth
  ev : sd.events = 0
  q : sd.queued = v.length
  sl : slots sd.ious sd.queued = some v
  adj : ∀ u v', v = u :: v' → ∃ e, sd.lastOff = some e ∧ Contig v u.off e
  fd : ∀ u ∈ v, sd.lastFile = some u.file ∧ sd.lastDir = u.dir
  qb : total v ≤ sd.qbytes
  fresh : ∀ u ∈ v, u.resid = 0 ∧ u.err = 0
  dirs : ∀ u ∈ v, u.dir = .read ∨ u.dir = .write

theorem SdInv_init (depth : Nat) : SdInv depth (sdInit depth) [] := by
  constructor <;> simp [sdInit, slots, total]

/-- Queueing a read or write: taken as the last one, or refused because units that do not fit are queued. -/
theorem queue_inv {depth : Nat} {sd : SD} {v : List U} (h : SdInv depth sd v) (hv : v.length < depth) (u : U)
    (hu : u.dir = .read ∨ u.dir = .write) (hf : u.resid = 0 ∧ u.err = 0) (r : Res) :
    (∃ sd', queue depth sd u r = some (sd', u, .queued) ∧ SdInv depth sd' (v ++ [u])) ∨
    (queue depth sd u r = some (sd, u, .busy) ∧ v ≠ []) := by
  have hns : u.dir ≠ .sync := by rcases hu with hu | hu <;> rw [hu] <;> simp
  have hq := h.q
  by_cases ha : append sd u = true
  · left
    have ha' : sd.lastOff = some u.off ∧ sd.lastFile = some u.file ∧ sd.lastDir = u.dir := by
      unfold append at ha; rw [if_neg hns] at ha; simpa using ha
    have hset : setIov sd u sd.queued = some
      { sd with
        ious := sd.ious.set sd.queued (some u)
        lastOff := some (u.off + u.len)
        lastFile := some u.file
        lastDir := u.dir
        qbytes := sd.qbytes + u.len
        queued := sd.queued + 1 } := by
      unfold setIov; rw [if_pos (by rw [h.len]; omega)]
    refine ⟨{ sd with
        ious := sd.ious.set sd.queued (some u)
        lastOff := some (u.off + u.len)
        lastFile := some u.file
        lastDir := u.dir
        qbytes := sd.qbytes + u.len
        queued := sd.queued + 1 }, ?_, ?_⟩
    · unfold queue
      rw [if_neg (by rw [ha]; simp), if_neg (by omega), hset]
      rfl
    · constructor
      · simp [h.len]
      · exact h.ev
      · simp [hq]
      · exact slots_set _ u _ _ h.sl (by rw [h.len]; omega)
      · intro w v' hw
        refine ⟨_, rfl, ?_⟩
        cases v with
        | nil =>
          simp only [List.nil_append, List.cons.injEq] at hw
          rw [hw.1]
          exact ⟨rfl, rfl⟩
        | cons x v =>
          obtain ⟨e, he, hc⟩ := h.adj x v rfl
          simp only [List.cons_append, List.cons.injEq] at hw
          rw [← hw.1]
          have he' : e = u.off := by rw [he] at ha'; exact Option.some.inj ha'.1
          have := Contig_append (x :: v) u x.off e hc he'.symm
          rw [he'] at this
          exact this
      · intro w hw
        rcases List.mem_append.1 hw with hw | hw
        · have := h.fd w hw
          exact ⟨by rw [← this.1]; exact ha'.2.1.symm, by rw [← this.2]; exact ha'.2.2.symm⟩
        · simp at hw; subst hw; exact ⟨rfl, rfl⟩
      · show total (v ++ [u]) ≤ sd.qbytes + u.len
        rw [total_append]; have := h.qb; omega
      · intro w hw
        rcases List.mem_append.1 hw with hw | hw
        · exact h.fresh w hw
        · simp at hw; subst hw; exact hf
      · intro w hw
        rcases List.mem_append.1 hw with hw | hw
        · exact h.dirs w hw
        · simp at hw; subst hw; exact hu
  · have ha : append sd u = false := by simpa using ha
    cases v with
    | cons x v =>
      right
      refine ⟨?_, by simp⟩
      unfold queue
      rw [if_pos ha, if_pos (by rw [hq]; simp)]
    | nil =>
      left
      have hq0 : sd.queued = 0 := by rw [hq]; rfl
      have hl0 : 0 < sd.ious.length := by rw [h.len]; simpa using hv
      refine ⟨{ sd with
        ious := sd.ious.set 0 (some u)
        lastOff := some (u.off + u.len)
        lastFile := some u.file
        lastDir := u.dir
        qbytes := 0 + u.len
        queued := 0 + 1 }, ?_, ?_⟩
      · unfold queue
        rw [if_pos ha, if_neg (by omega), if_neg hns]
        unfold setIov
        dsimp only
        rw [if_pos hl0]; rfl
      · constructor
        · simp [h.len]
        · exact h.ev
        · simp
        · exact slots_set 0 u _ [] (by simp [slots]) hl0
        · intro w v' hw
          simp only [List.nil_append, List.cons.injEq] at hw
          refine ⟨_, rfl, ?_⟩
          rw [hw.1]; exact ⟨rfl, rfl⟩
        · intro w hw; simp at hw; subst hw; exact ⟨rfl, rfl⟩
        · simp [total]
        · intro w hw; simp at hw; subst hw; exact hf
        · intro w hw; simp at hw; subst hw; exact hu

/-- The bytes of a call over adjacent units, attributed by `dist`. -/
theorem call_ok (v : List U) (a b k : Nat) (f : Nat) (w : Bool) (hc : Contig v a b) (hk : k ≤ total v)
    (hfile : ∀ u ∈ v, u.file = f) (hdir : ∀ u ∈ v, (u.dir = .read ∧ w = false) ∨ (u.dir = .write ∧ w = true)) :
    (∀ u ∈ dist v k, Served ⟨w, f, a, k, ents v⟩ u) ∧ Pure ⟨w, f, a, k, ents v⟩ (dist v k) := by
  constructor
  · intro u hu
    obtain ⟨u0, hu0, hf, hd, _⟩ := dist_mem v k u hu
    have h1 := hdir u0 hu0
    refine ⟨by rw [hf]; exact (hfile u0 hu0).symm, ?_, ?_, ?_⟩
    · show w = true ↔ _
      rw [hd]; rcases h1 with ⟨h1, h2⟩ | ⟨h1, h2⟩ <;> simp [h1, h2]
    · show w = false ↔ _
      rw [hd]; rcases h1 with ⟨h1, h2⟩ | ⟨h1, h2⟩ <;> simp [h1, h2]
    · intro i hi
      obtain ⟨h1, h2, h3⟩ := dist_served v a b k hc u hu i hi
      unfold byteAt
      dsimp only
      rw [if_pos (by omega)]; exact h3
  · intro p x hx
    unfold byteAt at hx
    dsimp only at hx
    split at hx
    · rename_i hp
      obtain ⟨u, hu, i, h1, h2, h3⟩ := dist_pure v a b k hc hk (p - a) (by omega)
      rw [hx] at h1
      have := Option.some.inj h1
      subst this
      obtain ⟨u0, hu0, hf, _⟩ := dist_mem v k u hu
      exact ⟨u, hu, rfl, by rw [hf]; exact hfile u0 hu0, by show p = u.off + i; omega, h3⟩
    · cases hx

/-- The commit of queued units when the kernel does not fail. -/
theorem commit_ok {depth : Nat} {sd : SD} {v : List U} (h : SdInv depth sd v) (hne : v ≠ []) (n : Nat)
    (hn : n < 2 ^ 32) (hvd : v.length ≤ depth) :
    ∃ sd' c us, commit sd (.ok n) = some (sd', some c, false) ∧ us.map plain = v.map plain ∧
      (∀ u ∈ us, Served c u ∧ u.err = 0) ∧ Pure c us ∧ (us.map moved).sum = c.got ∧ c.got = min n (total v) ∧
      sd'.events = v.length ∧ sd'.queued = 0 ∧ slots sd'.ious v.length = some us ∧ sd'.ious.length = depth ∧
      us.length = v.length := by
  cases v with
  | nil => exact absurd rfl hne
  | cons u0 v' =>
    obtain ⟨e, he, hc⟩ := h.adj u0 v' rfl
    have hfd := h.fd u0 (List.mem_cons_self ..)
    have hk : min n (total (u0 :: v')) ≤ total (u0 :: v') := Nat.min_le_right _ _
    generalize hkk : min n (total (u0 :: v')) = k at hk
    have hk32 : k < 2 ^ 32 := by omega
    have hE := endUnits_ok (u0 :: v') sd.qbytes k hk32 hk h.qb h.fresh
    have hdl : (dist (u0 :: v') k).length = (u0 :: v').length := dist_length _ _
    have hcall := call_ok (u0 :: v') u0.off e k u0.file (decide (sd.lastDir ≠ .read)) hc hk
      (fun u hu => by have := (h.fd u hu).1; rw [hfd.1] at this; exact (Option.some.inj this).symm)
      (fun u hu => by
        have h1 := (h.fd u hu).2
        rcases h.dirs u hu with hd | hd
        · left; refine ⟨hd, ?_⟩; rw [h1, hd]; simp
        · right; refine ⟨hd, ?_⟩; rw [h1, hd]; simp)
    have hq : sd.queued = (u0 :: v').length := h.q
    refine ⟨{ sd with ious := putBack sd.ious (dist (u0 :: v') k), events := sd.queued, queued := 0 },
      ⟨decide (sd.lastDir ≠ .read), u0.file, u0.off, k, ents (u0 :: v')⟩, dist (u0 :: v') k, ?_, dist_plain _ _, ?_, hcall.2, dist_sum _ _ hk, ?_, ?_, ?_, ?_, ?_, hdl⟩
    · unfold commit
      rw [if_neg (by rw [hq]; simp), h.sl, hfd.1]
      dsimp only [cap]
      rw [hkk, hE]
      rfl
    · intro u hu
      exact ⟨hcall.1 u hu, (dist_mem _ _ u hu).choose_spec.2.2.2⟩
    · rfl
    · exact hq
    · rfl
    · have := slots_putBack (dist (u0 :: v') k) sd.ious
      rw [hdl] at this; exact this
    · show (putBack sd.ious (dist (u0 :: v') k)).length = depth
      unfold putBack
      simp only [List.length_append, List.length_map, List.length_drop, hdl, h.len]
      simp only [List.length_cons] at hvd ⊢
      omega

end Fio.Vsync
