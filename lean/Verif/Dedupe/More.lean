import Verif.Dedupe.Props
import Mathlib.Data.Finset.Card
import Mathlib.Data.Finset.Range
import Mathlib.Data.Finset.Filter
import Mathlib.Order.Interval.Finset.Nat

namespace Fio.Dedupe

open Rand Spec

/-! ## Working set -/

theorem wsLoop_own (bufs : List FRand) (adv perSeed : Nat) (b : FRand) : ∀ (n i t : Nat),
    wsLoop bufs false adv perSeed n (i + 1) t (skip (i * adv) b) =
      some ((List.range' (i + 1) n).map fun k => skip (k * adv) b) := by
  intro n
  induction n with
  | zero => intro i t; rfl
  | succ n ih =>
    intro i t
    rw [wsLoop]
    rw [if_neg (by simp), ← skip_add, show i * adv + adv = (i + 1) * adv by rw [Nat.add_mul, Nat.one_mul],
      ih (i + 1) t, Option.map_some, List.range'_succ, List.map_cons]

/-- The page `i` of a global working set, for the job `t` of `jobs`. -/
def globalPage (jobs perSeed adv t i : Nat) : Nat × Nat := ((t + i / perSeed) % jobs, i % perSeed * adv)

theorem wsLoop_global (bufs : List FRand) (hb : bufs ≠ []) (adv perSeed : Nat) (hp : 0 < perSeed) (t0 : Nat) :
    ∀ (n i : Nat) (b : FRand), bufs[(t0 + i / perSeed) % bufs.length]? = some b →
      ∃ l, wsLoop bufs true adv perSeed n (i + 1) (t0 + i / perSeed) (skip (i % perSeed * adv) b) = some l ∧
        l.length = n ∧ ∀ k < n, ∃ b', bufs[(globalPage bufs.length perSeed adv t0 (i + 1 + k)).1]? = some b' ∧
          l[k]? = some (skip (globalPage bufs.length perSeed adv t0 (i + 1 + k)).2 b') := by
  intro n
  have hlen : 0 < bufs.length := List.length_pos_iff.2 hb
  induction n with
  | zero => intro i b _; exact ⟨[], rfl, rfl, fun k hk => by omega⟩
  | succ n ih =>
    intro i b h
    rw [wsLoop]
    by_cases hm : (i + 1) % perSeed = 0
    · have hdiv : (i + 1) / perSeed = i / perSeed + 1 := by
        rw [Nat.succ_div]
        rw [if_pos (Nat.dvd_of_mod_eq_zero hm)]
      have hlt : (t0 + i / perSeed + 1) % bufs.length < bufs.length := Nat.mod_lt _ hlen
      obtain ⟨b', hb'⟩ : ∃ b', bufs[(t0 + i / perSeed + 1) % bufs.length]? = some b' :=
        ⟨_, List.getElem?_eq_getElem hlt⟩
      rw [if_pos ⟨rfl, hm⟩, hb']
      dsimp only
      obtain ⟨l, hl, hll, hk⟩ := ih (i + 1) b' (by rw [hdiv]; exact hb')
      rw [hdiv, hm, Nat.zero_mul, show skip 0 b' = b' from rfl, ← Nat.add_assoc] at hl
      rw [hl]
      refine ⟨b' :: l, rfl, by simp [hll], ?_⟩
      intro k hkn
      cases k with
      | zero =>
        refine ⟨b', ?_, ?_⟩
        · unfold globalPage; dsimp only; rw [Nat.add_zero, hdiv]; exact hb'
        · unfold globalPage; dsimp only; rw [Nat.add_zero, hm, Nat.zero_mul]; rfl
      | succ k =>
        have := hk k (by omega)
        rw [show i + 1 + (k + 1) = i + 1 + 1 + k by omega]
        exact this
    · have hdiv : (i + 1) / perSeed = i / perSeed := by
        rw [Nat.succ_div, if_neg (fun h => hm (Nat.mod_eq_zero_of_dvd h))]; rfl
      have hmod : (i + 1) % perSeed = i % perSeed + 1 := by
        have h1 := Nat.div_add_mod (i + 1) perSeed
        have h2 := Nat.div_add_mod i perSeed
        rw [hdiv] at h1
        omega
      rw [if_neg (fun h => hm h.2), ← skip_add,
        show i % perSeed * adv + adv = (i + 1) % perSeed * adv by rw [hmod, Nat.add_mul, Nat.one_mul]]
      obtain ⟨l, hl, hll, hk⟩ := ih (i + 1) b (by rw [hdiv]; exact h)
      rw [hdiv] at hl
      rw [hl]
      refine ⟨_ :: l, rfl, by simp [hll], ?_⟩
      intro k hkn
      cases k with
      | zero =>
        refine ⟨b, ?_, ?_⟩
        · unfold globalPage; dsimp only; rw [Nat.add_zero, hdiv]; exact h
        · unfold globalPage; rfl
      | succ k =>
        have := hk k (by omega)
        rw [show i + 1 + (k + 1) = i + 1 + 1 + k by omega]
        exact this

/-- Where the page `i` of the working set of the job `t` comes from: with dedupe_global the pages are
divided evenly among the jobs, starting with the job itself. -/
def page (glob : Bool) (jobs pages perPage t i : Nat) : Nat × Nat :=
  if glob then globalPage jobs (max (pages / jobs) 1) perPage t i else (t, i * perPage)

theorem initWs_eq {c : Cfg} {bufs : List FRand} {t : Nat} (ht : t < bufs.length) (glob : Bool)
    {size wsPerc minBs : Nat} (hm : 0 < minBs) (hn : numUnique size wsPerc minBs ≠ 0) :
    ∃ ws, initWs c bufs t glob size wsPerc minBs = some ws ∧ ws.length = numUnique size wsPerc minBs ∧
      ∀ i < ws.length, ∃ b, bufs[(page glob bufs.length ws.length (minBs / pieceSize minBs c.chunk) t i).1]? = some b ∧
        ws[i]? = some (skip (page glob bufs.length ws.length (minBs / pieceSize minBs c.chunk) t i).2 b) := by
  unfold initWs
  dsimp only
  obtain ⟨n, hne⟩ : ∃ n, n = numUnique size wsPerc minBs := ⟨_, rfl⟩
  rw [← hne, if_neg (by omega), List.getElem?_eq_getElem ht, Option.bind_some, minNotZero_eq hm]
  obtain ⟨b, hb⟩ : ∃ b, b = bufs[t] := ⟨_, rfl⟩
  have hbe : bufs[t]? = some b := by rw [hb]; exact List.getElem?_eq_getElem ht
  rw [← hb]
  obtain ⟨adv, hadv⟩ : ∃ a, a = minBs / pieceSize minBs c.chunk := ⟨_, rfl⟩
  rw [← hadv]
  cases glob with
  | false =>
    have := wsLoop_own bufs adv (max (n / bufs.length) 1) b (n - 1) 0 t
    rw [Nat.zero_mul, show skip 0 b = b from rfl] at this
    rw [this]
    refine ⟨_, rfl, by simp; omega, ?_⟩
    intro i hi
    refine ⟨b, hbe, ?_⟩
    unfold page
    simp only [Bool.false_eq_true, if_false]
    cases i with
    | zero => rw [Nat.zero_mul]; rfl
    | succ i =>
      rw [List.getElem?_cons_succ, List.getElem?_map, List.getElem?_range']
      · simp [Nat.add_comm]
      · simp at hi; omega
  | true =>
    have hne0 : bufs ≠ [] := by intro h; rw [h] at ht; simp at ht
    have hz : (t + 0 / max (n / bufs.length) 1) % bufs.length = t := by
      rw [Nat.zero_div, Nat.add_zero, Nat.mod_eq_of_lt ht]
    obtain ⟨l, hl, hll, hk⟩ := wsLoop_global bufs hne0 adv (max (n / bufs.length) 1) (by omega) t (n - 1) 0 b
      (by rw [hz]; exact hbe)
    rw [Nat.zero_div, Nat.add_zero, Nat.zero_mod, Nat.zero_mul, show skip 0 b = b from rfl, show t + 0 = t from rfl] at hl
    rw [hl]
    refine ⟨_, rfl, by simp; omega, ?_⟩
    intro i hi
    have hlen : (b :: l).length = n := by simp; omega
    rw [hlen] at hi ⊢
    unfold page
    simp only [if_true]
    cases i with
    | zero =>
      refine ⟨b, ?_, ?_⟩
      · unfold globalPage; dsimp only; rw [hz]; exact hbe
      · unfold globalPage; dsimp only; rw [Nat.zero_mod, Nat.zero_mul]; rfl
    | succ i =>
      have := hk i (by omega)
      rw [show 0 + 1 + i = i + 1 by omega] at this
      exact this

/-- C78: with a working set, a repeated buffer has the content of the page drawn: with blocks of the
smallest size, that is the content of a buffer that the job (with dedupe_global, one of the jobs) writes
without repeating. The size of the pieces must divide the smallest block size. -/
theorem C78_working_set_partial {c : Cfg} (hc : Ok c) (hd0 : c.dedupe ≠ 0) (hd : c.dedupe < 100)
    (hws : c.workSet = true) {bufs : List FRand} {t : Nat} {b : FRand} (hb : bufs[t]? = some b) (glob : Bool)
    {size wsPerc minBs : Nat} (hm : 0 < minBs) (hn : numUnique size wsPerc minBs ≠ 0)
    (hdiv : pieceSize minBs c.chunk ∣ minBs) :
    ∃ ws, initWs c bufs t glob size wsPerc minBs = some ws ∧ ∀ (s : St), s.buf = b → s.prev = b → s.ws = ws →
      ∀ l : List (Nat × Nat × Nat), (∀ x ∈ l, 0 < x.1 ∧ x.1 < 2 ^ 32 ∧ x.2.1 < 2 ^ 32 ∧
          x.2.2 < numUnique size wsPerc minBs) →
        fills c minBs s l = some (List.zipWith (fun x q =>
          buffer c.nb c.compress c.pattern (jobSeed bufs q.1) (pieceSize minBs c.chunk) x.1 q.2) l
        (sources c.dedupe (some (page glob bufs.length (numUnique size wsPerc minBs)
          (pieces (pieceSize minBs c.chunk) minBs) t)) (pieceSize minBs c.chunk) t 0 l)) := by
  have ht : t < bufs.length := by
    by_contra h
    rw [List.getElem?_eq_none (by omega)] at hb; cases hb
  obtain ⟨ws, hw, hwl, hk⟩ := initWs_eq (c := c) ht glob hm hn
  refine ⟨ws, hw, ?_⟩
  intro s h1 h2 h3 l hl
  have hpp : pieces (pieceSize minBs c.chunk) minBs = minBs / pieceSize minBs c.chunk := by
    have hw0 := pieceSize_pos (chunk := c.chunk) hm
    obtain ⟨q, hq⟩ := hdiv
    unfold pieces
    generalize pieceSize minBs c.chunk = w at *
    rw [hq, Nat.mul_div_cancel_left _ hw0, show w * q + w - 1 = (w - 1) + w * q by omega,
      Nat.add_mul_div_left _ _ hw0, Nat.div_eq_of_lt (by omega), Nat.zero_add]
  rw [hpp, ← hwl]
  rw [← hwl] at hl
  refine fills_eq hc (.inr hd0) hd hm bufs _ hb l s 0 h1 h2 ?_
  intro x hx
  obtain ⟨a1, a2, a3, a4⟩ := hl x hx
  refine ⟨a1, a2, a3, hws, ?_⟩
  rw [h3]
  exact hk _ a4

/-! ## All buffers the same -/

theorem chunkLoop_same {c : Cfg} (hc : Ok c) (hd : c.dedupe = 100) {w0 : Nat} (hw : 0 < w0) :
    ∀ (fuel m left : Nat) (s : St), s.prev = s.buf → 0 < left → left ≤ fuel → left < 2 ^ 32 → 0 < m →
      (∀ x ≤ left, min (pieceSize m c.chunk) x = min w0 x) →
      chunkLoop c .buf fuel m left s = some (s,
        buffer c.nb c.compress c.pattern (fun _ => seedAt s.buf 0) w0 left 0) := by
  intro fuel
  induction fuel with
  | zero => intro m left s _ h1 h2; omega
  | succ fuel ih =>
    intro m left s hpb h1 h2 h3 h4 h5
    rw [chunkLoop]
    dsimp only
    have hm : 0 < min m left := by omega
    have hp : pieceSize (min m left) c.chunk = min w0 left := by
      have := h5 left (Nat.le_refl _)
      rw [← this]
      unfold pieceSize; split <;> omega
    rw [minNotZero_eq hm, hp]
    obtain ⟨b, e, hl, hb⟩ := fillPercent_some c.nb (nextSeed s.buf).1 c.compress (min w0 left) c.pattern
      hc.1 hc.2.1 (nextSeed_lt _) hc.2.2 (by omega)
    rw [show s.get .buf = s.buf from rfl, e]
    dsimp only
    have hsave : saveBufState c (s.set .buf (nextSeed s.buf).2) .buf = s := by
      unfold saveBufState
      rw [if_pos hd]
      obtain ⟨x, y, z, u⟩ := s
      have : y = x := hpb
      subst this
      rfl
    rw [hsave]
    by_cases hlast : left ≤ w0
    · have e2 : min w0 left = left := by omega
      rw [e2, wrap_sub (Nat.le_refl _) h3, if_pos (Nat.sub_self _)]
      rw [e2] at hl hb
      congr 2
      exact buffer_last _ _ _ (fun _ => seedAt s.buf 0) 0 hlast b hl hb
    · have e2 : min w0 left = w0 := by omega
      rw [e2, wrap_sub (show w0 ≤ left by omega) h3, if_neg (show ¬ left - w0 = 0 by omega)]
      rw [ih (min m left) (left - w0) s hpb (show 0 < left - w0 by omega)
        (show left - w0 ≤ fuel by omega) (show left - w0 < 2 ^ 32 by omega) hm (by
        intro x _
        rw [hp, e2])]
      rw [e2] at hl hb
      rw [Option.map_some]
      congr 2
      exact buffer_step _ _ _ (fun _ => seedAt s.buf 0) 0 hw (show w0 < left by omega) b hl hb

/-- C78: with dedupe_percentage=100, all pieces of all buffers are the same. -/
theorem C78_hundred {c : Cfg} (hc : Ok c) (hd : c.dedupe = 100) {minBs : Nat} (hm : 0 < minBs) :
    ∀ (l : List (Nat × Nat × Nat)) (s : St), (∀ x ∈ l, 0 < x.1 ∧ x.1 < 2 ^ 32) →
      fills c minBs s l = some (l.map fun x =>
        buffer c.nb c.compress c.pattern (fun _ => seedAt s.buf 0) (pieceSize minBs c.chunk) x.1 0) := by
  intro l
  induction l with
  | nil => intro s _; rfl
  | cons x l ih =>
    intro s hl
    obtain ⟨n, r, i⟩ := x
    obtain ⟨hn, hn2⟩ := hl (n, r, i) (by simp)
    rw [fills]
    unfold fillIo getBufState
    rw [if_pos (.inr (by omega)), if_neg (by omega), if_pos hd, Option.bind_some]
    dsimp only
    rw [chunkLoop_same hc hd (pieceSize_pos hm) n minBs n { s with prev := s.buf } rfl hn (Nat.le_refl _) hn2 hm
      pieceSize_hyp, Option.bind_some]
    dsimp only
    rw [ih _ (fun x hx => hl x (List.mem_cons_of_mem _ hx))]
    rfl

/-! ## The share of repeated buffers, and buffers that differ -/

/-- C78: of all 32-bit random numbers, as many ask for a repeated buffer as the percentage says, up to one. -/
theorem C78_share {p : Nat} (hp : p ≤ 100) :
    100 * ((Finset.range (2 ^ 32)).filter fun r => draw100 r ≤ p).card < p * 2 ^ 32 + 100 ∧
    p * 2 ^ 32 ≤ 100 * ((Finset.range (2 ^ 32)).filter fun r => draw100 r ≤ p).card := by
  have e : (Finset.range (2 ^ 32)).filter (fun r => draw100 r ≤ p) = Finset.range ((p * 2 ^ 32 + 99) / 100) := by
    ext r
    rw [Finset.mem_filter, Finset.mem_range, Finset.mem_range]
    constructor
    · rintro ⟨h1, h2⟩
      rw [draw_iff h1] at h2
      unfold repeats at h2
      omega
    · intro h
      have h1 : r < 2 ^ 32 := by omega
      refine ⟨h1, (draw_iff h1).2 ?_⟩
      unfold repeats
      omega
  rw [e, Finset.card_range]
  omega

/-- C78: buffers made from different seeds differ, if the random part of the first piece has 8 bytes. -/
theorem C78_distinct {nb perc : Nat} {pattern : List Byte} {S S' : Nat → Nat} {w n pos pos' : Nat} (h0 : 0 < nb)
    (hs : S pos < 2 ^ 64) (hs' : S' pos' < 2 ^ 64) (hne : S pos ≠ S' pos')
    (h8 : 800 ≤ min w n * (100 - perc)) :
    buffer nb perc pattern S w n pos ≠ buffer nb perc pattern S' w n pos' := by
  intro h
  apply hne
  have ha : 8 ≤ min w n * (100 - perc) / 100 := by omega
  have hle : min w n * (100 - perc) / 100 ≤ min w n := by
    apply Nat.div_le_of_le_mul
    rw [Nat.mul_comm]
    exact Nat.mul_le_mul_right _ (by omega)
  have hword : ∀ (S : Nat → Nat) (pos : Nat), S pos < 2 ^ 64 →
      fromLe ((buffer nb perc pattern S w n pos).take 8) = S pos := by
    intro S pos hs
    have e : (buffer nb perc pattern S w n pos).take 8 = le 8 (S pos) := by
      apply List.ext_getElem?
      intro j
      by_cases hj : j < 8
      · rw [List.getElem?_take_of_lt hj, le_get _ _ _ hj]
        unfold buffer
        rw [List.getElem?_map, List.getElem?_range (by omega)]
        unfold bufByte
        rw [Option.map_some, Nat.div_eq_of_lt (show j < w by omega), Nat.mod_eq_of_lt (show j < w by omega),
          Nat.zero_mul, Nat.sub_zero, Nat.add_zero]
        unfold pieceByte
        dsimp only
        rw [if_pos (by omega)]
        unfold randomByte word
        dsimp only
        rw [Nat.div_eq_of_lt hj, Nat.mod_eq_of_lt hj]
        have h64 : S pos % 2 ^ 64 = S pos := Nat.mod_eq_of_lt hs
        obtain ⟨q, hq⟩ : ∃ q, q = min w n * (100 - perc) / 100 / (8 * nb) := ⟨_, rfl⟩
        rw [← hq]
        by_cases hq0 : 0 < q * nb
        · rw [if_pos hq0, Nat.zero_mod, Nat.zero_div, Nat.pow_zero, show factor.getD 0 0 = 1 from rfl, Nat.mul_one,
            Nat.mul_one, h64]
        · rw [if_neg hq0]
          have : q = 0 := by
            rcases Nat.eq_zero_or_pos q with h | h
            · exact h
            · exact absurd (Nat.mul_pos h h0) hq0
          rw [this, Nat.zero_mul, Nat.pow_zero, Nat.mul_one, h64]
      · rw [List.getElem?_eq_none (by rw [List.length_take]; omega),
          List.getElem?_eq_none (by rw [le_length]; omega)]
    rw [e, fromLe_le, Nat.mod_eq_of_lt (by exact hs)]
  rw [← hword S pos hs, ← hword S' pos' hs', h]

end Fio.Dedupe
