import Verif.Spr.Props
/-!
# Cases for C88
-/

namespace Fio.Spr

open Spec

/-- Three regions of three writes; half, a quarter and a tenth are drawn. -/
def exC : Cfg := { cache := false, num := 3, rwc := 3, pct := [5000, 2500, 1000] }

/-- The same with a cache. -/
def exD : Cfg := { exC with cache := true }

def exL : List Nat := [7, 3, 6, 1, 5, 2]

def exV : List Nat := [4000, 9000, 3000, 9999, 2000, 5000, 5000, 5000, 5000]

/-! ## What is meant to happen -/

/-- Of the first region blocks 7 and 6 are written again in the second, and 7 again in the third. -/
theorem C88_case :
    (run exC (init exC 4 exL) exV).1 =
      [⟨7, true, true, 0⟩, ⟨3, true, false, 0⟩, ⟨6, true, true, 0⟩, ⟨1, true, false, 1⟩, ⟨7, false, true, 1⟩, ⟨6, false, false, 1⟩,
        ⟨5, true, false, 2⟩, ⟨7, false, false, 2⟩, ⟨2, true, false, 2⟩] := by decide +kernel

/-- With a cache they are written at the end of the region. -/
theorem C88_case_cache :
    (run exD (init exD 4 exL) exV).1 =
      [⟨7, true, true, 0⟩, ⟨3, true, false, 0⟩, ⟨6, true, true, 0⟩, ⟨1, true, false, 1⟩, ⟨7, false, true, 1⟩, ⟨6, false, false, 1⟩,
        ⟨5, true, false, 2⟩, ⟨2, true, false, 2⟩, ⟨7, false, false, 2⟩] := by decide +kernel

/-- A ring with room for two. -/
example : ring (Ring.new 3) [.push 1, .pop, .push 2, .push 3, .commit, .pop, .push 4, .pop, .pop, .commit, .pop] =
    some [.pushed, .empty, .pushed, .full, .committed, .got 1, .pushed, .got 2, .empty, .committed, .got 4] := by decide +kernel

/-- The hypotheses of `C88_order` and `C88_all_written` can be met: here the calls come to the end. -/
example : 0 < exC.num ∧ exC.pct.length ≤ exC.num ∧ (∃ s, (run exC (init exC 4 exL) (exV ++ [0])).2 = .done s) ∧
    firsts (run exC (init exC 4 exL) (exV ++ [0])).1 = exL := by
  refine ⟨by decide, by decide, ⟨_, rfl⟩, by decide +kernel⟩

/-- A way to check `notAll`. -/
theorem notAll_iff (rwc : Nat) (os : List Out) (R : Nat) (hR : ∀ o ∈ os, o.region ≤ R) (h0 : 0 < rwc)
    (h : ∀ n ≤ os.length, ∀ r ≤ R, cntIn (os.take n) r = rwc → selIn (os.take n) r < rwc) : notAll rwc os := by
  intro p hp r hc
  by_cases hr : r ≤ R
  · have e := List.prefix_iff_eq_take.1 hp
    have := h p.length hp.length_le r hr
    rw [← e] at this
    exact this hc
  · exfalso
    have : cntIn p r = 0 := by
      unfold cntIn
      rw [List.length_eq_zero_iff, List.filter_eq_nil_iff]
      intro o ho
      have := hR o (hp.subset ho)
      simp
      omega
    omega

/-- Those of `C88_regions_partial` and `C88_no_failure_partial`. -/
example : notAll exC.rwc (run exC (init exC 4 exL) exV).1 ∧ exV.length ≤ exC.num * exC.rwc ∧ exC.rwc + 1 ≤ 4 ∧ exC.pct.length = exC.num :=
  ⟨notAll_iff _ _ 2 (by decide +kernel) (by decide) (by decide +kernel), by decide, by decide, by decide⟩

/-! ## What happens besides -/

/-- **C88.**  False as stated: the region is compared with the number of regions before it is counted up (/repo/sprandom.c:771, 781), so
if there are still new blocks after the last region one more is begun, and its share is read past the end of the array
(/repo/sprandom.c:693). -/
theorem C88_past_last_region_counterexample :
    ∃ (c : Cfg) (L vs : List Nat) (cap : Nat), c.pct.length = c.num ∧ c.rwc + 1 ≤ cap ∧ notAll c.rwc (run c (init c cap L) vs).1 ∧
      vs.length = c.num * c.rwc + 1 ∧ (run c (init c cap L) vs).2 = .crash :=
  ⟨exC, exL ++ [9, 8], exV ++ [5000], 4, by decide, by decide, notAll_iff _ _ 2 (by decide +kernel) (by decide) (by decide +kernel), by decide,
    by decide +kernel⟩

/-- **C88.**  False as stated: if all writes of a region are drawn, the next region begins with a new block although none is due, and has
one write too many. -/
theorem C88_write_too_many_counterexample :
    ∃ (c : Cfg) (L vs : List Nat) (cap : Nat), c.pct.length = c.num ∧ c.rwc + 2 ≤ cap ∧
      (∃ o ∈ (run c (init c cap L) vs).1, 1 < o.region) ∧ cntIn (run c (init c cap L) vs).1 1 = c.rwc + 1 :=
  ⟨exC, List.range 10, [0, 0, 0, 9999, 9999, 9999, 9999, 9999], 5, by decide, by decide, by decide +kernel, by decide +kernel⟩

/-- **C88.**  And if these are all drawn too, the writes that remain in the region after it are computed to nearly 2^64: it is not left any
more. -/
theorem C88_wrap_counterexample :
    ∃ (c : Cfg) (L vs : List Nat) (cap : Nat) (s : St), c.pct.length = c.num ∧ (run c (init c cap L) vs).2 = .more s ∧ s.region = 2 ∧
      c.rwc = 1 ∧ s.remaining = 2 ^ 64 - 2 :=
  ⟨{ exC with rwc := 1 }, List.range 10, [0, 0, 0, 9999], 5, _, by decide, rfl, by decide +kernel, by decide, by decide +kernel⟩

/-- **C88.**  False as stated: the ring is sized by an estimate, not by the largest number that can be drawn; if more are drawn, fio stops in
`assert(false)` (/repo/sprandom.c:699). -/
theorem C88_ring_full_counterexample :
    ∃ (c : Cfg) (L vs : List Nat) (cap : Nat), 0 < cap ∧ c.pct.length = c.num ∧ vs.length ≤ c.rwc ∧ (run c (init c cap L) vs).2 = .crash :=
  ⟨exC, exL, [0, 0, 0], 3, by decide, by decide, by decide, by decide +kernel⟩

/-- **C88.**  With one region the share is 0 and the estimate is that the ring needs 0 places (/repo/sprandom.c:553-557): `capacity - 1`
wraps, there seems to be space, and the first write drawn divides by zero (/repo/pcbuf.h:96).  A write is drawn even with share 0, because
the draw can be 0 (/repo/sprandom.c:691, 693). -/
theorem C88_one_region_counterexample :
    ∃ (c : Cfg) (L : List Nat), c.num = 1 ∧ c.pct = [0] ∧ (Ring.new 0).space = true ∧ (run c (init c 0 L) [0]).2 = .crash :=
  ⟨{ cache := false, num := 1, rwc := 100, pct := [0] }, exL, rfl, rfl, by decide +kernel, by decide +kernel⟩

/-- **C88.**  A region of share 0 whose writes are drawn all the same. -/
theorem C88_share_zero_counterexample :
    ∃ (c : Cfg) (L : List Nat), c.pct = [0, 0, 0] ∧ drawn (run c (init c 4 L) [0, 1, 10000]).1 = [7] :=
  ⟨{ exC with pct := [0, 0, 0] }, exL, rfl, by decide +kernel⟩

end Fio.Spr
