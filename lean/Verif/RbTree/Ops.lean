/-
`rb_erase`, insertion by a caller, `rb_first` and `rb_next` on whole trees.
-/
import Verif.RbTree.Erase
namespace Fio.RbTree
open Tree

theorem plug_append (t : Tree) (c1 c2 : List Frame) :
    plug t (c1 ++ c2) = plug (plug t c1) c2 := by
  induction c1 generalizing t with
  | nil => rfl
  | cons f c1 ih => simp [plug, ih]

theorem repZ_append {h : Heap} {t : Tree} {c1 c2 : List Frame} :
    RepZ h t (c1 ++ c2) ↔ RepZ h (plug t c1) c2 := by
  rw [up_all, up_all, plug_append]

/-- Nodes before and after the hole. -/
def preC : List Frame → List Nat
  | [] => []
  | f :: ctx => preC ctx ++ match f.d with
    | .L => []
    | .R => f.sib.inorder ++ [f.i]

def postC : List Frame → List Nat
  | [] => []
  | f :: ctx => (match f.d with
    | .L => f.i :: f.sib.inorder
    | .R => []) ++ postC ctx

theorem inorder_plug (t : Tree) (ctx : List Frame) :
    (plug t ctx).inorder = preC ctx ++ t.inorder ++ postC ctx := by
  induction ctx generalizing t with
  | nil => simp [plug, preC, postC]
  | cons f ctx ih =>
    obtain ⟨d, i, c, s⟩ := f
    simp only [plug, ih, preC, postC]
    cases d <;> simp [Frame.plug, sided, inorder]

/-- Looking at a subtree of a red-black tree. -/
theorem RB_unplug {t : Tree} {ctx : List Frame} {k : Nat} (h : RB (plug t ctx) k)
    (hb : (plug t ctx).col = .black) :
    (∃ n, RB t n ∧ RBC ctx n) ∧ (t.col = .red → topc ctx = .black ∧ ctx ≠ []) := by
  induction ctx generalizing t with
  | nil =>
    refine ⟨⟨k, h, trivial⟩, fun hr => ?_⟩
    simp only [plug] at hb
    rw [hr] at hb
    cases hb
  | cons f ctx ih =>
    obtain ⟨d, i, c, s⟩ := f
    obtain ⟨⟨n, h1, h2⟩, h3⟩ := ih (t := Frame.plug ⟨d, i, c, s⟩ t) h hb
    simp only [Frame.plug, col_sided] at h1 h3
    cases c with
    | red =>
      obtain ⟨g1, g2, g3, g4⟩ := RB_red.1 h1
      obtain ⟨q1, q2⟩ := h3 rfl
      exact ⟨⟨n, g3, g4, g2, q2, q1, h2⟩, fun hh => by rw [g1] at hh; cases hh⟩
    | black =>
      have : ∃ m, n = m + 1 := by
        cases d
        · obtain ⟨m, hm, _⟩ := h1; exact ⟨m, hm⟩
        · obtain ⟨m, hm, _⟩ := h1; exact ⟨m, hm⟩
      obtain ⟨m, rfl⟩ := this
      obtain ⟨g1, g2⟩ := RB_black.1 h1
      exact ⟨⟨m, g1, g2, h2⟩, fun _ => ⟨rfl, by simp⟩⟩

/-- Every node of a tree can be brought into focus. -/
theorem focus {t : Tree} {n : Nat} (h : n ∈ t.inorder) :
    ∃ c l r ctx, t = plug (.node n c l r) ctx ∧ ctx.length < t.inorder.length := by
  induction t with
  | leaf => simp [inorder] at h
  | node i c l r ihl ihr =>
    simp only [inorder, List.mem_append, List.mem_cons] at h
    rcases h with h | h | h
    · obtain ⟨c', l', r', ctx, e, hl⟩ := ihl h
      refine ⟨c', l', r', ctx ++ [⟨.L, i, c, r⟩], ?_, ?_⟩
      · rw [plug_append, ← e]; rfl
      · simp only [List.length_append, inorder, List.length_cons, List.length_nil]; omega
    · subst h
      exact ⟨c, l, r, [], rfl, by simp [inorder]; omega⟩
    · obtain ⟨c', l', r', ctx, e, hl⟩ := ihr h
      refine ⟨c', l', r', ctx ++ [⟨.R, i, c, l⟩], ?_, ?_⟩
      · rw [plug_append, ← e]; rfl
      · simp only [List.length_append, inorder, List.length_cons, List.length_nil]; omega

theorem leftmost_spec {h : Heap} {p : Option Nat} {i : Nat} {c : Color} {l r : Tree}
    (hr : Rep h.mem p (.node i c l r)) {fuel : Nat} (hf : l.inorder.length ≤ fuel) :
    ∃ s cs b rc, .node i c l r = plug (.node s cs .leaf b) rc ∧
      (Tree.node i c l r).inorder = s :: (plug b rc).inorder ∧
      leftmost fuel i h = some s ∧ rc.length ≤ l.inorder.length := by
  induction l generalizing p i c r fuel with
  | leaf =>
    refine ⟨i, c, r, [], rfl, rfl, ?_, by simp⟩
    unfold leftmost
    simp [hr.1, Tree.root]
  | node j cj jl jr ihl _ =>
    obtain ⟨h1, h2, h3⟩ := hr
    simp only [inorder, List.length_append, List.length_cons] at hf
    cases fuel with
    | zero => omega
    | succ fuel =>
      obtain ⟨s, cs, b, rc, e1, e2, e3, e4⟩ := ihl h2 (fuel := fuel) (by omega)
      refine ⟨s, cs, b, rc ++ [⟨.L, i, c, r⟩], ?_, ?_, ?_, ?_⟩
      · rw [plug_append, ← e1]; rfl
      · rw [plug_append]
        rw [inorder]
        rw [e2]
        simp [plug, Frame.plug, sided, inorder]
      · rw [leftmost]
        simp only [h1, Tree.root, e3]
      · simp only [List.length_append, inorder, List.length_cons, List.length_nil]
        omega

theorem splice_spec {h : Heap} {d : Dir} {n : Nat} {c : Color} {r : Tree} {ctx : List Frame}
    (hz : RepZ h (sided d n c r .leaf) ctx) : RepZ (splice n r.root h) r ctx := by
  obtain ⟨h1, h2, h3⟩ := hz
  rw [Rep_sided] at h1
  obtain ⟨hn, hr, _⟩ := h1
  rw [root_sided] at h2
  simp only [List.nodup_append, nodup_sided, mem_sided] at h3
  have hpn : (h.mem n).p = par ctx := by rw [hn, Cell.sided_p]
  unfold splice
  simp only [hpn]
  have hc1 : RepC (h.setPOpt r.root (par ctx)).mem (h.setPOpt r.root (par ctx)).root ctx
      (some n) := by
    rw [setPOpt_root]
    refine h2.congr (fun j hj => ?_)
    rw [setPOpt_mem, if_neg]
    intro hh
    have := root_mem hh
    grind
  obtain ⟨g1, g2⟩ := RepC.relink (d := .L) (v := r.root) hc1 (by rw [List.nodup_cons]; grind)
  refine ⟨?_, g1, ?_⟩
  · refine hr.reparent (by grind) (fun j hj => ?_)
    rw [g2 j (by grind), setPOpt_mem]
  · rw [List.nodup_append]
    grind

/-- The second half of the two-children case: the successor takes the place of the node. -/
def takePlace (n s l : Nat) (h : Heap) : Heap :=
  let h := h.put s { h.mem s with p := (h.mem n).p, c := (h.mem n).c }
  let h := h.setCh .R s (h.mem n).r
  let h := h.setCh .L s (h.mem n).l
  let h := h.relink .L (h.mem n).p n (some s)
  let h := h.setP l (some s)
  h.setPOpt (h.mem n).r (some s)

theorem takePlace_spec {h : Heap} {n s li : Nat} {c : Color} {l r : Tree} {ctx : List Frame}
    (hz : RepZ h (.node n c l r) ctx) (hli : l.root = some li)
    (hs : s ∉ (Tree.node n c l r).inorder ++ idsC ctx) :
    RepZ (takePlace n s li h) (.node s c l r) ctx := by
  obtain ⟨⟨hn, hl, hr⟩, h2, h3⟩ := hz
  rw [Tree.root] at h2
  simp only [List.nodup_append, inorder, List.mem_append, List.mem_cons, List.nodup_cons] at h3 hs
  have hsn : s ≠ n := by grind
  have hns : n ≠ s := Ne.symm hsn
  have hlim := root_mem hli
  -- the cell of the successor
  generalize hh1 : ((h.put s { h.mem s with p := (h.mem n).p, c := (h.mem n).c }).setCh .R s
    r.root).setCh .L s l.root = h1
  have hr1 : h1.root = h.root := by subst hh1; rfl
  have hm1 : ∀ j, h1.mem j = if j = s then ⟨l.root, r.root, par ctx, c⟩ else h.mem j := by
    intro j
    subst hh1
    simp only [Heap.setCh, put_mem, if_true, Cell.setCh, hn]
    by_cases hj : j = s
    · simp [hj]
    · simp [hj]
  have hc1 : RepC h1.mem h1.root ctx (some n) := by
    rw [hr1]
    refine h2.congr (fun j hj => ?_)
    rw [hm1, if_neg (by grind)]
  obtain ⟨g1, g2⟩ := RepC.relink (d := .L) (v := some s) hc1 (by rw [List.nodup_cons]; grind)
  generalize hh2 : h1.relink .L (par ctx) n (some s) = h2' at g1 g2
  have hn2 : h2'.mem n = h.mem n := by rw [g2 n (by grind), hm1, if_neg hns]
  have htp : takePlace n s li h = (h2'.setP li (some s)).setPOpt r.root (some s) := by
    unfold takePlace
    simp only [Heap.setCh, put_mem, hns, if_false, hn]
    simp only [Heap.setCh, put_mem, hn] at hh1
    rw [hh1, hh2]
    have : (h2'.setP li (some s)).mem n = h.mem n := by
      simp only [Heap.setP, put_mem]
      rw [if_neg (by grind), hn2]
    rw [this, hn]
  rw [htp]
  have hm : ∀ j, ((h2'.setP li (some s)).setPOpt r.root (some s)).mem j =
      if r.root = some j ∨ l.root = some j then { h2'.mem j with p := some s } else h2'.mem j := by
    intro j
    rw [setPOpt_mem]
    simp only [Heap.setP, put_mem, hli, Option.some.injEq]
    by_cases h1 : r.root = some j
    · by_cases h2 : j = li
      · subst h2; simp [h1]
      · simp [h1, h2]
    · by_cases h2 : j = li
      · subst h2; simp [h1]
      · simp [h1, h2, Ne.symm h2]
  refine ⟨⟨?_, ?_, ?_⟩, ?_, ?_⟩
  · have q1 : r.root ≠ some s := fun hh => by have := root_mem hh; grind
    have q2 : l.root ≠ some s := fun hh => by have := root_mem hh; grind
    rw [hm, if_neg (by grind), g2 s (by grind), hm1, if_pos rfl]
  · refine hl.reparent (by grind) (fun j hj => ?_)
    have q1 : r.root ≠ some j := fun hh => by have := root_mem hh; grind
    have hmj : h2'.mem j = h.mem j := by rw [g2 j (by grind), hm1, if_neg (by grind)]
    rw [hm, hmj]
    simp [q1]
  · refine hr.reparent (by grind) (fun j hj => ?_)
    have q1 : l.root ≠ some j := fun hh => by have := root_mem hh; grind
    have hmj : h2'.mem j = h.mem j := by rw [g2 j (by grind), hm1, if_neg (by grind)]
    rw [hm, hmj]
    simp [q1]
  · rw [setPOpt_root]
    have : (h2'.setP li (some s)).root = h2'.root := rfl
    rw [this]
    refine g1.congr (fun j hj => ?_)
    have q1 : r.root ≠ some j := fun hh => by have := root_mem hh; grind
    have q2 : l.root ≠ some j := fun hh => by have := root_mem hh; grind
    rw [hm, if_neg (by grind)]
  · simp only [List.nodup_append, inorder, List.mem_append, List.mem_cons, List.nodup_cons]
    grind

theorem RBC_id {rc ctx : List Frame} {d : Dir} {n s k : Nat} {c : Color} {l : Tree}
    (h : RBC (rc ++ ⟨d, n, c, l⟩ :: ctx) k) : RBC (rc ++ ⟨d, s, c, l⟩ :: ctx) k := by
  induction rc generalizing k with
  | nil => exact h
  | cons f rc ih =>
    obtain ⟨d', i, c', s'⟩ := f
    obtain ⟨h1, h2⟩ := h
    refine ⟨h1, ?_⟩
    cases c' with
    | red =>
      obtain ⟨g1, g2, g3, g4⟩ := h2
      refine ⟨g1, by simp, ?_, ih g4⟩
      cases rc with
      | nil => exact g3
      | cons f rc => exact g3
    | black => exact ih h2

theorem transplant_eq {h : Heap} {n s q l : Nat} (hq : (h.mem s).p = some q)
    (hside : (h.mem q).l = some s ↔ q ≠ n) :
    transplant n s l h = some (takePlace n s l (splice s (h.mem s).r h),
      if q = n then s else q) := by
  unfold transplant takePlace splice Heap.relink
  simp only [hq]
  have hql : ((h.setPOpt (h.mem s).r (some q)).mem q).ch .L = (h.mem q).l := by
    rw [setPOpt_mem, Cell.ch]
    split <;> rfl
  rw [hql]
  by_cases hn : q = n
  · rw [if_pos hn, if_neg (by rw [hside]; simpa using hn), if_pos hn]
    rfl
  · rw [if_neg hn, if_pos (hside.2 hn), if_neg hn]

/-- What the surroundings of a spliced subtree are short of, given the colour of the node that
went. -/
def Below (c : Color) (t : Tree) (ctx : List Frame) (k : Nat) : Prop :=
  match c with
  | .red => RBC ctx k ∧ t.col = .black ∧ ctx ≠ []
  | .black => RBC ctx (k + 1)

theorem mem_idsC_append (rc ctx : List Frame) (f : Frame) : f.i ∈ idsC (rc ++ f :: ctx) := by
  induction rc with
  | nil => simp [idsC]
  | cons g rc ih => rw [List.cons_append, idsC]; simp [ih]

theorem eraseEnd_spec {h : Heap} {t : Tree} {c : Color} {k fuel : Nat} {ctx : List Frame}
    (hz : RepZ h t ctx) (ht : RB t k)
    (hc : Below c t ctx k) (hf : ctx.length ≤ fuel) :
    ∃ h', eraseEnd fuel c t.root (par ctx) h = some h' ∧ Holds h' (plug t ctx).inorder := by
  cases c with
  | red =>
    obtain ⟨h1, h2, h3⟩ := hc
    obtain ⟨g1, g2⟩ := RB_plug ht h1 (fun hh => by rw [h2] at hh; cases hh)
    exact ⟨h, rfl, _, up_all.1 hz, g1, g2 (Or.inl h3), rfl⟩
  | black => exact eraseColor_spec hz ht hc hf

/-- The colour bookkeeping of a node with at most one child. -/
theorem one_child {d : Dir} {n k : Nat} {c : Color} {r : Tree} {ctx : List Frame}
    (h : RB (sided d n c r .leaf) k) (hc : RBC ctx k)
    (hcol : c = .red → topc ctx = .black ∧ ctx ≠ []) :
    ∃ m, RB r m ∧ Below c r ctx m := by
  cases c with
  | red =>
    obtain ⟨h1, h2, h3, h4⟩ := RB_red.1 h
    exact ⟨k, h3, hc, h1, (hcol rfl).2⟩
  | black =>
    have : ∃ m, k = m + 1 := by
      cases d <;> (obtain ⟨m, hm, _⟩ := h; exact ⟨m, hm⟩)
    obtain ⟨m, rfl⟩ := this
    exact ⟨m, (RB_black.1 h).1, hc⟩

theorem erase_mid {pre post a b : List Nat} {n : Nat}
    (h : (pre ++ (a ++ n :: b) ++ post).Nodup) :
    (pre ++ (a ++ n :: b) ++ post).erase n = pre ++ (a ++ b) ++ post := by
  simp only [List.nodup_append, List.nodup_cons, List.mem_append, List.mem_cons] at h
  rw [List.append_assoc, List.append_assoc, ← List.append_assoc pre a]
  rw [List.erase_append_right _ (by rw [List.mem_append]; grind)]
  simp

theorem Holds.nodup {h : Heap} {L : List Nat} (hh : Holds h L) : L.Nodup := by
  obtain ⟨t, hz, _, _, rfl⟩ := hh
  simpa [idsC] using hz.nd

/-- `rb_erase` on a node of the tree. -/
theorem rbErase_spec {h : Heap} {L : List Nat} {n fuel : Nat} (hh : Holds h L) (hn : n ∈ L)
    (hf : 2 * L.length ≤ fuel) :
    ∃ h', rbErase fuel n h = some h' ∧ Holds h' (L.erase n) := by
  have hndL := hh.nodup
  obtain ⟨t, hzT, ⟨k, hrb⟩, hblack, rfl⟩ := hh
  obtain ⟨c, l, r, ctx, rfl, hlen⟩ := focus hn
  have hz : RepZ h (.node n c l r) ctx := up_all.2 hzT
  obtain ⟨⟨k', hn1, hn2⟩, hn3⟩ := RB_unplug hrb hblack
  obtain ⟨hc0, hl0, hr0⟩ := hz.foc
  rw [inorder_plug] at hndL
  rw [inorder_plug] at hlen hf ⊢
  simp only [inorder] at hndL hlen hf ⊢
  rw [erase_mid hndL]
  unfold rbErase
  have hml : (h.mem n).l = l.root := by rw [hc0]
  have hmr : (h.mem n).r = r.root := by rw [hc0]
  have hmp : (h.mem n).p = par ctx := by rw [hc0]
  have hmc : (h.mem n).c = c := by rw [hc0]
  simp only [List.length_append, List.length_cons] at hlen hf
  rw [hml, hmr]
  cases l with
  | leaf =>
    simp only [Tree.root, hmc, hmp]
    have hz' : RepZ h (sided .R n c r .leaf) ctx := hz
    obtain ⟨m, hm1, hm2⟩ := one_child (d := .R) hn1 hn2 hn3
    obtain ⟨h', e, g⟩ := eraseEnd_spec (fuel := fuel) (splice_spec hz') hm1 hm2 (by omega)
    refine ⟨h', e, ?_⟩
    rw [inorder_plug] at g
    simpa [inorder] using g
  | node li lc ll lr =>
  cases r with
  | leaf =>
    simp only [Tree.root, hmc, hmp]
    have hz' : RepZ h (sided .L n c (.node li lc ll lr) .leaf) ctx := hz
    obtain ⟨m, hm1, hm2⟩ := one_child (d := .L) hn1 hn2 hn3
    obtain ⟨h', e, g⟩ := eraseEnd_spec (fuel := fuel) (splice_spec hz') hm1 hm2 (by omega)
    refine ⟨h', e, ?_⟩
    rw [inorder_plug] at g
    simpa [inorder] using g
  | node ri rcol rl rr =>
    simp only [inorder, List.length_append, List.length_cons] at hlen hf
    obtain ⟨s, cs, b, rc, e1, e2, e3, e4⟩ := leftmost_spec hr0 (fuel := fuel) (by omega)
    simp only [Tree.root, e3]
    -- focus on the successor
    have hzs : RepZ h (.node s cs .leaf b) (rc ++ ⟨.R, n, c, .node li lc ll lr⟩ :: ctx) := by
      rw [repZ_append, ← e1]
      exact up.2 hz
    have hrbs : RB (plug (.node s cs .leaf b) (rc ++ ⟨.R, n, c, .node li lc ll lr⟩ :: ctx)) k ∧
        (plug (.node s cs .leaf b) (rc ++ ⟨.R, n, c, .node li lc ll lr⟩ :: ctx)).col = .black := by
      rw [plug_append, ← e1]
      exact ⟨hrb, hblack⟩
    obtain ⟨⟨ks, hs1, hs2⟩, hs3⟩ := RB_unplug hrbs.1 hrbs.2
    obtain ⟨hcs, _, hbr⟩ := hzs.foc
    obtain ⟨m, hm1, hm2⟩ := one_child (d := .R) hs1 hs2 hs3
    have hz1 : RepZ (splice s b.root h) b (rc ++ ⟨.R, n, c, .node li lc ll lr⟩ :: ctx) :=
      splice_spec (d := .R) hzs
    have hz2 : RepZ (splice s b.root h) (.node n c (.node li lc ll lr) (plug b rc)) ctx := by
      rw [repZ_append] at hz1
      exact up.1 hz1
    have hsout : s ∉ (Tree.node n c (.node li lc ll lr) (plug b rc)).inorder ++ idsC ctx := by
      have hnd := hz.nd
      rw [inorder, e2] at hnd
      rw [inorder]
      simp only [List.nodup_append, List.mem_append, List.mem_cons, List.nodup_cons] at hnd ⊢
      grind
    have hz3 := takePlace_spec hz2 (li := li) rfl hsout
    have hz4 : RepZ (takePlace n s li (splice s b.root h)) b
        (rc ++ ⟨.R, s, c, .node li lc ll lr⟩ :: ctx) := by
      rw [repZ_append]
      exact up.2 hz3
    have hmsr : (h.mem s).r = b.root := by rw [hcs]
    have hmsc : (h.mem s).c = cs := by rw [hcs]
    -- the parent of the successor
    obtain ⟨q, hq, hqs, hpar⟩ : ∃ q, (h.mem s).p = some q ∧
        ((h.mem q).l = some s ↔ q ≠ n) ∧
        par (rc ++ ⟨.R, s, c, .node li lc ll lr⟩ :: ctx) = some (if q = n then s else q) := by
      have hsr := hzs.around
      have hnd := hzs.nd
      cases rc with
      | nil =>
        refine ⟨n, by rw [hcs]; rfl, ?_, ?_⟩
        · simp only [ne_eq, not_true, iff_false]
          rw [hc0]
          simp only [Tree.root]
          intro hh
          simp only [List.nil_append, idsC, inorder, List.nodup_append, List.mem_append,
            List.mem_cons, List.nodup_cons] at hnd
          grind
        · simp [par]
      | cons f rc =>
        have hfL : f.d = .L := by
          obtain ⟨d, i, cf, sb⟩ := f
          cases d with
          | L => rfl
          | R =>
            exfalso
            rw [e1] at e2
            simp only [plug] at e2
            rw [inorder_plug, inorder_plug] at e2
            simp only [Frame.plug, sided, inorder, List.nil_append] at e2
            have hz' := hzs.nd
            simp only [List.cons_append, idsC, inorder, List.nodup_append, List.mem_append,
              List.mem_cons, List.nodup_cons] at hz'
            cases hpre : preC rc with
            | nil =>
              rw [hpre] at e2
              cases hsb : sb.inorder with
              | nil =>
                rw [hsb] at e2
                simp at e2
                grind
              | cons x xs =>
                rw [hsb] at e2
                simp at e2
                grind
            | cons x xs =>
              rw [hpre] at e2
              have : s ∈ preC rc := by simp at e2; simp [hpre, e2.1]
              have hnd2 := hzs.nd
              have hx : (plug (Tree.node s cs .leaf b) (⟨.R, i, cf, sb⟩ :: rc)).inorder.Nodup := by
                have := hz.nd
                rw [e1] at this
                simp only [inorder, List.nodup_append, List.nodup_cons] at this
                grind
              rw [inorder_plug] at hx
              simp only [preC, inorder, List.nodup_append, List.mem_append, List.mem_cons] at hx
              grind
        refine ⟨f.i, by rw [hcs]; rfl, ?_, ?_⟩
        · have hfn : f.i ≠ n := by
            simp only [List.cons_append, idsC, List.nodup_append, List.mem_append,
              List.mem_cons, List.nodup_cons] at hnd
            have := mem_idsC_append rc ctx ⟨.R, n, c, .node li lc ll lr⟩
            grind
          simp only [hfn, ne_eq, not_false_eq_true, iff_true]
          rw [hsr.1, cell_sided, hfL]
          rfl
        · have hfn : f.i ≠ n := by
            simp only [List.cons_append, idsC, List.nodup_append, List.mem_append,
              List.mem_cons, List.nodup_cons] at hnd
            have := mem_idsC_append rc ctx ⟨.R, n, c, .node li lc ll lr⟩
            grind
          simp [par, hfn]
    rw [transplant_eq hq hqs]
    simp only [hmsr, hmsc]
    have hm3 : Below cs b (rc ++ ⟨.R, s, c, .node li lc ll lr⟩ :: ctx) m := by
      cases cs with
      | red => exact ⟨RBC_id hm2.1, hm2.2.1, by simp⟩
      | black => exact RBC_id hm2
    obtain ⟨h', e, g⟩ := eraseEnd_spec (fuel := fuel) hz4 hm1 hm3 (by
      simp only [List.length_append, List.length_cons]; omega)
    rw [hpar] at e
    refine ⟨h', e, ?_⟩
    rw [plug_append] at g
    simp only [plug, Frame.plug, sided] at g
    rw [inorder_plug] at g
    rw [e2]
    exact g


/-- The link a hole hangs from. -/
def linkOf : List Frame → Link
  | [] => none
  | f :: _ => some (f.i, f.d)

theorem deref_linkOf {h : Heap} {t : Tree} {ctx : List Frame} (hz : RepZ h t ctx) :
    h.deref (linkOf ctx) = t.root := by
  cases ctx with
  | nil => exact RepT.root hz
  | cons f ctx =>
    have := hz.around.1
    rw [cell_sided] at this
    simp only [linkOf, Heap.deref, this, Cell.sided_ch]

theorem linkNode_spec {h : Heap} {n : Nat} {ctx : List Frame} (hz : RepZ h .leaf ctx)
    (hn : n ∉ idsC ctx) :
    RepZ (linkNode n (linkOf ctx) h) (.node n .red .leaf .leaf) ctx := by
  obtain ⟨_, h2, h3⟩ := hz
  have hnd : ((Tree.node n .red .leaf .leaf).inorder ++ idsC ctx).Nodup := by
    simp only [inorder, List.nil_append, List.nodup_append, List.nodup_cons,
      List.mem_cons] at h3 ⊢
    grind
  cases ctx with
  | nil =>
    refine ⟨⟨?_, trivial, trivial⟩, rfl, hnd⟩
    simp [linkNode, linkOf, Heap.put, Tree.root, par]
  | cons f ctx =>
    obtain ⟨d, i, c, s⟩ := f
    obtain ⟨g1, g2, g3⟩ := h2
    simp only [inorder, List.nil_append, idsC, List.mem_cons, List.mem_append, List.nodup_cons,
      List.cons_append, List.nodup_append] at hn h3
    dsimp only at g1 g2 g3
    have hin : i ≠ n := by grind
    have hm : ∀ j, (linkNode n (linkOf (⟨d, i, c, s⟩ :: ctx)) h).mem j =
        if j = i then (h.mem i).setCh d (some n) else
        if j = n then ⟨none, none, some i, .red⟩ else h.mem j := by
      intro j
      simp only [linkNode, linkOf, Heap.setCh, put_mem, Option.map_some, hin, if_false]
    refine ⟨⟨?_, trivial, trivial⟩, ⟨?_, g2.congr ?_, ?_⟩, hnd⟩
    · rw [hm, if_neg (Ne.symm hin), if_pos rfl]; rfl
    · dsimp only
      rw [hm, if_pos rfl, g1, cell_sided, cell_sided, Cell.sided_setCh]
      rfl
    · intro j hj
      rw [hm, if_neg (by grind), if_neg (by grind)]
    · have hroot : (linkNode n (linkOf (⟨d, i, c, s⟩ :: ctx)) h).root = h.root := rfl
      rw [hroot]
      refine RepC.congr (m := h.mem) g3 (fun j hj => ?_)
      rw [hm, if_neg (by grind), if_neg (by grind)]

theorem mem_plug {t : Tree} {ctx : List Frame} {j : Nat} :
    j ∈ (plug t ctx).inorder ↔ j ∈ t.inorder ∨ j ∈ idsC ctx := by
  induction ctx generalizing t with
  | nil => simp [plug, idsC]
  | cons f ctx ih =>
    simp only [plug, ih, idsC, Frame.plug, mem_sided, List.mem_append, List.mem_cons]
    grind

theorem length_ctx_le (t : Tree) (ctx : List Frame) :
    ctx.length ≤ (plug t ctx).inorder.length := by
  induction ctx generalizing t with
  | nil => simp
  | cons f ctx ih =>
    have h1 : ctx.length ≤ (preC ctx).length + (postC ctx).length := by
      have := ih .leaf
      rw [inorder_plug] at this
      simpa [inorder] using this
    rw [inorder_plug]
    obtain ⟨d, i, c, s⟩ := f
    cases d <;> simp [preC, postC] <;> omega

/-- Linking a new node into a free link and recolouring. -/
theorem insertAt_spec {h : Heap} {n k fuel : Nat} {ctx : List Frame} (hz : RepZ h .leaf ctx)
    (hrb : RB (plug .leaf ctx) k) (hblack : (plug .leaf ctx).col = .black)
    (hn : n ∉ (plug .leaf ctx).inorder) (hf : (plug .leaf ctx).inorder.length ≤ fuel) :
    ∃ h', insertAt fuel n (linkOf ctx) h = some h' ∧ Holds h' (preC ctx ++ n :: postC ctx) := by
  rw [mem_plug] at hn
  have z := linkNode_spec hz (n := n) (by grind)
  obtain ⟨⟨m, hm1, hm2⟩, _⟩ := RB_unplug hrb hblack
  have : m = 0 := hm1
  subst this
  obtain ⟨h', e, g⟩ := insertColor_spec (k := 0) z ⟨rfl, rfl, rfl, rfl⟩ hm2
    (Nat.le_trans (length_ctx_le _ _) hf)
  refine ⟨h', e, ?_⟩
  rw [inorder_plug] at g
  simpa [inorder] using g

theorem descend_spec {dir : Nat → Dir} {h : Heap} {t : Tree} {ctx : List Frame} {fuel : Nat}
    (hz : RepZ h t ctx)
    (hpre : ∀ j ∈ preC ctx, dir j = .R) (hpost : ∀ j ∈ postC ctx, dir j = .L)
    (hmono : t.inorder.Pairwise (fun a b => dir b = .R → dir a = .R))
    (hf : t.inorder.length ≤ fuel) :
    ∃ ctx', descend dir fuel (linkOf ctx) h = some (linkOf ctx') ∧ plug .leaf ctx' = plug t ctx ∧
      (∀ j ∈ preC ctx', dir j = .R) ∧ (∀ j ∈ postC ctx', dir j = .L) := by
  induction t generalizing ctx fuel with
  | leaf =>
    refine ⟨ctx, ?_, rfl, hpre, hpost⟩
    unfold descend
    rw [deref_linkOf hz]
    rfl
  | node m c l r ihl ihr =>
    simp only [inorder, List.length_append, List.length_cons] at hf
    simp only [inorder, List.pairwise_append, List.pairwise_cons, List.mem_cons] at hmono
    obtain ⟨m1, ⟨m2, m3⟩, m4⟩ := hmono
    cases fuel with
    | zero => omega
    | succ fuel =>
      have hstep : descend dir (fuel + 1) (linkOf ctx) h = descend dir fuel (some (m, dir m)) h := by
        rw [descend, deref_linkOf hz]
        rfl
      rw [hstep]
      cases hd : dir m with
      | L =>
        have hzl : RepZ h l (⟨.L, m, c, r⟩ :: ctx) := up.2 hz
        have hrL : ∀ j ∈ r.inorder, dir j = .L := by
          intro j hj
          cases hdj : dir j with
          | L => rfl
          | R => have := m2 j hj hdj; rw [hd] at this; cases this
        obtain ⟨ctx', e, p, q1, q2⟩ := ihl (fuel := fuel) hzl (by simpa [preC] using hpre)
          (by simp only [postC, List.cons_append, List.mem_cons, List.mem_append]
              rintro j (rfl | hj | hj)
              · exact hd
              · exact hrL j hj
              · exact hpost j hj) m1 (by omega)
        exact ⟨ctx', e, p, q1, q2⟩
      | R =>
        have hzr : RepZ h r (⟨.R, m, c, l⟩ :: ctx) := up.2 hz
        obtain ⟨ctx', e, p, q1, q2⟩ := ihr (fuel := fuel) hzr
          (by simp only [preC, List.mem_append, List.mem_singleton]
              rintro j (hj | hj | rfl)
              · exact hpre j hj
              · exact m4 j hj m (Or.inl rfl) hd
              · exact hd) (by simpa [postC] using hpost) m3 (by omega)
        exact ⟨ctx', e, p, q1, q2⟩

/-- Descent, link and recolouring together. -/
theorem insert_spec {dir : Nat → Dir} {h : Heap} {L : List Nat} {n fuel : Nat} (hh : Holds h L)
    (hn : n ∉ L) (hmono : L.Pairwise (fun a b => dir b = .R → dir a = .R))
    (hf : L.length ≤ fuel) :
    ∃ at_ h' A B, descend dir fuel none h = some at_ ∧ insertAt fuel n at_ h = some h' ∧
      L = A ++ B ∧ (∀ j ∈ A, dir j = .R) ∧ (∀ j ∈ B, dir j = .L) ∧
      Holds h' (A ++ n :: B) := by
  obtain ⟨t, hzT, ⟨k, hrb⟩, hblack, rfl⟩ := hh
  obtain ⟨ctx, e, hp, q1, q2⟩ := descend_spec (ctx := []) hzT (by simp [preC]) (by simp [postC])
    hmono hf
  simp only [plug] at hp
  have hz : RepZ h .leaf ctx := up_all.2 (hp ▸ hzT)
  obtain ⟨h', e', g⟩ := insertAt_spec (fuel := fuel) hz (hp ▸ hrb) (hp ▸ hblack) (hp ▸ hn)
    (hp ▸ hf)
  refine ⟨linkOf ctx, h', preC ctx, postC ctx, e, e', ?_, q1, q2, g⟩
  rw [← hp, inorder_plug]
  simp [inorder]

theorem rbFirst_spec {h : Heap} {L : List Nat} {fuel : Nat} (hh : Holds h L)
    (hf : L.length ≤ fuel) : rbFirst fuel h = some L.head? := by
  obtain ⟨t, hz, _, _, rfl⟩ := hh
  unfold rbFirst
  rw [hz.root]
  cases t with
  | leaf => rfl
  | node i c l r =>
    simp only [inorder, List.length_append, List.length_cons] at hf
    obtain ⟨s, cs, b, rc, _, e2, e3, _⟩ := leftmost_spec hz.foc (fuel := fuel) (by omega)
    simp only [Tree.root, e3, e2, List.head?_cons]

theorem climb_spec {h : Heap} {t : Tree} {ctx : List Frame} {n fuel : Nat} (hz : RepZ h t ctx)
    (hn : t.root = some n) (hf : ctx.length ≤ fuel) :
    climb fuel n h = some (postC ctx).head? := by
  induction ctx generalizing t n fuel with
  | nil =>
    cases t with
    | leaf => simp [Tree.root] at hn
    | node i c l r =>
      simp only [Tree.root, Option.some.injEq] at hn
      subst hn
      unfold climb
      simp [hz.foc.1, par, postC]
  | cons f ctx ih =>
    obtain ⟨d, i, c, s⟩ := f
    have hp : (h.mem n).p = some i := by
      cases t with
      | leaf => simp [Tree.root] at hn
      | node j c l r =>
        simp only [Tree.root, Option.some.injEq] at hn
        subst hn
        rw [hz.foc.1]; rfl
    have hi := hz.around.1
    rw [cell_sided] at hi
    have hnd := hz.nd
    dsimp only at hi
    cases d with
    | L =>
      have hs : s.root ≠ some n := fun hh => by
        have h1 := root_mem hh
        have h2 := root_mem hn
        simp only [List.nodup_append, idsC, List.mem_cons, List.mem_append, List.cons_append] at hnd
        grind
      have hir : (h.mem i).r = s.root := by rw [hi]; rfl
      unfold climb
      simp only [hp, hir, hs, if_false]
      simp [postC]
    | R =>
      have hir : (h.mem i).r = some n := by rw [hi]; exact hn
      cases fuel with
      | zero => simp at hf
      | succ fuel =>
        unfold climb
        simp only [hp, hir, if_true]
        have := ih (fuel := fuel) (up.1 hz) (n := i) (by simp [Frame.plug])
          (by simpa using hf)
        rw [this]
        simp [postC]

theorem rbNext_spec {h : Heap} {A B : List Nat} {n fuel : Nat} (hh : Holds h (A ++ n :: B))
    (hf : A.length + B.length + 1 ≤ fuel) : rbNext fuel n h = some B.head? := by
  have hndL := hh.nodup
  obtain ⟨t, hzT, _, _, hin⟩ := hh
  obtain ⟨c, l, r, ctx, rfl, hlen⟩ := focus (t := t) (n := n) (by rw [hin]; simp)
  have hz : RepZ h (.node n c l r) ctx := up_all.2 hzT
  have hsplit : preC ctx ++ l.inorder = A ∧ r.inorder ++ postC ctx = B := by
    rw [inorder_plug] at hin
    simp only [inorder] at hin
    have e : (preC ctx ++ l.inorder) ++ n :: (r.inorder ++ postC ctx) = A ++ n :: B := by
      rw [← hin]; simp
    have hnd' : ((preC ctx ++ l.inorder) ++ n :: (r.inorder ++ postC ctx)).Nodup := by
      rw [e]; exact hndL
    generalize preC ctx ++ l.inorder = X at e hnd'
    generalize r.inorder ++ postC ctx = Y at e hnd'
    clear hin hlen hzT hz hf
    induction X generalizing A with
    | nil =>
      cases A with
      | nil => simpa using e
      | cons a A =>
        simp only [List.nil_append, List.cons_append, List.cons.injEq] at e
        obtain ⟨rfl, rfl⟩ := e
        simp at hnd'
    | cons x X ih =>
      cases A with
      | nil =>
        simp only [List.nil_append, List.cons_append, List.cons.injEq] at e
        obtain ⟨rfl, rfl⟩ := e
        simp at hnd'
      | cons a A =>
        simp only [List.cons_append, List.cons.injEq, List.nodup_cons] at e hnd' hndL
        obtain ⟨h1, h2⟩ := ih hndL.2 e.2 hnd'.2
        exact ⟨by rw [e.1, h1], h2⟩
  obtain ⟨rfl, rfl⟩ := hsplit
  obtain ⟨hc, hl, hr⟩ := hz.foc
  have hne : (h.mem n).p ≠ some n := by
    rw [hc]
    dsimp only
    cases ctx with
    | nil => simp [par]
    | cons f ctx =>
      simp only [par, List.head?_cons, Option.map_some, ne_eq, Option.some.injEq]
      intro hh
      have hnd := hz.nd
      simp only [List.nodup_append, idsC, inorder, List.mem_cons, List.mem_append,
        List.cons_append] at hnd
      grind
  unfold rbNext
  rw [if_neg hne]
  have hmr : (h.mem n).r = r.root := by rw [hc]
  rw [hmr]
  simp only [List.length_append] at hf
  cases r with
  | leaf =>
    simp only [Tree.root, inorder, List.nil_append]
    refine climb_spec hz rfl ?_
    have := length_ctx_le .leaf ctx
    rw [inorder_plug] at this
    simp only [inorder, List.length_append, List.length_nil] at this
    omega
  | node ri rc' rl rr =>
    simp only [inorder, List.length_append, List.length_cons] at hf
    obtain ⟨s, cs, b, rc, _, e2, e3, _⟩ := leftmost_spec hr (fuel := fuel) (by omega)
    simp only [Tree.root, e3, e2, List.cons_append, List.head?_cons]

end Fio.RbTree
