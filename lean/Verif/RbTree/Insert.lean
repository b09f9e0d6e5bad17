/-
`rb_insert_color` restores the red-black conditions.
-/
import Verif.RbTree.Rep
namespace Fio.RbTree
open Tree

/-- Red-black conditions below the root: no red node has a red child, and every path down to a
missing child passes `n` black nodes. -/
def RB : Tree → Nat → Prop
  | .leaf, n => n = 0
  | .node _ .red l r, n => l.col = .black ∧ r.col = .black ∧ RB l n ∧ RB r n
  | .node _ .black l r, n => ∃ k, n = k + 1 ∧ RB l k ∧ RB r k

/-- Colour of the node the hole hangs from. -/
def topc : List Frame → Color
  | [] => .black
  | f :: _ => f.c

/-- The surroundings accept a subtree with `n` black nodes on each path; the root is black. -/
def RBC : List Frame → Nat → Prop
  | [], _ => True
  | f :: ctx, n => RB f.sib n ∧
    match f.c with
    | .red => f.sib.col = .black ∧ ctx ≠ [] ∧ topc ctx = .black ∧ RBC ctx n
    | .black => RBC ctx (n + 1)

theorem RB_red {d : Dir} {i : Nat} {a b : Tree} {n : Nat} :
    RB (sided d i .red a b) n ↔ a.col = .black ∧ b.col = .black ∧ RB a n ∧ RB b n := by
  cases d <;> simp only [sided, RB]
  grind

theorem RB_black {d : Dir} {i : Nat} {a b : Tree} {n : Nat} :
    RB (sided d i .black a b) (n + 1) ↔ RB a n ∧ RB b n := by
  cases d <;> simp only [sided, RB] <;> constructor <;> grind

theorem sided_op (d : Dir) (i : Nat) (c : Color) (a b : Tree) :
    sided d.op i c a b = sided d i c b a := by cases d <;> rfl

theorem node_sided (d : Dir) (i : Nat) (c : Color) (a b : Tree) :
    ∃ a' b', Tree.node i c a b = sided d i c a' b' := by
  cases d
  · exact ⟨a, b, rfl⟩
  · exact ⟨b, a, rfl⟩

theorem cell_sided (f : Frame) (hole p : Option Nat) :
    f.cell hole p = .sided f.d hole f.sib.root p f.c := by
  obtain ⟨d, _, _, _⟩ := f
  cases d <;> rfl

theorem plug_inorder {t t' : Tree} (h : t.inorder = t'.inorder) (ctx : List Frame) :
    (plug t ctx).inorder = (plug t' ctx).inorder := by
  induction ctx generalizing t t' with
  | nil => exact h
  | cons f ctx ih =>
    refine ih ?_
    obtain ⟨d, i, c, s⟩ := f
    cases d <;> simp [Frame.plug, sided, inorder, h]

theorem RB_plug {t : Tree} {ctx : List Frame} {n : Nat} (h : RB t n) (hc : RBC ctx n)
    (hcol : t.col = .red → topc ctx = .black) :
    (∃ k, RB (plug t ctx) k) ∧ (ctx ≠ [] ∨ t.col = .black → (plug t ctx).col = .black) := by
  induction ctx generalizing t n with
  | nil => exact ⟨⟨n, h⟩, fun hh => by simpa [plug] using hh⟩
  | cons f ctx ih =>
    obtain ⟨d, i, c, s⟩ := f
    obtain ⟨h1, h2⟩ := hc
    simp only [plug]
    cases c with
    | red =>
      obtain ⟨h3, h4, h5, h6⟩ := h2
      have hb : t.col = .black := by
        cases htc : t.col with
        | black => rfl
        | red => have := hcol htc; simp [topc] at this
      obtain ⟨g1, g2⟩ := ih (t := Frame.plug ⟨d, i, .red, s⟩ t) (n := n)
        (RB_red.2 ⟨hb, h3, h, h1⟩) h6 (fun _ => h5)
      exact ⟨g1, fun _ => g2 (Or.inl h4)⟩
    | black =>
      obtain ⟨g1, g2⟩ := ih (t := Frame.plug ⟨d, i, .black, s⟩ t) (n := n + 1)
        (RB_black.2 ⟨h, h1⟩) h2 (by simp [Frame.plug])
      exact ⟨g1, fun _ => g2 (Or.inr (by simp [Frame.plug]))⟩

/-- What an operation leaves behind: a red-black tree with a black root and the nodes `l` in
order. -/
def Holds (h : Heap) (l : List Nat) : Prop :=
  ∃ t, RepT h t ∧ (∃ n, RB t n) ∧ t.col = .black ∧ t.inorder = l

theorem RepT.root {h : Heap} {t : Tree} (hz : RepT h t) : h.root = t.root := hz.around

theorem recolor_top {i : Nat} {c c' : Color} {l r : Tree}
    (h : (Tree.node i c l r).inorder.Nodup) :
    recolor i c' (.node i c l r) = .node i c' l r := by
  simp only [inorder, List.nodup_append, List.nodup_cons] at h
  simp only [recolor, if_true]
  rw [recolor_notin (by grind), recolor_notin (by grind)]

/-- The last statement of `rb_insert_color`. -/
theorem blacken {h : Heap} {t : Tree} {i : Nat} (hz : RepT h t) (hr : t.root = some i) {n : Nat}
    (hrb : RB t n) : h.root = some i ∧ Holds (h.setC i .black) t.inorder := by
  refine ⟨by rw [hz.root, hr], ?_⟩
  cases t with
  | leaf => simp [Tree.root] at hr
  | node j c l r =>
    simp only [Tree.root, Option.some.injEq] at hr
    subst hr
    have hnd : (Tree.node j c l r).inorder.Nodup := by simpa [idsC] using hz.nd
    have hz' := RepZ.setC (c := .black) hz (k := j) (by simp [inorder])
    rw [recolor_top hnd] at hz'
    refine ⟨_, hz', ?_, rfl, by simp [inorder]⟩
    cases c with
    | red =>
      obtain ⟨_, _, h1, h2⟩ := hrb
      exact ⟨n + 1, n, rfl, h1, h2⟩
    | black => exact ⟨n, hrb⟩

theorem plug_root_ne {t : Tree} (ctx : List Frame) {i : Nat} (h : t.root = some i) :
    ∃ j, (plug t ctx).root = some j := by
  induction ctx generalizing t i with
  | nil => exact ⟨i, h⟩
  | cons f ctx ih => exact ih (t := f.plug t) (i := f.i) (by simp [Frame.plug])

theorem insertColor_exit {h : Heap} {t : Tree} {ctx : List Frame} {n k : Nat} (hz : RepZ h t ctx)
    (hn : t.root = some n) (htop : topc ctx = .black) (hrb : RB t k) (hc : RBC ctx k)
    (fuel : Nat) :
    ∃ h', insertColor fuel n h = some h' ∧ Holds h' (plug t ctx).inorder := by
  obtain ⟨⟨k', hk'⟩, _⟩ := RB_plug hrb hc (fun _ => htop)
  obtain ⟨j, hj⟩ := plug_root_ne ctx hn
  obtain ⟨g1, g2⟩ := blacken (up_all.1 hz) hj hk'
  refine ⟨_, ?_, g2⟩
  have hp : (h.mem n).p = par ctx := by
    cases t with
    | leaf => simp [Tree.root] at hn
    | node i c l r =>
      simp only [Tree.root, Option.some.injEq] at hn
      subst hn
      rw [hz.foc.1]
  unfold insertColor
  cases ctx with
  | nil => simp only [par, List.head?_nil, Option.map_none] at hp; simp only [hp, g1]
  | cons f ctx =>
    simp only [par, List.head?_cons, Option.map_some] at hp
    simp only [topc] at htop
    have hf : (h.mem f.i).c = .black := by
      rw [hz.around.1, cell_sided, Cell.sided_c, htop]
    simp only [hp, hf, g1, if_true]

theorem side_test {h : Heap} {d : Dir} {g p : Nat} {s q : Option Nat} {c : Color}
    (hg : h.mem g = .sided d (some p) s q c) (hs : s ≠ some p) :
    (if (h.mem g).l = some p then Dir.L else Dir.R) = d := by
  rw [hg]
  cases d <;> simp [Cell.sided, hs]

theorem nullOrBlack_eq {h : Heap} {p : Option Nat} {t : Tree} (hr : Rep h.mem p t) :
    nullOrBlack h t.root = decide (t.col = .black) := by
  cases t with
  | leaf => rfl
  | node i c l r => simp only [nullOrBlack, Tree.root, hr.1, col]; rfl

section
variable {h : Heap} {n p g : Nat} {d : Dir} (fuel : Nat)
  (h1 : (h.mem n).p = some p) (h2 : (h.mem p).c = .red) (h3 : (h.mem p).p = some g)
  (h4 : (if (h.mem g).l = some p then Dir.L else Dir.R) = d)
include h1 h2 h3 h4

theorem insertColor_up {u : Nat} (h5 : nullOrBlack h ((h.mem g).ch d.op) = false)
    (h6 : (h.mem g).ch d.op = some u) :
    insertColor (fuel + 1) n h =
      insertColor fuel g (((h.setC u .black).setC p .black).setC g .red) := by
  rw [insertColor]
  simp only [h1, h2, h3, h4, h5]
  simp only [h6, reduceCtorEq, if_false]

theorem insertColor_inner (h5 : nullOrBlack h ((h.mem g).ch d.op) = true)
    (h6 : (h.mem p).ch d.op = some n) :
    insertColor (fuel + 1) n h = match rotate d p h with
      | none => none
      | some h =>
        match rotate d.op g ((h.setC n .black).setC g .red) with
        | none => none
        | some h => insertColor fuel p h := by
  rw [insertColor]
  simp only [h1, h2, h3, h4, h5]
  simp only [h6, reduceCtorEq, if_false, if_true]
  rfl

theorem insertColor_outer (h5 : nullOrBlack h ((h.mem g).ch d.op) = true)
    (h6 : (h.mem p).ch d.op ≠ some n) :
    insertColor (fuel + 1) n h = match rotate d.op g ((h.setC p .black).setC g .red) with
      | none => none
      | some h => insertColor fuel n h := by
  rw [insertColor]
  simp only [h1, h2, h3, h4, h5]
  simp only [h6, reduceCtorEq, if_false]
  rfl
end

theorem insertColor_spec {h : Heap} {n k : Nat} {a b : Tree} {ctx : List Frame} {fuel : Nat}
    (hz : RepZ h (.node n .red a b) ctx) (hrb : RB (.node n .red a b) k) (hc : RBC ctx k)
    (hf : ctx.length ≤ fuel) :
    ∃ h', insertColor fuel n h = some h' ∧ Holds h' (plug (.node n .red a b) ctx).inorder := by
  induction fuel using Nat.strongRecOn generalizing h n k a b ctx with
  | ind fuel ih =>
  cases htop : topc ctx with
  | black => exact insertColor_exit hz rfl htop hrb hc fuel
  | red =>
  match ctx with
  | [] => simp [topc] at htop
  | [f] =>
    obtain ⟨d1, p, c, s⟩ := f
    simp only [topc] at htop
    subst htop
    exact absurd rfl hc.2.2.1
  | f :: f2 :: ctx =>
  obtain ⟨d1, p, c, s⟩ := f
  simp only [topc] at htop
  subst htop
  obtain ⟨hs, hsb, _, htop, hu, hc2⟩ := hc
  obtain ⟨d, g, c, u⟩ := f2
  simp only [topc] at htop
  subst htop
  dsimp only at hs hsb hu hc2
  match fuel, hf with
  | 0, hf => simp at hf
  | fuel + 1, hf =>
  have hzg := up.1 (up.1 hz)
  obtain ⟨_, ⟨hp, hsr, hg, hur, har⟩, hnd⟩ := id hz
  obtain ⟨hn, hra, hrb'⟩ := hz.foc
  simp only [cell_sided] at hp hg
  rw [Tree.root] at hp
  simp only [par, List.head?_cons, Option.map_some] at hn hp
  simp only [List.nodup_append, idsC, List.nodup_cons, List.mem_append, List.mem_cons, inorder,
    List.cons_append] at hnd
  have hsn : s.root ≠ some n := fun hh => by have := root_mem hh; grind
  have hup : u.root ≠ some p := fun hh => by have := root_mem hh; grind
  have hpn : p ≠ n := by grind
  have hgn : g ≠ n := by grind
  have hgp : g ≠ p := by grind
  have hside := side_test hg hup
  have hund : p ∉ u.inorder := by grind
  have hund' : n ∉ u.inorder := by grind
  have hunB := nullOrBlack_eq hur
  have hns : n ∉ s.inorder := by grind
  have hps : p ∉ s.inorder := by grind
  have hgs : g ∉ s.inorder := by grind
  have hgu : g ∉ u.inorder := by grind
  have hna : n ∉ a.inorder := by grind
  have hpa : p ∉ a.inorder := by grind
  have hga : g ∉ a.inorder := by grind
  have hnb : n ∉ b.inorder := by grind
  have hpb : p ∉ b.inorder := by grind
  have hgb : g ∉ b.inorder := by grind
  have f1 : (h.mem n).p = some p := by rw [hn]
  have f2 : (h.mem p).c = .red := by rw [hp, Cell.sided_c]
  have f3 : (h.mem p).p = some g := by rw [hp, Cell.sided_p]
  have f5 : (h.mem g).ch d.op = u.root := by rw [hg, Cell.sided_ch_op]
  rw [← f5] at hunB
  cases hucol : u.col with
  | red =>
    cases u with
    | leaf => simp [col] at hucol
    | node ui uc ul ur =>
    simp only [col] at hucol
    subst hucol
    simp only [inorder, List.mem_append, List.mem_cons] at hund hund' hgu
    simp only [Tree.root] at f5
    have hul : ui ∉ ul.inorder ∧ ui ∉ ur.inorder := by
      simp only [inorder, List.mem_append, List.mem_cons, List.nodup_append, List.nodup_cons] at hnd
      grind
    have hus : ui ∉ s.inorder ∧ ui ∉ a.inorder ∧ ui ∉ b.inorder ∧ ui ≠ n ∧ ui ≠ p ∧ ui ≠ g := by
      simp only [inorder, List.mem_append, List.mem_cons] at hnd
      grind
    have z1 := hzg.setC (k := ui) (c := .black) (by simp [Frame.plug, mem_sided, inorder])
    have z2 := z1.setC (k := p) (c := .black) (by simp [Frame.plug, mem_sided])
    have z3 := z2.setC (k := g) (c := .red) (by simp [Frame.plug, mem_sided])
    have e3 : recolor g .red (recolor p .black (recolor ui .black
        (Frame.plug ⟨d, g, .black, .node ui .red ul ur⟩
          (Frame.plug ⟨d1, p, .red, s⟩ (.node n .red a b))))) =
        sided d g .red (sided d1 p .black (.node n .red a b) s) (.node ui .black ul ur) := by
      have q1 := recolor_notin (c := .black) hul.1
      have q2 := recolor_notin (c := .black) hul.2
      have q3 := recolor_notin (c := .black) hus.1
      have q4 := recolor_notin (c := .black) hus.2.1
      have q5 := recolor_notin (c := .black) hus.2.2.1
      obtain ⟨_, _, _, q6, q7, q8⟩ := hus
      simp only [Frame.plug, recolor_sided, recolor]
      have := fun c => recolor_notin (t := s) (k := p) (c := c) hps
      have := fun c => recolor_notin (t := s) (k := g) (c := c) hgs
      have := fun c => recolor_notin (t := a) (k := p) (c := c) hpa
      have := fun c => recolor_notin (t := a) (k := g) (c := c) hga
      have := fun c => recolor_notin (t := b) (k := p) (c := c) hpb
      have := fun c => recolor_notin (t := b) (k := g) (c := c) hgb
      have := fun c => recolor_notin (t := ul) (k := p) (c := c) (by grind)
      have := fun c => recolor_notin (t := ul) (k := g) (c := c) (by grind)
      have := fun c => recolor_notin (t := ur) (k := p) (c := c) (by grind)
      have := fun c => recolor_notin (t := ur) (k := g) (c := c) (by grind)
      simp [*, Ne.symm hgp, Ne.symm hpn, Ne.symm hgn, Ne.symm q6]
    rw [e3] at z3
    obtain ⟨a', b', hsd⟩ : ∃ a' b',
        sided d g .red (sided d1 p .black (.node n .red a b) s) (.node ui .black ul ur) =
        .node g .red a' b' := by cases d <;> exact ⟨_, _, rfl⟩
    have hrbg : RB (.node g .red a' b') (k + 1) := by
      rw [← hsd, RB_red]
      obtain ⟨_, _, hu1, hu2⟩ := hu
      exact ⟨by simp, rfl, RB_black.2 ⟨hrb, hs⟩, k, rfl, hu1, hu2⟩
    rw [hsd] at z3
    obtain ⟨h', e', g'⟩ := ih fuel (Nat.lt_succ_self _) z3 hrbg hc2
      (by simp only [List.length_cons] at hf; omega)
    refine ⟨h', by rw [insertColor_up fuel f1 f2 f3 hside (by rw [hunB]; simp [col]) f5]; exact e', ?_⟩
    have : (plug (.node n .red a b) (⟨d1, p, .red, s⟩ :: ⟨d, g, .black, .node ui .red ul ur⟩ ::
        ctx)).inorder = (plug (.node g .red a' b') ctx).inorder := by
      simp only [plug]
      refine plug_inorder ?_ _
      rw [← hsd, ← e3]
      simp
    rw [this]
    exact g'
  | black =>
    -- the last rotation, for the outer grandchild
    have final : ∀ (y n' : Nat) (t' s' : Tree) (h1 : Heap),
        RepZ h1 (sided d g .black (sided d y .red t' s') u) ctx → t'.root = some n' →
        RB t' k → RB s' k → s'.col = .black →
        (sided d g .black (sided d y .red t' s') u).inorder =
          (Frame.plug ⟨d, g, .black, u⟩ (Frame.plug ⟨d1, p, .red, s⟩ (.node n .red a b))).inorder →
        ∃ h2, rotate d.op g ((h1.setC y .black).setC g .red) = some h2 ∧
        ∃ h', insertColor fuel n' h2 = some h' ∧ Holds h' (plug (.node n .red a b)
          (⟨d1, p, .red, s⟩ :: ⟨d, g, .black, u⟩ :: ctx)).inorder := by
      intro y n' t' s' h1 hz1 hroot ht' hs' hs'c hin
      have hnd1 := (List.nodup_append.1 hz1.nd).1
      simp only [nodup_sided, mem_sided] at hnd1
      have z2 := hz1.setC (k := y) (c := .black) (by simp [mem_sided])
      have z3 := z2.setC (k := g) (c := .red) (by simp [mem_sided])
      have e3 : recolor g .red (recolor y .black (sided d g .black (sided d y .red t' s') u)) =
          sided d.op g .red u (sided d.op.op y .black t' s') := by
        simp only [recolor_sided]
        have := fun c => recolor_notin (t := t') (k := y) (c := c) (by grind)
        have := fun c => recolor_notin (t := t') (k := g) (c := c) (by grind)
        have := fun c => recolor_notin (t := s') (k := y) (c := c) (by grind)
        have := fun c => recolor_notin (t := s') (k := g) (c := c) (by grind)
        have := fun c => recolor_notin (t := u) (k := y) (c := c) (by grind)
        have := fun c => recolor_notin (t := u) (k := g) (c := c) (by grind)
        have q : y ≠ g := by grind
        simp [*, sided_op]
      rw [e3] at z3
      obtain ⟨h2, e2, z4⟩ := rotate_spec d.op z3
      refine ⟨h2, e2, ?_⟩
      rw [Dir.op_op] at z4
      have z5 : RepZ h2 t' (⟨d, y, .black, sided d.op g .red u s'⟩ :: ctx) := up.2 z4
      obtain ⟨h', e', g'⟩ := insertColor_exit (k := k) z5 hroot rfl ht'
        ⟨RB_red.2 ⟨hucol, hs'c, hu, hs'⟩, hc2⟩ fuel
      refine ⟨h', e', ?_⟩
      have : (plug (.node n .red a b) (⟨d1, p, .red, s⟩ :: ⟨d, g, .black, u⟩ :: ctx)).inorder =
          (plug t' (⟨d, y, .black, sided d.op g .red u s'⟩ :: ctx)).inorder := by
        simp only [plug]
        refine plug_inorder ?_ _
        rw [← hin]
        cases d <;> simp [Frame.plug, sided, Dir.op, inorder]
      rw [this]
      exact g'
    -- outer or inner grandchild
    rw [hucol] at hunB
    by_cases hd : d1 = d.op
    · subst hd
      rw [insertColor_inner fuel f1 f2 f3 hside hunB (by rw [hp, Cell.sided_ch])]
      obtain ⟨e, b', hsd⟩ := node_sided d.op n .red a b
      have z1 := up.1 hz
      have e1 : Frame.plug ⟨d.op, p, .red, s⟩ (.node n .red a b) =
          sided d p .red s (sided d.op n .red e b') := by
        rw [← hsd]; exact sided_op _ _ _ _ _
      rw [e1] at z1
      obtain ⟨h1, er, z2⟩ := rotate_spec d z1
      rw [hsd] at hrb
      obtain ⟨r1, r2, r3, r4⟩ := RB_red.1 hrb
      have z3 := up.1 z2
      rw [sided_op] at z3
      obtain ⟨h2, er2, h', e', g'⟩ := final n p (sided d p .red s b') e h1 z3 (by simp)
        (RB_red.2 ⟨hsb, r2, hs, r4⟩) r3 r1 (by
          rw [e1]
          cases d <;> simp [Frame.plug, sided, Dir.op, inorder])
      exact ⟨h', by simp only [er, er2, e'], g'⟩
    · have hd' : d1 = d := by cases d1 <;> cases d <;> simp_all [Dir.op]
      subst hd'
      rw [insertColor_outer fuel f1 f2 f3 hside hunB (by rw [hp, Cell.sided_ch_op]; exact hsn)]
      obtain ⟨h2, er2, h', e', g'⟩ := final p n (.node n .red a b) s h hzg rfl hrb hs hsb rfl
      exact ⟨h', by simp only [er2, e'], g'⟩

end Fio.RbTree
