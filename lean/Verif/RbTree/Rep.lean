/-
Trees as the heap of `Verif.RbTree.Model` holds them, and how the pointer operations of
lib/rbtree.c act on them.
-/
import Verif.RbTree.Model
namespace Fio.RbTree

/-- A binary tree of node addresses with colours. -/
inductive Tree
  | leaf
  | node (i : Nat) (c : Color) (l r : Tree)
deriving DecidableEq, Repr

namespace Tree

/-- Address of the root. -/
def root : Tree → Option Nat
  | leaf => none
  | node i _ _ _ => some i

/-- Colour of the root; no node counts as black. -/
def col : Tree → Color
  | leaf => .black
  | node _ c _ _ => c

/-- The nodes in order. -/
def inorder : Tree → List Nat
  | leaf => []
  | node i _ l r => l.inorder ++ i :: r.inorder

/-- Number of nodes. -/
def size : Tree → Nat
  | leaf => 0
  | node _ _ l r => l.size + 1 + r.size

/-- A node given by its child on side `d` and the other child. -/
def sided (d : Dir) (i : Nat) (c : Color) (near far : Tree) : Tree :=
  match d with
  | .L => node i c near far
  | .R => node i c far near

/-- Give one node another colour. -/
def recolor (k : Nat) (c' : Color) : Tree → Tree
  | leaf => leaf
  | node i c l r => node i (if i = k then c' else c) (recolor k c' l) (recolor k c' r)

end Tree
open Tree

/-- The heap holds tree `t` with parent pointer `p` at its root. -/
def Rep (m : Nat → Cell) : Option Nat → Tree → Prop
  | _, .leaf => True
  | p, .node i c l r =>
    m i = ⟨l.root, r.root, p, c⟩ ∧ Rep m (some i) l ∧ Rep m (some i) r

/-- One step of the way from a subtree to the root: the ancestor, the side the subtree hangs on,
and the other subtree of the ancestor. -/
structure Frame where
  d : Dir
  i : Nat
  c : Color
  sib : Tree

/-- The tree one level up. -/
def Frame.plug (f : Frame) (t : Tree) : Tree := sided f.d f.i f.c t f.sib

/-- The whole tree. -/
def plug : Tree → List Frame → Tree
  | t, [] => t
  | t, f :: ctx => plug (f.plug t) ctx

/-- The parent pointer of the subtree in the hole. -/
def par (ctx : List Frame) : Option Nat := ctx.head?.map (·.i)

/-- Child links as a pair. -/
def Frame.cell (f : Frame) (hole : Option Nat) (p : Option Nat) : Cell :=
  match f.d with
  | .L => ⟨hole, f.sib.root, p, f.c⟩
  | .R => ⟨f.sib.root, hole, p, f.c⟩

/-- The heap holds everything around a subtree whose root is `hole`. -/
def RepC (m : Nat → Cell) (root : Option Nat) : List Frame → Option Nat → Prop
  | [], hole => root = hole
  | f :: ctx, hole =>
    m f.i = f.cell hole (par ctx) ∧ Rep m (some f.i) f.sib ∧ RepC m root ctx (some f.i)

/-- Nodes around the hole. -/
def idsC : List Frame → List Nat
  | [] => []
  | f :: ctx => f.i :: f.sib.inorder ++ idsC ctx

/-- The heap holds a tree with `t` in focus. -/
structure RepZ (h : Heap) (t : Tree) (ctx : List Frame) : Prop where
  foc : Rep h.mem (par ctx) t
  around : RepC h.mem h.root ctx t.root
  nd : (t.inorder ++ idsC ctx).Nodup

/-- The heap holds the tree `t`. -/
def RepT (h : Heap) (t : Tree) : Prop := RepZ h t []

theorem plug_eq_foldl (t : Tree) (ctx : List Frame) :
    plug t ctx = ctx.foldl (fun t f => f.plug t) t := by
  induction ctx generalizing t with
  | nil => rfl
  | cons f ctx ih => simp [plug, ih]

theorem up {h : Heap} {t : Tree} {f : Frame} {ctx : List Frame} :
    RepZ h t (f :: ctx) ↔ RepZ h (f.plug t) ctx := by
  obtain ⟨d, i, c, sib⟩ := f
  constructor
  · rintro ⟨h1, h2, h3⟩
    obtain ⟨h4, h5, h6⟩ := h2
    cases d
    · refine ⟨⟨h4, h1, h5⟩, h6, ?_⟩
      simp only [Frame.plug, sided, inorder, idsC, List.nodup_append, List.nodup_cons] at h3 ⊢
      grind
    · refine ⟨⟨h4, h5, h1⟩, h6, ?_⟩
      simp only [Frame.plug, sided, inorder, idsC, List.nodup_append, List.nodup_cons] at h3 ⊢
      grind
  · rintro ⟨h1, h2, h3⟩
    cases d
    · obtain ⟨h4, h5, h6⟩ := h1
      refine ⟨h5, ⟨h4, h6, h2⟩, ?_⟩
      simp only [Frame.plug, sided, inorder, idsC, List.nodup_append, List.nodup_cons] at h3 ⊢
      grind
    · obtain ⟨h4, h5, h6⟩ := h1
      refine ⟨h6, ⟨h4, h5, h2⟩, ?_⟩
      simp only [Frame.plug, sided, inorder, idsC, List.nodup_append, List.nodup_cons] at h3 ⊢
      grind

theorem up_all {h : Heap} {t : Tree} {ctx : List Frame} :
    RepZ h t ctx ↔ RepT h (plug t ctx) := by
  induction ctx generalizing t with
  | nil => rfl
  | cons f ctx ih => rw [up, ih]; rfl

theorem root_mem {t : Tree} {i : Nat} (h : t.root = some i) : i ∈ t.inorder := by
  cases t <;> simp_all [root, inorder]

theorem Rep.congr {m m' : Nat → Cell} {p : Option Nat} {t : Tree} (h : Rep m p t)
    (hm : ∀ j ∈ t.inorder, m' j = m j) : Rep m' p t := by
  induction t generalizing p with
  | leaf => trivial
  | node i c l r ihl ihr =>
    obtain ⟨h1, h2, h3⟩ := h
    simp only [inorder, List.mem_append, List.mem_cons] at hm
    exact ⟨by rw [hm i (by simp)]; exact h1, ihl h2 (fun j hj => hm j (by simp [hj])),
      ihr h3 (fun j hj => hm j (by simp [hj]))⟩

theorem Rep.reparent {m m' : Nat → Cell} {p q : Option Nat} {t : Tree} (h : Rep m p t)
    (hnd : t.inorder.Nodup)
    (hm : ∀ j ∈ t.inorder, m' j = if t.root = some j then { m j with p := q } else m j) :
    Rep m' q t := by
  cases t with
  | leaf => trivial
  | node i c l r =>
    obtain ⟨h1, h2, h3⟩ := h
    simp only [inorder, List.mem_append, List.mem_cons, root, Option.some.injEq] at hm
    simp only [inorder, List.nodup_append, List.nodup_cons] at hnd
    refine ⟨?_, h2.congr ?_, h3.congr ?_⟩
    · rw [hm i (by simp), if_pos rfl, h1]
    · intro j hj
      rw [hm j (by simp [hj]), if_neg (by grind)]
    · intro j hj
      rw [hm j (by simp [hj]), if_neg (by grind)]

theorem RepC.congr {m m' : Nat → Cell} {r : Option Nat} {ctx : List Frame} {hole : Option Nat}
    (h : RepC m r ctx hole) (hm : ∀ j ∈ idsC ctx, m' j = m j) : RepC m' r ctx hole := by
  induction ctx generalizing hole with
  | nil => exact h
  | cons f ctx ih =>
    obtain ⟨h1, h2, h3⟩ := h
    simp only [idsC, List.mem_append, List.mem_cons] at hm
    exact ⟨by rw [hm f.i (by simp)]; exact h1, h2.congr (fun j hj => hm j (by simp [hj])),
      ih h3 (fun j hj => hm j (by simp [hj]))⟩

/-- The effect of `relink` on the surroundings of a node. -/
theorem RepC.relink {h : Heap} {d : Dir} {n : Nat} {v : Option Nat} {ctx : List Frame}
    (hc : RepC h.mem h.root ctx (some n)) (hnd : (n :: idsC ctx).Nodup) :
    RepC (h.relink d (par ctx) n v).mem (h.relink d (par ctx) n v).root ctx v ∧
    (∀ j, j ∉ idsC ctx → (h.relink d (par ctx) n v).mem j = h.mem j) := by
  cases ctx with
  | nil => exact ⟨rfl, fun j _ => rfl⟩
  | cons f ctx =>
    obtain ⟨d', i, c, sib⟩ := f
    obtain ⟨h1, h2, h3⟩ := hc
    have hsib : sib.root ≠ some n := fun hh => by
      have := root_mem hh
      simp [idsC] at hnd
      grind
    simp only [par, List.head?_cons, Option.map_some, Heap.relink]
    have key : (if (h.mem i).ch d = some n then h.setCh d i v else h.setCh d.op i v) =
        h.setCh d' i v := by
      dsimp only at h1
      cases d <;> cases d' <;> simp_all [Frame.cell, Cell.ch, Dir.op]
    rw [key]
    dsimp only at h1 h2 h3
    simp only [idsC, List.nodup_cons, List.nodup_append, List.mem_append, List.mem_cons,
      List.cons_append] at hnd
    refine ⟨⟨?_, h2.congr ?_, ?_⟩, ?_⟩
    · cases d' <;> simp [Heap.setCh, Heap.put, h1, Cell.setCh, Frame.cell, par]
    · intro j hj
      have : j ≠ i := by grind
      simp [Heap.setCh, Heap.put, this]
    · refine RepC.congr (m := h.mem) h3 ?_
      intro j hj
      have : j ≠ i := by grind
      simp [Heap.setCh, Heap.put, this]
    · intro j hj
      have : j ≠ i := by simp only [idsC] at hj; grind
      simp [Heap.setCh, Heap.put, this]


@[simp] theorem put_mem (h : Heap) (i j : Nat) (x : Cell) :
    (h.put i x).mem j = if j = i then x else h.mem j := rfl

@[simp] theorem put_root (h : Heap) (i : Nat) (x : Cell) : (h.put i x).root = h.root := rfl

theorem setPOpt_mem (h : Heap) (x p : Option Nat) (j : Nat) :
    (h.setPOpt x p).mem j = if x = some j then { h.mem j with p := p } else h.mem j := by
  cases x with
  | none => simp [Heap.setPOpt]
  | some b =>
    simp only [Heap.setPOpt, Heap.setP, put_mem, Option.some.injEq]
    by_cases hj : j = b
    · subst hj; simp
    · rw [if_neg hj, if_neg (fun hh => hj hh.symm)]

@[simp] theorem setPOpt_root (h : Heap) (x p : Option Nat) : (h.setPOpt x p).root = h.root := by
  cases x <;> rfl

theorem setBlackOpt_mem (h : Heap) (x : Option Nat) (j : Nat) :
    (h.setBlackOpt x).mem j = if x = some j then { h.mem j with c := .black } else h.mem j := by
  cases x with
  | none => simp [Heap.setBlackOpt]
  | some b =>
    simp only [Heap.setBlackOpt, Heap.setC, put_mem, Option.some.injEq]
    by_cases hj : j = b
    · subst hj; simp
    · rw [if_neg hj, if_neg (fun hh => hj hh.symm)]

@[simp] theorem setBlackOpt_root (h : Heap) (x : Option Nat) :
    (h.setBlackOpt x).root = h.root := by
  cases x <;> rfl

/-- A cell given by its link on side `d` and the other one. -/
def Cell.sided (d : Dir) (near far p : Option Nat) (c : Color) : Cell :=
  match d with
  | .L => ⟨near, far, p, c⟩
  | .R => ⟨far, near, p, c⟩

@[simp] theorem Dir.op_op (d : Dir) : d.op.op = d := by cases d <;> rfl

section
variable (d : Dir) (near far p v : Option Nat) (c c' : Color)
@[simp] theorem Cell.sided_ch : (Cell.sided d near far p c).ch d = near := by cases d <;> rfl
@[simp] theorem Cell.sided_ch_op : (Cell.sided d near far p c).ch d.op = far := by cases d <;> rfl
@[simp] theorem Cell.sided_setCh : (Cell.sided d near far p c).setCh d v = .sided d v far p c := by
  cases d <;> rfl
@[simp] theorem Cell.sided_setCh_op :
    (Cell.sided d near far p c).setCh d.op v = .sided d near v p c := by
  cases d <;> rfl
@[simp] theorem Cell.sided_p : (Cell.sided d near far p c).p = p := by cases d <;> rfl
@[simp] theorem Cell.sided_c : (Cell.sided d near far p c).c = c := by cases d <;> rfl
@[simp] theorem Cell.sided_setP :
    ({ Cell.sided d near far p c with p := v } : Cell) = .sided d near far v c := by
  cases d <;> rfl
@[simp] theorem Cell.sided_setC :
    ({ Cell.sided d near far p c with c := c' } : Cell) = .sided d near far p c' := by
  cases d <;> rfl
end

theorem Rep_sided {m : Nat → Cell} {p : Option Nat} {d : Dir} {i : Nat} {c : Color}
    {n f : Tree} : Rep m p (sided d i c n f) ↔
      m i = .sided d n.root f.root p c ∧ Rep m (some i) n ∧ Rep m (some i) f := by
  cases d
  · rfl
  · simp only [Rep, sided, Cell.sided]; grind

@[simp] theorem root_sided (d : Dir) (i : Nat) (c : Color) (n f : Tree) :
    (sided d i c n f).root = some i := by cases d <;> rfl

@[simp] theorem col_sided (d : Dir) (i : Nat) (c : Color) (n f : Tree) :
    (sided d i c n f).col = c := by cases d <;> rfl

theorem mem_sided {d : Dir} {i j : Nat} {c : Color} {n f : Tree} :
    j ∈ (sided d i c n f).inorder ↔ j = i ∨ j ∈ n.inorder ∨ j ∈ f.inorder := by
  cases d <;> simp [sided, inorder] <;> grind

theorem nodup_sided {d : Dir} {i : Nat} {c : Color} {n f : Tree} :
    (sided d i c n f).inorder.Nodup ↔ i ∉ n.inorder ∧ i ∉ f.inorder ∧ n.inorder.Nodup ∧
      f.inorder.Nodup ∧ ∀ j ∈ n.inorder, j ∉ f.inorder := by
  cases d <;> simp [sided, inorder, List.nodup_append] <;> grind

theorem rotate_spec (d : Dir) {h : Heap} {x y : Nat} {cx cy : Color} {a b e : Tree}
    {ctx : List Frame} (hz : RepZ h (sided d x cx a (sided d.op y cy e b)) ctx) :
    ∃ h', rotate d x h = some h' ∧
      RepZ h' (sided d.op y cy e (sided d x cx a b)) ctx := by
  obtain ⟨h1, h2, h3⟩ := hz
  rw [Rep_sided, root_sided, Rep_sided] at h1
  obtain ⟨hx, ha, hy, he, hb⟩ := h1
  rw [root_sided] at h2
  simp only [List.nodup_append, nodup_sided, mem_sided] at h3
  have hyx : y ≠ x := by grind
  have hbx : b.root ≠ some x := fun hh => by have := root_mem hh; grind
  have hby : b.root ≠ some y := fun hh => by have := root_mem hh; grind
  have hy' : h.mem y = .sided d b.root e.root (some x) cy := by rw [hy]; cases d <;> rfl
  have e0 : rotate d x h = some ((((((h.setCh d.op x b.root).setPOpt b.root (some x)).setCh d y
      (some x)).setP y (par ctx)).relink d (par ctx) x (some y)).setP x (some y)) := by
    simp [rotate, hx, hy']
  generalize hh4 : ((((h.setCh d.op x b.root).setPOpt b.root (some x)).setCh d y
      (some x)).setP y (par ctx)) = h4 at e0
  have hr4 : h4.root = h.root := by subst hh4; simp [Heap.setP, Heap.setCh]
  have hm4 : ∀ j, h4.mem j = if j = y then .sided d (some x) e.root (par ctx) cy else
      if j = x then .sided d a.root b.root (par ctx) cx else
      if b.root = some j then { h.mem j with p := some x } else h.mem j := by
    intro j
    subst hh4
    simp only [Heap.setP, Heap.setCh, put_mem, setPOpt_mem]
    by_cases hjy : j = y
    · subst hjy; simp [hby, hyx, hy']; cases d <;> rfl
    · by_cases hjx : j = x
      · subst hjx; simp [hbx, hx, hjy]
      · simp [hjx, hjy]
  clear hh4
  have hc4 : RepC h4.mem h4.root ctx (some x) := by
    rw [hr4]
    refine h2.congr (fun j hj => ?_)
    have hbj : b.root ≠ some j := fun hh => by have := root_mem hh; grind
    rw [hm4, if_neg (by grind), if_neg (by grind), if_neg hbj]
  obtain ⟨hr, hk⟩ := RepC.relink (d := d) (v := some y) hc4
    (by rw [List.nodup_cons]; grind)
  generalize hh5 : h4.relink d (par ctx) x (some y) = h5 at e0 hr hk
  refine ⟨_, e0, ?_, ?_, ?_⟩
  · have hm6 : ∀ j, j ∉ idsC ctx → (h5.setP x (some y)).mem j =
        if j = x then { h4.mem x with p := some y } else h4.mem j := by
      intro j hj
      simp only [Heap.setP, put_mem]
      by_cases hjx : j = x
      · subst hjx; rw [if_pos rfl, if_pos rfl, hk _ hj]
      · rw [if_neg hjx, if_neg hjx, hk _ hj]
    rw [Rep_sided, root_sided, Rep_sided]
    refine ⟨?_, ?_, ?_, ?_, ?_⟩
    · rw [hm6 y (by grind), if_neg hyx, hm4, if_pos rfl]; cases d <;> rfl
    · refine he.congr (fun j hj => ?_)
      have hbj : b.root ≠ some j := fun hh => by have := root_mem hh; grind
      rw [hm6 j (by grind), if_neg (by grind), hm4, if_neg (by grind), if_neg (by grind),
        if_neg hbj]
    · rw [hm6 x (by grind), if_pos rfl, hm4, if_neg (Ne.symm hyx), if_pos rfl]; cases d <;> rfl
    · refine ha.congr (fun j hj => ?_)
      have hbj : b.root ≠ some j := fun hh => by have := root_mem hh; grind
      rw [hm6 j (by grind), if_neg (by grind), hm4, if_neg (by grind), if_neg (by grind),
        if_neg hbj]
    · refine hb.reparent (by grind) (fun j hj => ?_)
      rw [hm6 j (by grind), if_neg (by grind), hm4, if_neg (by grind), if_neg (by grind)]
  · rw [root_sided]
    have : (h5.setP x (some y)).root = h5.root := rfl
    rw [this]
    refine hr.congr (fun j hj => ?_)
    simp only [Heap.setP, put_mem]
    rw [if_neg (by grind)]
  · simp only [List.nodup_append, nodup_sided, mem_sided]
    grind

theorem inorder_rotate (d : Dir) (x y : Nat) (cx cy cx' cy' : Color) (a b e : Tree) :
    (sided d.op y cy' e (sided d x cx' a b)).inorder =
      (sided d x cx a (sided d.op y cy e b)).inorder := by
  cases d <;> simp [sided, Dir.op, inorder]

theorem recolor_notin {k : Nat} {c : Color} {t : Tree} (h : k ∉ t.inorder) :
    recolor k c t = t := by
  induction t with
  | leaf => rfl
  | node i c' l r ihl ihr =>
    simp only [inorder, List.mem_append, List.mem_cons] at h
    simp only [recolor]
    rw [if_neg (by grind), ihl (by grind), ihr (by grind)]

@[simp] theorem recolor_root (k : Nat) (c : Color) (t : Tree) : (recolor k c t).root = t.root := by
  cases t <;> rfl

@[simp] theorem recolor_inorder (k : Nat) (c : Color) (t : Tree) :
    (recolor k c t).inorder = t.inorder := by
  induction t with
  | leaf => rfl
  | node i c' l r ihl ihr => simp [recolor, inorder, ihl, ihr]

theorem recolor_sided (k : Nat) (c' : Color) (d : Dir) (i : Nat) (c : Color) (n f : Tree) :
    recolor k c' (sided d i c n f) =
      sided d i (if i = k then c' else c) (recolor k c' n) (recolor k c' f) := by
  cases d <;> rfl

theorem Rep.setC {h : Heap} {p : Option Nat} {t : Tree} {k : Nat} {c : Color}
    (hr : Rep h.mem p t) : Rep (h.setC k c).mem p (recolor k c t) := by
  induction t generalizing p with
  | leaf => trivial
  | node i c' l r ihl ihr =>
    obtain ⟨h1, h2, h3⟩ := hr
    refine ⟨?_, ihl h2, ihr h3⟩
    simp only [Heap.setC, put_mem, recolor_root]
    by_cases hk : i = k
    · subst hk; simp [h1]
    · rw [if_neg hk, if_neg hk, h1]

/-- Setting the colour of a node in focus. -/
theorem RepZ.setC {h : Heap} {t : Tree} {ctx : List Frame} {k : Nat} {c : Color}
    (hz : RepZ h t ctx) (hk : k ∈ t.inorder) : RepZ (h.setC k c) (recolor k c t) ctx := by
  obtain ⟨h1, h2, h3⟩ := hz
  refine ⟨h1.setC, ?_, by simpa using h3⟩
  rw [recolor_root]
  refine RepC.congr (m := h.mem) h2 (fun j hj => ?_)
  simp only [List.nodup_append] at h3
  simp only [Heap.setC, put_mem]
  rw [if_neg (by grind)]

end Fio.RbTree
