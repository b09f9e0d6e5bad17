/-
`__rb_erase_color` and `rb_erase`.
-/
import Verif.RbTree.Insert
namespace Fio.RbTree
open Tree

theorem sided_node (d : Dir) (i : Nat) (c : Color) (a b : Tree) :
    ∃ l r, sided d i c a b = .node i c l r := by cases d <;> exact ⟨_, _, rfl⟩

theorem recolor_top' {d : Dir} {i : Nat} {c c' : Color} {a b : Tree}
    (h : (sided d i c a b).inorder.Nodup) :
    recolor i c' (sided d i c a b) = sided d i c' a b := by
  rw [nodup_sided] at h
  rw [recolor_sided, if_pos rfl, recolor_notin h.1, recolor_notin h.2.1]

theorem side_test' {h : Heap} {d : Dir} {g : Nat} {x s q : Option Nat} {c : Color}
    (hg : h.mem g = .sided d x s q c) (hs : s ≠ x) :
    (if (h.mem g).l = x then Dir.L else Dir.R) = d := by
  rw [hg]
  cases d <;> simp [Cell.sided, hs]

/-- `node = root->rb_node; break;` and the last statement of `__rb_erase_color`. -/
theorem done_root {h : Heap} {t : Tree} {n : Nat} (hz : RepT h t) (hrb : RB t n) :
    Holds (eraseDone h.root h) t.inorder := by
  cases t with
  | leaf =>
    rw [hz.root]
    exact ⟨.leaf, hz, ⟨n, hrb⟩, rfl, rfl⟩
  | node i c l r =>
    obtain ⟨g1, g2⟩ := blacken hz rfl hrb
    rw [g1]
    exact g2

/-- Leaving the loop on a red node: it becomes black. -/
theorem done_red {h : Heap} {d : Dir} {p k : Nat} {a b : Tree} {ctx : List Frame}
    (hz : RepZ h (sided d p .red a b) ctx) (ha : RB a k) (hb : RB b k) (hc : RBC ctx (k + 1)) :
    Holds (eraseDone (some p) h) (plug (sided d p .red a b) ctx).inorder := by
  have z := hz.setC (k := p) (c := .black) (by simp [mem_sided])
  rw [recolor_top' (List.nodup_append.1 hz.nd).1] at z
  obtain ⟨g1, g2⟩ := RB_plug (t := sided d p .black a b) (RB_black.2 ⟨ha, hb⟩) hc (by simp)
  exact ⟨_, up_all.1 z, g1, g2 (Or.inr (by simp)),
    plug_inorder (by cases d <;> simp [sided, inorder]) _⟩

theorem eraseColor_exit {fuel : Nat} {x p : Option Nat} {h : Heap}
    (hx : (nullOrBlack h x && x != h.root) = false) :
    eraseColor fuel x p h = some (eraseDone x h) := by
  unfold eraseColor
  rw [hx]
  simp

theorem eraseColor_black {fuel p o : Nat} {x : Option Nat} {h : Heap} {d : Dir}
    (hx : (nullOrBlack h x && x != h.root) = true)
    (hd : (if (h.mem p).l = x then Dir.L else Dir.R) = d)
    (ho : (h.mem p).ch d.op = some o) (hoc : (h.mem o).c = .black) :
    eraseColor (fuel + 1) x (some p) h = match eraseRound d p o h with
      | none => none
      | some (.inl h) => eraseColor fuel (some p) (h.mem p).p h
      | some (.inr h) => some (eraseDone h.root h) := by
  rw [eraseColor, hx]
  simp only [if_true, hd, ho, hoc, reduceCtorEq, if_false]
  rfl

theorem eraseColor_red {fuel p o o' : Nat} {x : Option Nat} {h h' : Heap} {d : Dir}
    (hx : (nullOrBlack h x && x != h.root) = true)
    (hd : (if (h.mem p).l = x then Dir.L else Dir.R) = d)
    (ho : (h.mem p).ch d.op = some o) (hoc : (h.mem o).c = .red)
    (hr : rotate d p ((h.setC o .black).setC p .red) = some h')
    (ho' : (h'.mem p).ch d.op = some o') :
    eraseColor (fuel + 1) x (some p) h = match eraseRound d p o' h' with
      | none => none
      | some (.inl h) => eraseColor fuel (some p) (h.mem p).p h
      | some (.inr h) => some (eraseDone h.root h) := by
  rw [eraseColor, hx]
  simp only [if_true, hd, ho, hoc, hr, ho']
  rfl

/-- The final rotation of `__rb_erase_color` (lib/rbtree.c:172-176). -/
theorem last_spec {h : Heap} {d : Dir} {p o ei : Nat} {cp co : Color} {t b e1 e2 : Tree}
    {ctx : List Frame}
    (hz : RepZ h (sided d p cp t (sided d.op o co (.node ei .red e1 e2) b)) ctx) :
    ∃ h', rotate d p (((h.setC o (h.mem p).c).setC p .black).setBlackOpt ((h.mem o).ch d.op)) =
        some h' ∧
      RepZ h' (sided d.op o cp (.node ei .black e1 e2) (sided d p .black t b)) ctx := by
  have hnd := (List.nodup_append.1 hz.nd).1
  have hf := hz.foc
  rw [Rep_sided, Rep_sided] at hf
  obtain ⟨hp, _, ho, _, _⟩ := hf
  rw [hp, ho, Cell.sided_c, Cell.sided_ch]
  simp only [Tree.root, Heap.setBlackOpt]
  have z1 := hz.setC (k := o) (c := cp) (by simp [mem_sided])
  have z2 := z1.setC (k := p) (c := .black) (by simp [mem_sided])
  have z3 := z2.setC (k := ei) (c := .black) (by simp [mem_sided, inorder])
  have e : recolor ei .black (recolor p .black (recolor o cp
      (sided d p cp t (sided d.op o co (.node ei .red e1 e2) b)))) =
      sided d p .black t (sided d.op o cp (.node ei .black e1 e2) b) := by
    simp only [nodup_sided, mem_sided, inorder, List.mem_append, List.mem_cons, List.nodup_append,
      List.nodup_cons] at hnd
    have := fun c => recolor_notin (t := t) (k := o) (c := c) (by grind)
    have := fun c => recolor_notin (t := t) (k := p) (c := c) (by grind)
    have := fun c => recolor_notin (t := t) (k := ei) (c := c) (by grind)
    have := fun c => recolor_notin (t := b) (k := o) (c := c) (by grind)
    have := fun c => recolor_notin (t := b) (k := p) (c := c) (by grind)
    have := fun c => recolor_notin (t := b) (k := ei) (c := c) (by grind)
    have := fun c => recolor_notin (t := e1) (k := o) (c := c) (by grind)
    have := fun c => recolor_notin (t := e1) (k := p) (c := c) (by grind)
    have := fun c => recolor_notin (t := e1) (k := ei) (c := c) (by grind)
    have := fun c => recolor_notin (t := e2) (k := o) (c := c) (by grind)
    have := fun c => recolor_notin (t := e2) (k := p) (c := c) (by grind)
    have := fun c => recolor_notin (t := e2) (k := ei) (c := c) (by grind)
    have : o ≠ p := by grind
    have : o ≠ ei := by grind
    have : p ≠ ei := by grind
    have : ei ≠ o := by grind
    have : ei ≠ p := by grind
    have : p ≠ o := by grind
    simp [recolor_sided, recolor, *]
  rw [e] at z3
  exact rotate_spec d z3

/-- The surroundings of `parent`, given its colour. -/
def Accept (cp : Color) (ctx : List Frame) (k : Nat) : Prop :=
  match cp with
  | .red => topc ctx = .black ∧ ctx ≠ [] ∧ RBC ctx (k + 1)
  | .black => RBC ctx (k + 2)

theorem last_holds {h : Heap} {d : Dir} {p o ei k : Nat} {cp : Color} {t b e1 e2 : Tree}
    {ctx : List Frame}
    (hz : RepZ h (sided d.op o cp (.node ei .black e1 e2) (sided d p .black t b)) ctx)
    (he1 : RB e1 k) (he2 : RB e2 k) (ht : RB t k) (hb : RB b k) (hc : Accept cp ctx k) :
    Holds (eraseDone h.root h)
      (plug (sided d.op o cp (.node ei .black e1 e2) (sided d p .black t b)) ctx).inorder := by
  have hE : RB (.node ei .black e1 e2) (k + 1) := ⟨k, rfl, he1, he2⟩
  have hP : RB (sided d p .black t b) (k + 1) := RB_black.2 ⟨ht, hb⟩
  cases cp with
  | red =>
    obtain ⟨g1, _⟩ := RB_plug (RB_red.2 ⟨rfl, by simp, hE, hP⟩) hc.2.2 (fun _ => hc.1)
    obtain ⟨n, g1⟩ := g1
    exact done_root (up_all.1 hz) g1
  | black =>
    obtain ⟨g1, _⟩ := RB_plug (RB_black.2 ⟨hE, hP⟩) hc (by simp)
    obtain ⟨n, g1⟩ := g1
    exact done_root (up_all.1 hz) g1

theorem swap_sib {h : Heap} {t s : Tree} {d : Dir} {p : Nat} {c : Color} {ctx : List Frame} :
    RepZ h t (⟨d, p, c, s⟩ :: ctx) ↔ RepZ h s (⟨d.op, p, c, t⟩ :: ctx) := by
  rw [up, up]
  simp only [Frame.plug, sided_op]

theorem nullOrBlack_both {h : Heap} {i : Nat} {p : Option Nat} {c : Color} {d : Dir} {a b : Tree}
    (hr : Rep h.mem p (sided d i c a b)) :
    (nullOrBlack h (h.mem i).l && nullOrBlack h (h.mem i).r) =
      (decide (a.col = .black) && decide (b.col = .black)) := by
  rw [Rep_sided] at hr
  obtain ⟨h1, h2, h3⟩ := hr
  rw [h1, ← nullOrBlack_eq h2, ← nullOrBlack_eq h3]
  cases d
  · rfl
  · simp only [Cell.sided]; exact Bool.and_comm _ _

/-- One round with a black sibling. -/
theorem round_spec {h : Heap} {d : Dir} {p o k fuel : Nat} {cp : Color} {t e b : Tree}
    {ctx : List Frame}
    (ih : cp = .black → ∀ (h : Heap) (t' : Tree) (k' : Nat), RepZ h t' ctx → t'.col = .black →
      RB t' k' → RBC ctx (k' + 1) →
      ∃ h', eraseColor fuel t'.root (par ctx) h = some h' ∧ Holds h' (plug t' ctx).inorder)
    (hz : RepZ h (sided d p cp t (sided d.op o .black e b)) ctx)
    (ht : RB t k) (he : RB e k) (hb : RB b k) (hc : Accept cp ctx k) :
    ∃ h', (match eraseRound d p o h with
      | none => none
      | some (.inl h) => eraseColor fuel (some p) (h.mem p).p h
      | some (.inr h) => some (eraseDone h.root h)) = some h' ∧
      Holds h' (plug (sided d p cp t (sided d.op o .black e b)) ctx).inorder := by
  have hnd := (List.nodup_append.1 hz.nd).1
  have hf := hz.foc
  rw [Rep_sided, Rep_sided] at hf
  obtain ⟨hp, _, ho, her, hbr⟩ := hf
  have hnb := nullOrBlack_both ((Rep_sided (m := h.mem)).2 ⟨ho, her, hbr⟩)
  unfold eraseRound
  rw [hnb]
  cases hec : e.col with
  | black =>
    cases hbc : b.col with
    | black =>
      -- both nephews black
      rw [if_pos (by simp)]
      simp only
      have z1 := hz.setC (k := o) (c := .red) (by simp [mem_sided])
      have e1 : recolor o .red (sided d p cp t (sided d.op o .black e b)) =
          sided d p cp t (sided d.op o .red e b) := by
        simp only [nodup_sided, mem_sided] at hnd
        have := fun c => recolor_notin (t := t) (k := o) (c := c) (by grind)
        have := fun c => recolor_notin (t := e) (k := o) (c := c) (by grind)
        have := fun c => recolor_notin (t := b) (k := o) (c := c) (by grind)
        have : p ≠ o := by grind
        simp [recolor_sided, *]
      rw [e1] at z1
      have hS : RB (sided d.op o .red e b) k := RB_red.2 ⟨hec, hbc, he, hb⟩
      have hf1 := z1.foc
      rw [Rep_sided] at hf1
      have hpp : ((h.setC o .red).mem p).p = par ctx := by rw [hf1.1, Cell.sided_p]
      rw [hpp]
      have hin : (plug (sided d p cp t (sided d.op o .black e b)) ctx).inorder =
          (plug (sided d p cp t (sided d.op o .red e b)) ctx).inorder :=
        plug_inorder (by cases d <;> simp [sided, Dir.op, inorder]) _
      rw [hin]
      cases cp with
      | red =>
        rw [eraseColor_exit (by simp [nullOrBlack, hf1.1])]
        exact ⟨_, rfl, done_red z1 ht hS hc.2.2⟩
      | black =>
        have := ih rfl _ _ (k + 1) z1 (by simp) (RB_black.2 ⟨ht, hS⟩) hc
        rwa [root_sided] at this
    | red =>
      -- far nephew black, near nephew red
      rw [if_neg (by simp)]
      cases hb' : b with
      | leaf => rw [hb'] at hbc; simp [col] at hbc
      | node bi c0 bl br =>
      obtain ⟨b1, b2, hbs⟩ := node_sided d bi c0 bl br
      rw [hb', hbs] at hz hb hnd ho hbr
      rw [hb', hbs] at hbc
      rw [col_sided] at hbc
      subst hbc
      obtain ⟨hb1c, hb2c, hb1, hb2⟩ := RB_red.1 hb
      have hfar : nullOrBlack h ((h.mem o).ch d.op) = true := by
        rw [ho, Cell.sided_ch, nullOrBlack_eq her, hec]; rfl
      have hnear : (h.mem o).ch d = some bi := by
        rw [ho]; cases d <;> simp [Cell.sided, Cell.ch, Dir.op]
      have z1 := swap_sib.1 (up.2 hz :
        RepZ h t (⟨d, p, cp, sided d.op o .black e (sided d bi .red b1 b2)⟩ :: ctx))
      have z2 := z1.setC (k := bi) (c := .black) (by simp [mem_sided])
      have z3 := z2.setC (k := o) (c := .red) (by simp [mem_sided])
      have e1 : recolor o .red (recolor bi .black
          (sided d.op o .black e (sided d bi .red b1 b2))) =
          sided d.op o .red e (sided d.op.op bi .black b1 b2) := by
        simp only [nodup_sided, mem_sided] at hnd
        have := fun c => recolor_notin (t := e) (k := o) (c := c) (by grind)
        have := fun c => recolor_notin (t := b1) (k := o) (c := c) (by grind)
        have := fun c => recolor_notin (t := b2) (k := o) (c := c) (by grind)
        have := fun c => recolor_notin (t := e) (k := bi) (c := c) (by grind)
        have := fun c => recolor_notin (t := b1) (k := bi) (c := c) (by grind)
        have := fun c => recolor_notin (t := b2) (k := bi) (c := c) (by grind)
        have : bi ≠ o := by grind
        have : o ≠ bi := by grind
        simp [recolor_sided, *]
      rw [e1] at z3
      obtain ⟨h1, er, z4⟩ := rotate_spec d.op z3
      rw [Dir.op_op] at z4
      have z5 := up.1 (swap_sib.2 z4)
      simp only [Frame.plug] at z5
      obtain ⟨l, r, hol⟩ := sided_node d.op o .red e b2
      have e2 : sided d bi .black b1 (sided d.op o .red e b2) =
          sided d.op bi .black (.node o .red l r) b1 := by
        rw [hol, sided_op]
      have hob : RB l k ∧ RB r k := by
        have : RB (.node o .red l r) k := hol ▸ RB_red.2 ⟨hec, hb2c, he, hb2⟩
        exact ⟨this.2.2.1, this.2.2.2⟩
      rw [e2] at z5
      obtain ⟨h2, er2, z6⟩ := last_spec z5
      have hf5 := z5.foc
      rw [Rep_sided, root_sided] at hf5
      have hch : (h1.mem p).ch d.op = some bi := by rw [hf5.1, Cell.sided_ch_op]
      refine ⟨eraseDone h2.root h2, ?_, ?_⟩
      · have htail : eraseTail d p o h = some h2 := by
          unfold eraseTail
          have hsb : h.setBlackOpt (some bi) = h.setC bi .black := rfl
          simp only [hfar, if_true, hnear, hsb, er, hch]
          exact er2
        simp only [htail]
      · have := last_holds z6 hob.1 hob.2 ht hb1 hc
        rw [hbs]
        rw [plug_inorder _ ctx]
        · exact this
        · cases d <;> simp only [sided, Dir.op, Tree.node.injEq, true_and] at hol <;>
            obtain ⟨rfl, rfl⟩ := hol <;> simp [sided, Dir.op, inorder]
  | red =>
    -- far nephew red
    rw [if_neg (by simp)]
    cases e with
    | leaf => simp [col] at hec
    | node ei ec e1 e2 =>
    simp only [col] at hec
    subst hec
    have hfar : nullOrBlack h ((h.mem o).ch d.op) = false := by
      rw [ho, Cell.sided_ch, nullOrBlack_eq her]; simp [col]
    obtain ⟨h2, er2, z6⟩ := last_spec hz
    refine ⟨eraseDone h2.root h2, ?_, ?_⟩
    · unfold eraseTail
      simp only [hfar, er2]
      rfl
    · have := last_holds z6 he.2.2.1 he.2.2.2 ht hb hc
      rw [plug_inorder _ ctx]
      · exact this
      · cases d <;> simp [sided, Dir.op, inorder]

theorem root_isSome_of_mem {t : Tree} {ctx : List Frame} (h : ctx ≠ []) :
    ∃ j, (plug t ctx).root = some j := by
  cases ctx with
  | nil => exact absurd rfl h
  | cons f ctx => exact plug_root_ne (t := f.plug t) ctx (i := f.i) (by simp [Frame.plug])

theorem plug_root_mem {t : Tree} {ctx : List Frame} (h : ctx ≠ []) {j : Nat}
    (hj : (plug t ctx).root = some j) : j ∈ idsC ctx := by
  induction ctx generalizing t with
  | nil => exact absurd rfl h
  | cons f ctx ih =>
    simp only [plug] at hj
    cases ctx with
    | nil =>
      simp only [plug, Frame.plug, root_sided, Option.some.injEq] at hj
      simp [idsC, hj]
    | cons f2 ctx =>
      have := ih (t := f.plug t) (by simp) hj
      rw [idsC, List.mem_append]
      exact Or.inr this

theorem root_ne {h : Heap} {t : Tree} {ctx : List Frame} (hz : RepZ h t ctx) (hc : ctx ≠ []) :
    (t.root != h.root) = true := by
  have hr := (up_all.1 hz).root
  obtain ⟨j, hj⟩ := root_isSome_of_mem (t := t) hc
  rw [hr, hj]
  have hjm := plug_root_mem hc hj
  simp only [bne_iff_ne, ne_eq]
  intro hh
  have := root_mem hh
  have hnd := hz.nd
  simp only [List.nodup_append] at hnd
  grind

theorem eraseColor_spec {h : Heap} {t : Tree} {k fuel : Nat} {ctx : List Frame}
    (hz : RepZ h t ctx) (ht : RB t k) (hc : RBC ctx (k + 1)) (hf : ctx.length ≤ fuel) :
    ∃ h', eraseColor fuel t.root (par ctx) h = some h' ∧ Holds h' (plug t ctx).inorder := by
  induction fuel generalizing h t k ctx with
  | zero =>
    have : ctx = [] := List.eq_nil_of_length_eq_zero (by omega)
    subst this
    have hr : h.root = t.root := RepT.root hz
    rw [eraseColor_exit (by rw [hr]; simp)]
    rw [← hr]
    exact ⟨_, rfl, done_root hz ht⟩
  | succ fuel ih =>
    cases htc : t.col with
    | red =>
      cases t with
      | leaf => simp [col] at htc
      | node i c a b =>
      simp only [col] at htc
      subst htc
      rw [eraseColor_exit (by simp [nullOrBlack, Tree.root, hz.foc.1])]
      exact ⟨_, rfl, done_red (d := .L) hz ht.2.2.1 ht.2.2.2 hc⟩
    | black =>
    cases ctx with
    | nil =>
      have hr : h.root = t.root := RepT.root hz
      rw [eraseColor_exit (by rw [hr]; simp)]
      rw [← hr]
      exact ⟨_, rfl, done_root hz ht⟩
    | cons f ctx =>
    obtain ⟨d, p, cp, s⟩ := f
    have hcond : (nullOrBlack h t.root && t.root != h.root) = true := by
      rw [nullOrBlack_eq hz.foc, htc, root_ne hz (by simp)]; rfl
    obtain ⟨hs, hcp⟩ := hc
    dsimp only at hs hcp
    cases s with
    | leaf => simp [RB] at hs
    | node o co sl sr =>
    obtain ⟨e, b, hso⟩ := node_sided d.op o co sl sr
    rw [hso] at hz hs hcp
    have hzp := up.1 hz
    simp only [Frame.plug] at hzp
    have hfz := hzp.foc
    rw [Rep_sided, Rep_sided, root_sided] at hfz
    obtain ⟨hp, _, ho, her, hbr⟩ := hfz
    have hnd := (List.nodup_append.1 hzp.nd).1
    have hot : t.root ≠ some o := fun hh => by
      have := root_mem hh
      simp only [nodup_sided, mem_sided] at hnd
      grind
    have hside := side_test' hp (Ne.symm hot)
    have hcho : (h.mem p).ch d.op = some o := by rw [hp, Cell.sided_ch_op]
    have hoc : (h.mem o).c = co := by rw [ho, Cell.sided_c]
    rw [hso]
    cases co with
    | black =>
      have hpar : par ((⟨d, p, cp, sided d.op o .black e b⟩ : Frame) :: ctx) = some p := rfl
      rw [hpar, eraseColor_black hcond hside hcho hoc]
      obtain ⟨he, hb⟩ := RB_black.1 hs
      refine round_spec ?_ hzp ht he hb ?_
      · intro _ h0 t0 k0 z0 _ r0 c0
        exact ih z0 r0 c0 (by simp only [List.length_cons] at hf; omega)
      · cases cp with
        | red => exact ⟨hcp.2.2.1, hcp.2.1, hcp.2.2.2⟩
        | black => exact hcp
    | red =>
      -- red sibling: the parent is black
      cases cp with
      | red => have := hcp.1; simp at this
      | black =>
      dsimp only at hcp
      obtain ⟨hec, hbc, he, hb⟩ := RB_red.1 hs
      have z1 := hzp.setC (k := o) (c := .black) (by simp [mem_sided])
      have z2 := z1.setC (k := p) (c := .red) (by simp [mem_sided])
      have e1 : recolor p .red (recolor o .black
          (sided d p .black t (sided d.op o .red e b))) =
          sided d p .red t (sided d.op o .black e b) := by
        simp only [nodup_sided, mem_sided] at hnd
        have := fun c => recolor_notin (t := t) (k := o) (c := c) (by grind)
        have := fun c => recolor_notin (t := e) (k := o) (c := c) (by grind)
        have := fun c => recolor_notin (t := b) (k := o) (c := c) (by grind)
        have := fun c => recolor_notin (t := t) (k := p) (c := c) (by grind)
        have := fun c => recolor_notin (t := e) (k := p) (c := c) (by grind)
        have := fun c => recolor_notin (t := b) (k := p) (c := c) (by grind)
        have : p ≠ o := by grind
        have : o ≠ p := by grind
        simp [recolor_sided, *]
      rw [e1] at z2
      obtain ⟨h1, er, z3⟩ := rotate_spec d z2
      rw [sided_op] at z3
      have z4 : RepZ h1 (sided d p .red t b) (⟨d, o, .black, e⟩ :: ctx) := up.2 z3
      cases b with
      | leaf => simp [RB] at hb
      | node o' c' bl br =>
      simp only [col] at hbc
      subst hbc
      obtain ⟨e', b', hbs⟩ := node_sided d.op o' .black bl br
      rw [hbs] at z4 hb
      obtain ⟨he', hb'⟩ := RB_black.1 hb
      have hf4 := z4.foc
      rw [Rep_sided, root_sided] at hf4
      have hch' : (h1.mem p).ch d.op = some o' := by rw [hf4.1, Cell.sided_ch_op]
      have hpar : par ((⟨d, p, .black, sided d.op o .red e (.node o' .black bl br)⟩ : Frame) ::
        ctx) = some p := rfl
      rw [hpar, eraseColor_red hcond hside hcho hoc er hch']
      obtain ⟨h', e2, g2⟩ := round_spec (fuel := fuel) (by simp) z4 ht he' hb'
        ⟨rfl, by simp, he, hcp⟩
      refine ⟨h', e2, ?_⟩
      rw [hbs]
      simp only [plug]
      rw [plug_inorder (t' := Frame.plug ⟨d, o, .black, e⟩
        (sided d p .red t (sided d.op o' .black e' b')))]
      · exact g2
      · cases d <;> simp [Frame.plug, sided, Dir.op, inorder]

end Fio.RbTree
