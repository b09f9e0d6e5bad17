/-
C24: the red-black tree of lib/rbtree.c under any sequence of insertions and erasures.

The statement is about the pointers only: walks from the root pointer along child links, and the
sequence `rb_first`, `rb_next`, `rb_next`, … returns.
-/
import Mathlib.Order.Defs.LinearOrder
import Mathlib.Order.Nat
import Verif.RbTree.Ops
namespace Fio.RbTree

/-! ### Specification -/

/-- Follow child links from a pointer.  `none`: a step from NULL was asked for. -/
def walk (h : Heap) : Option Nat → List Dir → Option (Option Nat)
  | x, [] => some x
  | none, _ :: _ => none
  | some i, d :: ds => walk h ((h.mem i).ch d) ds

/-- Number of black nodes on a walk, the end point not counted. -/
def blacks (h : Heap) : Option Nat → List Dir → Nat
  | none, _ => 0
  | some _, [] => 0
  | some i, d :: ds =>
    (if (h.mem i).c = .black then 1 else 0) + blacks h ((h.mem i).ch d) ds

/-- The red-black conditions, on the heap. -/
structure IsRB (h : Heap) : Prop where
  /-- the root is black -/
  root : ∀ r, h.root = some r → (h.mem r).c = .black
  /-- a red node has no red child -/
  red : ∀ ds i d j, walk h h.root ds = some (some i) → (h.mem i).c = .red →
    (h.mem i).ch d = some j → (h.mem j).c = .black
  /-- every walk from the root to NULL passes the same number of black nodes -/
  height : ∃ n, ∀ ds, walk h h.root ds = some none → blacks h h.root ds = n
  /-- child and parent links agree -/
  parent : ∀ ds i d j, walk h h.root ds = some (some i) → (h.mem i).ch d = some j →
    (h.mem j).p = some i

/-- `for (n = x; n; n = rb_next(n))`: the nodes in the order the iteration visits them. -/
def visit (fuel : Nat) (h : Heap) : Nat → Option Nat → Option (List Nat)
  | _, none => some []
  | 0, some _ => none
  | k + 1, some n =>
    match rbNext fuel n h with
    | none => none
    | some x => (visit fuel h k x).map (n :: ·)

/-- `rb_first` and then `rb_next` until NULL. -/
def enumerate (fuel : Nat) (h : Heap) : Option (List Nat) :=
  match rbFirst fuel h with
  | none => none
  | some x => visit fuel h fuel x

/-- Insert a node by its key, or erase a node. -/
inductive Op
  | ins (n : Nat)
  | del (n : Nat)

section
variable {κ : Type} [LinearOrder κ] (key : Nat → κ)

/-- The comparison of the caller's descent (t/dedupe.c:239-257): left when smaller, else right. -/
def dirOf (n m : Nat) : Dir := if key n < key m then .L else .R

/-- One operation. -/
def step (fuel : Nat) (h : Heap) : Op → Option Heap
  | .ins n => (descend (dirOf key n) fuel none h).bind (fun at_ => insertAt fuel n at_ h)
  | .del n => rbErase fuel n h

/-- A sequence of operations. -/
def runOps (fuel : Nat) : Heap → List Op → Option Heap
  | h, [] => some h
  | h, op :: ops => (step key fuel h op).bind (fun h => runOps fuel h ops)
end

/-- The live nodes after a sequence, and whether each operation made sense: a node is inserted
only when it is not in the tree, erased only when it is. -/
def live : List Nat → List Op → Option (List Nat)
  | l, [] => some l
  | l, .ins n :: ops => if n ∈ l then none else live (n :: l) ops
  | l, .del n :: ops => if n ∈ l then live (l.erase n) ops else none

/-! ### From trees to the heap conditions -/
open Tree

theorem walk_rep {m : Nat → Cell} {root : Option Nat} {p : Option Nat} {t : Tree} {k : Nat}
    (hr : Rep m p t) (hb : RB t k) (ds : List Dir) :
    (∀ i d j, walk ⟨m, root⟩ t.root ds = some (some i) →
      ((m i).c = .red → (m i).ch d = some j → (m j).c = .black) ∧
      ((m i).ch d = some j → (m j).p = some i)) ∧
    (walk ⟨m, root⟩ t.root ds = some none → blacks ⟨m, root⟩ t.root ds = k) := by
  induction t generalizing p k ds with
  | leaf =>
    cases ds with
    | nil => exact ⟨by simp [walk, Tree.root], fun _ => by simp only [Tree.root, blacks]; exact hb.symm⟩
    | cons d ds => exact ⟨by simp [walk, Tree.root], by simp [walk, Tree.root]⟩
  | node i c l r ihl ihr =>
    obtain ⟨h1, h2, h3⟩ := hr
    have hsub : ∃ k', RB l k' ∧ RB r k' ∧ k = (if c = .black then 1 else 0) + k' ∧
        (c = .red → l.col = .black ∧ r.col = .black) := by
      cases c with
      | red => exact ⟨k, hb.2.2.1, hb.2.2.2, by simp, fun _ => ⟨hb.1, hb.2.1⟩⟩
      | black =>
        obtain ⟨k', e, a, b⟩ := hb
        exact ⟨k', a, b, by rw [if_pos rfl, e]; omega, by simp⟩
    obtain ⟨k', hl, hr', hk, hcol⟩ := hsub
    cases ds with
    | nil =>
      refine ⟨fun i' d j hw => ?_, by simp [walk, Tree.root]⟩
      simp only [walk, Tree.root, Option.some.injEq] at hw
      subst hw
      rw [h1]
      have hch : ∀ t' : Tree, (∀ q, t'.root = some q → (m q).p = some i ∧ (m q).c = t'.col) →
          (c = .red → t'.col = .black) → ∀ j, t'.root = some j →
          ((c = .red → (m j).c = .black) ∧ (m j).p = some i) := by
        intro t' ht hc j hj
        exact ⟨fun hcr => by rw [(ht j hj).2]; exact hc hcr, (ht j hj).1⟩
      have hof : ∀ t' : Tree, Rep m (some i) t' → ∀ q, t'.root = some q →
          (m q).p = some i ∧ (m q).c = t'.col := by
        intro t' ht q hq
        cases t' with
        | leaf => simp [Tree.root] at hq
        | node a b e f =>
          simp only [Tree.root, Option.some.injEq] at hq
          subst hq
          rw [ht.1]
          exact ⟨rfl, rfl⟩
      cases d with
      | L =>
        have := hch l (hof l h2) (fun hc => (hcol hc).1) j
        exact ⟨fun a b => (this b).1 a, fun b => (this b).2⟩
      | R =>
        have := hch r (hof r h3) (fun hc => (hcol hc).2) j
        exact ⟨fun a b => (this b).1 a, fun b => (this b).2⟩
    | cons d ds =>
      have hnr : (Tree.node i c l r).root = some i := rfl
      simp only [walk, hnr, blacks, h1]
      cases d with
      | L =>
        obtain ⟨a, b⟩ := ihl h2 hl ds
        refine ⟨a, fun hw => ?_⟩
        rw [hk]
        exact congrArg _ (b hw)
      | R =>
        obtain ⟨a, b⟩ := ihr h3 hr' ds
        refine ⟨a, fun hw => ?_⟩
        rw [hk]
        exact congrArg _ (b hw)

theorem Holds.isRB {h : Heap} {L : List Nat} (hh : Holds h L) : IsRB h := by
  obtain ⟨t, hz, ⟨k, hk⟩, hb, _⟩ := hh
  have hw := fun ds => walk_rep (root := h.root) hz.foc hk ds
  have hroot := RepT.root hz
  refine ⟨?_, ?_, ⟨k, ?_⟩, ?_⟩
  · intro r hr
    rw [hroot] at hr
    cases t with
    | leaf => simp [Tree.root] at hr
    | node i c l r' =>
      simp only [Tree.root, Option.some.injEq] at hr
      subst hr
      rw [hz.foc.1]
      exact hb
  · intro ds i d j h1 h2 h3
    rw [hroot] at h1
    exact ((hw ds).1 i d j h1).1 h2 h3
  · intro ds h1
    rw [hroot] at h1 ⊢
    exact (hw ds).2 h1
  · intro ds i d j h1 h3
    rw [hroot] at h1
    exact ((hw ds).1 i d j h1).2 h3

theorem visit_spec {h : Heap} {fuel : Nat} (B A : List Nat) (hh : Holds h (A ++ B))
    (hf : (A ++ B).length ≤ fuel) (k : Nat) (hk : B.length ≤ k) :
    visit fuel h k B.head? = some B := by
  induction B generalizing A k with
  | nil => cases k <;> rfl
  | cons n B ih =>
    cases k with
    | zero => simp at hk
    | succ k =>
      simp only [List.head?_cons, visit]
      rw [rbNext_spec hh (by simp at hf; omega)]
      simp only
      rw [ih (A ++ [n]) (by simpa using hh) (by simpa using hf) k (by simpa using hk)]
      rfl

theorem enumerate_spec {h : Heap} {L : List Nat} {fuel : Nat} (hh : Holds h L)
    (hf : L.length ≤ fuel) : enumerate fuel h = some L := by
  unfold enumerate
  rw [rbFirst_spec hh hf]
  exact visit_spec L [] hh hf fuel hf

/-! ### C24 -/

/-- The empty tree, `RB_ROOT` (lib/rbtree.h:133), over any contents of the nodes. -/
def empty (m : Nat → Cell) : Heap := ⟨m, none⟩

theorem holds_empty (m : Nat → Cell) : Holds (empty m) [] :=
  ⟨.leaf, ⟨trivial, rfl, List.nodup_nil⟩, ⟨0, rfl⟩, rfl, rfl⟩

section
variable {κ : Type} [LinearOrder κ] (key : Nat → κ)

theorem step_spec {h : Heap} {L : List Nat} (hh : Holds h L)
    (hs : L.Pairwise (fun a b => key a ≤ key b)) {fuel : Nat} (hf : 2 * L.length ≤ fuel) (n : Nat) :
    (n ∉ L → ∃ h' A B, step key fuel h (.ins n) = some h' ∧ L = A ++ B ∧
      Holds h' (A ++ n :: B) ∧ (∀ a ∈ A, key a ≤ key n) ∧ (∀ b ∈ B, key n < key b)) ∧
    (n ∈ L → ∃ h', step key fuel h (.del n) = some h' ∧ Holds h' (L.erase n)) := by
  refine ⟨fun hn => ?_, fun hn => rbErase_spec hh hn hf⟩
  obtain ⟨at_, h', A, B, e1, e2, e3, e4, e5, e6⟩ := insert_spec (dir := dirOf key n) (fuel := fuel) hh hn
    (hs.imp (fun {a b} hab hb => by
      simp only [dirOf] at hb ⊢
      split at hb
      · cases hb
      · next hlt => rw [if_neg (fun hh => hlt (lt_of_lt_of_le hh hab))])) (by omega)
  refine ⟨h', A, B, by simp [step, e1, e2], e3, e6, ?_, ?_⟩
  · intro a ha
    have := e4 a ha
    simp only [dirOf] at this
    split at this
    · cases this
    · next hlt => exact le_of_not_gt hlt
  · intro b hb
    have := e5 b hb
    simp only [dirOf] at this
    split at this
    · next hlt => exact hlt
    · cases this

theorem runOps_spec (ops : List Op) {fuel : Nat} : ∀ {h : Heap} {L l l' : List Nat}, Holds h L →
    L.Pairwise (fun a b => key a ≤ key b) → L.Perm l → live l ops = some l' →
    2 * (l.length + ops.length) ≤ fuel →
    ∃ h' L', runOps key fuel h ops = some h' ∧ Holds h' L' ∧
      L'.Pairwise (fun a b => key a ≤ key b) ∧ L'.Perm l' := by
  induction ops with
  | nil =>
    intro h L l l' hh hs hp hl _
    simp only [live, Option.some.injEq] at hl
    subst hl
    exact ⟨h, L, rfl, hh, hs, hp⟩
  | cons op ops ih =>
    intro h L l l' hh hs hp hl hf
    simp only [List.length_cons] at hf
    have hstep := step_spec key hh hs (fuel := fuel) (by rw [hp.length_eq]; omega)
    cases op with
    | ins n =>
      simp only [live] at hl
      split at hl
      · cases hl
      next hn =>
      obtain ⟨h', A, B, e1, rfl, e3, e4, e5⟩ := (hstep n).1 (fun hm => hn (hp.mem_iff.1 hm))
      rw [List.pairwise_append] at hs
      obtain ⟨s1, s2, s3⟩ := hs
      obtain ⟨h2, L', r1, r2, r3, r4⟩ := ih (L := A ++ n :: B) (l := n :: l) e3 (by
          rw [List.pairwise_append, List.pairwise_cons]
          refine ⟨s1, ⟨fun b hb => le_of_lt (e5 b hb), s2⟩, ?_⟩
          intro a ha b hb
          rcases List.mem_cons.1 hb with rfl | hb
          · exact e4 a ha
          · exact s3 a ha b hb)
        (List.perm_middle.trans (hp.cons n)) hl (by simp only [List.length_cons]; omega)
      exact ⟨h2, L', by simp [runOps, e1, r1], r2, r3, r4⟩
    | del n =>
      simp only [live] at hl
      split at hl
      · next hn =>
        obtain ⟨h', e1, e2⟩ := (hstep n).2 (hp.mem_iff.2 hn)
        obtain ⟨h2, L', r1, r2, r3, r4⟩ := ih (L := L.erase n) (l := l.erase n) e2
          (hs.sublist List.erase_sublist) (hp.erase n) hl (by
            have := List.length_erase_of_mem hn
            omega)
        exact ⟨h2, L', by simp [runOps, e1, r1], r2, r3, r4⟩
      · cases hl

/-- C24.  Any sequence of insertions of new nodes and erasures of live nodes, from an empty tree
and with arbitrary earlier contents of the nodes, runs to its end without following NULL.  The
heap it leaves meets the red-black conditions, and `rb_first`/`rb_next` enumerate exactly the live
nodes, each once, in the order of their keys. -/
theorem C24 (m : Nat → Cell) (ops : List Op) (l : List Nat) (hl : live [] ops = some l)
    (fuel : Nat) (hf : 2 * ops.length ≤ fuel) :
    ∃ h L, runOps key fuel (empty m) ops = some h ∧ IsRB h ∧
      (∀ fuel', L.length ≤ fuel' → enumerate fuel' h = some L) ∧
      L.Nodup ∧ L.Perm l ∧ L.Pairwise (fun a b => key a ≤ key b) := by
  obtain ⟨h, L, e, g1, g2, g3⟩ := runOps_spec key ops (holds_empty m) List.Pairwise.nil
    (List.Perm.refl _) hl (by simpa using hf)
  exact ⟨h, L, e, g1.isRB, fun _ hf' => enumerate_spec g1 hf', g1.nodup, g3, g2⟩

/-- C24, one insertion: a node goes behind every node whose key is not greater and before the
others, so nodes with equal keys stay in the order they came. -/
theorem C24_insert {h : Heap} {L : List Nat} (hh : Holds h L)
    (hs : L.Pairwise (fun a b => key a ≤ key b)) (n : Nat) (hn : n ∉ L) (fuel : Nat)
    (hf : 2 * L.length ≤ fuel) :
    ∃ h' A B, step key fuel h (.ins n) = some h' ∧ L = A ++ B ∧ Holds h' (A ++ n :: B) ∧
      (∀ a ∈ A, key a ≤ key n) ∧ (∀ b ∈ B, key n < key b) :=
  (step_spec key hh hs hf n).1 hn

end

/-- C24, the enumeration: `rb_first` gives the first node, and `rb_next` of a node the one that
follows, NULL after the last. -/
theorem C24_next {h : Heap} {A B : List Nat} {n : Nat} (hh : Holds h (A ++ n :: B)) (fuel : Nat)
    (hf : A.length + B.length + 1 ≤ fuel) :
    rbFirst fuel h = some (A ++ n :: B).head? ∧ rbNext fuel n h = some B.head? :=
  ⟨rbFirst_spec hh (by simp; omega), rbNext_spec hh hf⟩

/-! ### A concrete run -/

/-- Eight insertions and three erasures, among them the root and a node with two children. -/
def demo : List Op :=
  [.ins 5, .ins 3, .ins 8, .ins 1, .ins 4, .ins 7, .ins 9, .ins 2, .del 5, .del 3, .del 9, .ins 6]

example : live [] demo = some [6, 2, 7, 4, 1, 8] := by decide +kernel

example : (runOps (fun n => n) 24 (empty fun _ => ⟨none, none, none, .red⟩) demo).bind
    (enumerate 24) = some [1, 2, 4, 6, 7, 8] := by decide +kernel

/-- Equal keys keep the order of insertion. -/
example : (runOps (fun n => n / 10) 24 (empty fun _ => ⟨none, none, none, .red⟩)
    [.ins 12, .ins 30, .ins 11, .ins 25, .ins 10]).bind (enumerate 24) =
    some [12, 11, 10, 25, 30] := by decide +kernel

end Fio.RbTree
