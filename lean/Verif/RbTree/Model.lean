/-
Model of lib/rbtree.c and lib/rbtree.h: the red-black tree that keeps the verify history.

The model works on the pointers: a heap maps every node address to its three words, and every
assignment of the C code is one heap update in the same order.  Following a NULL pointer is
`none`.

Simplifications, here and nowhere else:
* `rb_parent_color` (lib/rbtree.h:103) packs the parent pointer and the colour bit in one word.
  Nodes are aligned to `sizeof(long)` (rbtree.h:108), so the two never overlap; they are two
  fields here.
* the two arms of each C `if (parent == gparent->rb_left) … else …` are the same text with left
  and right exchanged; the model has one text and a direction `d`.
* loops carry fuel; running out is `none` like a loop that never ends.
-/
namespace Fio.RbTree

/-- `RB_RED`, `RB_BLACK` (lib/rbtree.h:104-105). -/
inductive Color | red | black
deriving DecidableEq, Repr

/-- Which of the two child links. -/
inductive Dir | L | R
deriving DecidableEq, Repr

/-- The other side. -/
def Dir.op : Dir → Dir
  | .L => .R
  | .R => .L

/-- `struct fio_rb_node` (lib/rbtree.h:101-108). -/
structure Cell where
  l : Option Nat
  r : Option Nat
  p : Option Nat
  c : Color
deriving DecidableEq, Repr

/-- `rb_left` or `rb_right`. -/
def Cell.ch (x : Cell) : Dir → Option Nat
  | .L => x.l
  | .R => x.r

/-- Assignment to `rb_left` or `rb_right`. -/
def Cell.setCh (x : Cell) (d : Dir) (v : Option Nat) : Cell :=
  match d with
  | .L => { x with l := v }
  | .R => { x with r := v }

/-- All nodes, and `struct rb_root` (lib/rbtree.h:111-114). -/
structure Heap where
  mem : Nat → Cell
  root : Option Nat

/-- Replace the node at one address. -/
def Heap.put (h : Heap) (i : Nat) (x : Cell) : Heap :=
  { h with mem := fun j => if j = i then x else h.mem j }

/-- `rb_set_parent` (lib/rbtree.h:124-127). -/
def Heap.setP (h : Heap) (i : Nat) (p : Option Nat) : Heap := h.put i { h.mem i with p := p }

/-- `rb_set_red`, `rb_set_black`, `rb_set_color` (lib/rbtree.h:121-122, 128-131). -/
def Heap.setC (h : Heap) (i : Nat) (c : Color) : Heap := h.put i { h.mem i with c := c }

/-- Assignment to a child link. -/
def Heap.setCh (h : Heap) (d : Dir) (i : Nat) (v : Option Nat) : Heap :=
  h.put i ((h.mem i).setCh d v)

/-- `if (x) rb_set_parent(x, p)`. -/
def Heap.setPOpt (h : Heap) (x p : Option Nat) : Heap :=
  match x with
  | some b => h.setP b p
  | none => h

/-- `if (x) rb_set_black(x)`. -/
def Heap.setBlackOpt (h : Heap) (x : Option Nat) : Heap :=
  match x with
  | some b => h.setC b .black
  | none => h

/-- The block that makes the parent of `n` (or the root pointer) point to `v` instead:
`if (parent) { if (n == parent->rb_left) parent->rb_left = v; else parent->rb_right = v; } else
root->rb_node = v;` (lib/rbtree.c:36-44, 59-67, 255-262, 275-283).  `d` is the side tested
first. -/
def Heap.relink (h : Heap) (d : Dir) (p : Option Nat) (n : Nat) (v : Option Nat) : Heap :=
  match p with
  | some q => if (h.mem q).ch d = some n then h.setCh d q v else h.setCh d.op q v
  | none => { h with root := v }

/-- `__rb_rotate_left` (lib/rbtree.c:25-46) for `d = L`, `__rb_rotate_right` (lib/rbtree.c:48-69)
for `d = R`. -/
def rotate (d : Dir) (n : Nat) (h : Heap) : Option Heap :=
  match (h.mem n).ch d.op with
  | none => none
  | some r =>
    let p := (h.mem n).p
    let x := (h.mem r).ch d
    let h := h.setCh d.op n x
    let h := h.setPOpt x (some n)
    let h := h.setCh d r (some n)
    let h := h.setP r p
    let h := h.relink d p n (some r)
    some (h.setP n (some r))

/-- A pointer is NULL or points to a black node: `!x || rb_is_black(x)`. -/
def nullOrBlack (h : Heap) (x : Option Nat) : Bool :=
  match x with
  | none => true
  | some i => (h.mem i).c = .black

/-- `rb_insert_color` (lib/rbtree.c:71-134). -/
def insertColor : Nat → Nat → Heap → Option Heap
  | fuel, n, h =>
    let finish : Option Heap :=
      match h.root with
      | none => none
      | some r => some (h.setC r .black)
    match (h.mem n).p with
    | none => finish
    | some p =>
      if (h.mem p).c = .black then finish else
      match fuel with
      | 0 => none
      | fuel + 1 =>
        match (h.mem p).p with
        | none => none
        | some g =>
          let d : Dir := if (h.mem g).l = some p then .L else .R
          match nullOrBlack h ((h.mem g).ch d.op), (h.mem g).ch d.op with
          | false, some u =>
            insertColor fuel g (((h.setC u .black).setC p .black).setC g .red)
          | _, _ =>
            if (h.mem p).ch d.op = some n then
              match rotate d p h with
              | none => none
              | some h =>
                match rotate d.op g ((h.setC n .black).setC g .red) with
                | none => none
                | some h => insertColor fuel p h
            else
              match rotate d.op g ((h.setC p .black).setC g .red) with
              | none => none
              | some h => insertColor fuel n h

/-- The tail of one round of `__rb_erase_color` once both nephews are known not to be black
(lib/rbtree.c:163-176 and 200-213): `o` is `other`, `p` the parent. -/
def eraseTail (d : Dir) (p o : Nat) (h : Heap) : Option Heap :=
  let last (o : Nat) (h : Heap) : Option Heap :=
    rotate d p (((h.setC o (h.mem p).c).setC p .black).setBlackOpt ((h.mem o).ch d.op))
  if nullOrBlack h ((h.mem o).ch d.op) then
    match rotate d.op o ((h.setBlackOpt ((h.mem o).ch d)).setC o .red) with
    | none => none
    | some h =>
      match (h.mem p).ch d.op with
      | none => none
      | some o => last o h
  else last o h

/-- `if (node) rb_set_black(node)` at the end of `__rb_erase_color` (lib/rbtree.c:219-220). -/
def eraseDone (x : Option Nat) (h : Heap) : Heap := h.setBlackOpt x

/-- The nephew test and what follows it in a round of `__rb_erase_color`
(lib/rbtree.c:154-179, 191-216).  Either the loop goes on one level up (`Sum.inl`), or it breaks
with `node = root->rb_node` (`Sum.inr`). -/
def eraseRound (d : Dir) (p o : Nat) (h : Heap) : Option (Sum Heap Heap) :=
  if nullOrBlack h (h.mem o).l && nullOrBlack h (h.mem o).r then
    some (.inl (h.setC o .red))
  else
    match eraseTail d p o h with
    | none => none
    | some h => some (.inr h)

/-- `__rb_erase_color` (lib/rbtree.c:136-221); `x` is `node`, `p` is `parent`. -/
def eraseColor : Nat → Option Nat → Option Nat → Heap → Option Heap
  | fuel, x, p, h =>
    if nullOrBlack h x && x != h.root then
      match fuel, p with
      | 0, _ => none
      | _, none => none
      | fuel + 1, some p =>
        let d : Dir := if (h.mem p).l = x then .L else .R
        match (h.mem p).ch d.op with
        | none => none
        | some o =>
          let round (o : Nat) (h : Heap) : Option Heap :=
            match eraseRound d p o h with
            | none => none
            | some (.inl h) => eraseColor fuel (some p) (h.mem p).p h
            | some (.inr h) => some (eraseDone h.root h)
          if (h.mem o).c = .red then
            match rotate d p ((h.setC o .black).setC p .red) with
            | none => none
            | some h =>
              match (h.mem p).ch d.op with
              | none => none
              | some o => round o h
          else round o h
    else some (eraseDone x h)

/-- `while ((left = node->rb_left) != NULL) node = left;` (lib/rbtree.c:237-238, 300-301,
318-319). -/
def leftmost : Nat → Nat → Heap → Option Nat
  | fuel, n, h =>
    match (h.mem n).l with
    | none => some n
    | some l =>
      match fuel with
      | 0 => none
      | fuel + 1 => leftmost fuel l h

/-- The end of `rb_erase` (lib/rbtree.c:285-287). -/
def eraseEnd (fuel : Nat) (c : Color) (child parent : Option Nat) (h : Heap) : Option Heap :=
  match c with
  | .black => eraseColor fuel child parent h
  | .red => some h

/-- The part of `rb_erase` for a node with at most one child (lib/rbtree.c:270-283). -/
def splice (n : Nat) (child : Option Nat) (h : Heap) : Heap :=
  let p := (h.mem n).p
  (h.setPOpt child p).relink .L p n child

/-- The part of `rb_erase` for a node with two children (lib/rbtree.c:236-267): `s` is the
successor.  The result is the heap, and `parent` for `__rb_erase_color`. -/
def transplant (n s l : Nat) (h : Heap) : Option (Heap × Nat) :=
  let child := (h.mem s).r
  match (h.mem s).p with
  | none => none
  | some q =>
    let h := h.setPOpt child (some q)
    let (h, par) := if q = n then (h.setCh .R q child, s) else (h.setCh .L q child, q)
    let h := h.put s { h.mem s with p := (h.mem n).p, c := (h.mem n).c }
    let h := h.setCh .R s (h.mem n).r
    let h := h.setCh .L s (h.mem n).l
    let h := h.relink .L (h.mem n).p n (some s)
    let h := h.setP l (some s)
    let h := h.setPOpt (h.mem n).r (some s)
    some (h, par)

/-- `rb_erase` (lib/rbtree.c:223-288). -/
def rbErase (fuel : Nat) (n : Nat) (h : Heap) : Option Heap :=
  match (h.mem n).l, (h.mem n).r with
  | none, child => eraseEnd fuel (h.mem n).c child (h.mem n).p (splice n child h)
  | some l, none => eraseEnd fuel (h.mem n).c (some l) (h.mem n).p (splice n (some l) h)
  | some l, some r =>
    match leftmost fuel r h with
    | none => none
    | some s =>
      match transplant n s l h with
      | none => none
      | some (h', par) => eraseEnd fuel (h.mem s).c (h.mem s).r (some par) h'

/-- `rb_first` (lib/rbtree.c:293-303). The inner `none` is the NULL it returns. -/
def rbFirst (fuel : Nat) (h : Heap) : Option (Option Nat) :=
  match h.root with
  | none => some none
  | some n =>
    match leftmost fuel n h with
    | none => none
    | some m => some (some m)

/-- `while ((parent = rb_parent(node)) && node == parent->rb_right) node = parent;`
(lib/rbtree.c:330-333). -/
def climb : Nat → Nat → Heap → Option (Option Nat)
  | fuel, n, h =>
    match (h.mem n).p with
    | none => some none
    | some p =>
      if (h.mem p).r = some n then
        match fuel with
        | 0 => none
        | fuel + 1 => climb fuel p h
      else some (some p)

/-- `rb_next` (lib/rbtree.c:305-334). -/
def rbNext (fuel : Nat) (n : Nat) (h : Heap) : Option (Option Nat) :=
  if (h.mem n).p = some n then some none else
  match (h.mem n).r with
  | some r =>
    match leftmost fuel r h with
    | none => none
    | some m => some (some m)
  | none => climb fuel n h

/-- Where a caller links a new node: `struct fio_rb_node **p` is the root pointer or one child link
of `parent` (iolog.c:328-348). -/
abbrev Link := Option (Nat × Dir)

/-- The pointer `*p`. -/
def Heap.deref (h : Heap) : Link → Option Nat
  | none => h.root
  | some (q, d) => (h.mem q).ch d

/-- `rb_link_node` (lib/rbtree.h:153-161). -/
def linkNode (n : Nat) (at_ : Link) (h : Heap) : Heap :=
  let h := h.put n ⟨none, none, at_.map (·.1), .red⟩
  match at_ with
  | none => { h with root := some n }
  | some (q, d) => h.setCh d q (some n)

/-- The descent of a caller that sorts by `less`: `insert_chunk` of t/dedupe.c:233-259 and, without
the overlap test, iolog.c:328-348.  `dir m` says which way the new node goes at node `m`. -/
def descend (dir : Nat → Dir) : Nat → Link → Heap → Option Link
  | fuel, at_, h =>
    match h.deref at_ with
    | none => some at_
    | some m =>
      match fuel with
      | 0 => none
      | fuel + 1 => descend dir fuel (some (m, dir m)) h

/-- `rb_link_node(n, parent, p); rb_insert_color(n, root);` (iolog.c:364-365,
t/dedupe.c:267-268). -/
def insertAt (fuel n : Nat) (at_ : Link) (h : Heap) : Option Heap :=
  insertColor fuel n (linkNode n at_ h)

end Fio.RbTree
