/-
Model of lib/flist_sort.c.  The NULL-terminated chains of `flist_head` nodes are lists; an empty
list is a NULL pointer.
-/
namespace Fio.ListSort

variable {α : Type}

/-- lib/flist_sort.c:13-33 `merge` (and, as to the resulting order, the identical loop of
`merge_and_restore_back_links`, lib/flist_sort.c:42-80). -/
def merge (cmp : α → α → Int) : List α → List α → List α
  | [], b => b
  | a, [] => a
  | x :: a, y :: b => if cmp x y ≤ 0 then x :: merge cmp a (y :: b) else y :: merge cmp (x :: a) b

/-- lib/flist_sort.c:6 `MAX_LIST_LENGTH_BITS`. -/
def maxBits : Nat := 20

/-- lib/flist_sort.c:119-122: merge `cur` with the partial lists from level `lev` on, until an
empty slot; `none` is a read past the end of `part`. -/
def carry (cmp : α → α → Int) (part : List (List α)) : (fuel : Nat) → (lev : Nat) → List α →
    Option (List (List α) × Nat × List α)
  | 0, _, _ => none
  | fuel + 1, lev, cur =>
    match part[lev]? with
    | none => none
    | some [] => some (part, lev, cur)
    | some (x :: p) => carry cmp (part.set lev []) fuel (lev + 1) (merge cmp (x :: p) cur)

/-- lib/flist_sort.c:114-133, the loop over the input. -/
def mainLoop (cmp : α → α → Int) : List α → List (List α) → (maxLev : Nat) →
    Option (List (List α) × Nat)
  | [], part, maxLev => some (part, maxLev)
  | x :: list, part, maxLev =>
    match carry cmp part (maxBits + 2) 0 [x] with
    | none => none
    | some (part, lev, cur) =>
      let lev' := if lev > maxLev ∧ lev ≥ maxBits then lev - 1 else lev
      let maxLev' := if lev > maxLev then lev' else maxLev
      if lev' < part.length then mainLoop cmp list (part.set lev' cur) maxLev' else none

/-- lib/flist_sort.c:135-137, merging the partial lists of levels `lev .. lev+k-1` into `list`. -/
def finish (cmp : α → α → Int) (part : List (List α)) : (k lev : Nat) → List α → List α
  | 0, _, list => list
  | k + 1, lev, list =>
    match part[lev]? with
    | some (x :: p) => finish cmp part k (lev + 1) (merge cmp (x :: p) list)
    | _ => finish cmp part k (lev + 1) list

/-- lib/flist_sort.c:96-140 `flist_sort`; `none` is an access past the end of `part` or a NULL
dereference in `merge_and_restore_back_links` (which happens when both lists are empty). -/
def flistSort (cmp : α → α → Int) (l : List α) : Option (List α) :=
  match l with
  | [] => some []
  | _ =>
    match mainLoop cmp l (List.replicate (maxBits + 1) []) 0 with
    | none => none
    | some (part, maxLev) =>
      match part[maxLev]? with
      | none => none
      | some a =>
        match merge cmp a (finish cmp part maxLev 0 []) with
        | [] => none
        | r => some r

end Fio.ListSort
