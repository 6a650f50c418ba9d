import Verif.Names.Model

/-!
# Model: sorting the children of `defs`

`crates/oxvg_optimiser/src/jobs/sort_defs_children.rs`, `crates/oxvg_ast/src/element.rs` (`sort_child_elements`). Here the children of a node
are a list; what happens to the links between them is `Heap.sortChildren` of `Verif.Dom`.
-/

namespace Verif.SortDefs

open Verif.Names

/-- The written name of an element; the prefix is empty if there is none. Elements with the same written name are taken to be in the same
namespace. -/
structure Name where
  pre : Str
  loc : Str
  deriving DecidableEq

/-- A node: an element (`defs` is whether it is a `defs` element of SVG, `a` are its attributes) or another one. -/
inductive Node (A : Type) where
  | leaf (a : A)
  | elem (name : Name) (defs : Bool) (a : A) (kids : List (Node A))

variable {A : Type}

/-- The name of a node, if it is an element. -/
def Node.name : Node A → Option Name
  | .leaf _ => none
  | .elem n _ _ _ => some n

/-- element.rs (collections):277-283, `ElementId::len`. -/
def Name.len (n : Name) : Nat := if n.pre = [] then n.loc.length else n.pre.length + 1 + n.loc.length

/-- sort_defs_children.rs:62-70: how often a name occurs. -/
def freq (names : List (Option Name)) (n : Name) : Nat := names.count (some n)

/-- sort_defs_children.rs:71-88, whether the comparison gives `Less`; the order of names is that of element.rs (collections):310-316. -/
def lessName (names : List (Option Name)) (a b : Name) : Bool :=
  if freq names a ≠ freq names b then decide (freq names b < freq names a)
  else if a.len ≠ b.len then decide (b.len < a.len)
  else if a.pre ≠ b.pre then decide (b.pre < a.pre)
  else decide (b.loc < a.loc)

/-- element.rs:684-692, whether the comparison of `sort_child_elements` gives `Less`. -/
def less (names : List (Option Name)) : Option Name → Option Name → Bool
  | none, _ => true
  | some _, none => false
  | some a, some b => lessName names a b

/-- The standard library's `insert_tail`: `x` moves to the left as long as it is less; the list is reversed. -/
def insertTail (lt : Nat → Nat → Bool) (x : Nat) : List Nat → List Nat
  | [] => [x]
  | y :: l => if lt x y then y :: insertTail lt x l else x :: y :: l

/-- The standard library's `insertion_sort_shift_left`, on positions. -/
def insertionSort (lt : Nat → Nat → Bool) (n : Nat) : List Nat := ((List.range n).foldl (fun acc x => insertTail lt x acc) []).reverse

/-- The standard library's `sort_by` on a list of `n` items, as the positions in their new order: up to 20 items are sorted by insertion.
`big` is what is done with more, `none` a panic. -/
def sortBy (big : (Nat → Nat → Bool) → Nat → Option (List Nat)) (lt : Nat → Nat → Bool) (n : Nat) : Option (List Nat) :=
  if n ≤ 20 then some (insertionSort lt n) else big lt n

/-- element.rs:679-693: the order of the children, by their names. -/
def order (big : (Nat → Nat → Bool) → Nat → Option (List Nat)) (names : List (Option Name)) : Option (List Nat) :=
  sortBy big (fun i j => less names (names[i]?.getD none) (names[j]?.getD none)) names.length

mutual
/-- sort_defs_children.rs:52-92, `element`, over the whole tree; `none` is a panic. In the code the children are sorted first and visited
then, which is the same, as the order depends on their names only. -/
def visit (big : (Nat → Nat → Bool) → Nat → Option (List Nat)) : Node A → Option (Node A)
  | .leaf a => some (.leaf a)
  | .elem n defs a kids => do
    let kids' ← visitAll big kids
    if defs then
      let l ← order big (kids.map Node.name)
      some (.elem n defs a (l.filterMap (kids'[·]?)))
    else some (.elem n defs a kids')
def visitAll (big : (Nat → Nat → Bool) → Nat → Option (List Nat)) : List (Node A) → Option (List (Node A))
  | [] => some []
  | k :: l => do
    let k' ← visit big k
    let l' ← visitAll big l
    some (k' :: l')
end

/-- sort_defs_children.rs:40-50, with `prepare`. -/
def job (big : (Nat → Nat → Bool) → Nat → Option (List Nat)) (on : Bool) (root : Node A) : Option (Node A) := if on then visit big root else some root

end Verif.SortDefs
