import Verif.Dom.IterProps
import Verif.Common.Sort

/-!
# Model: the allocator of nodes

`crates/oxvg_ast/src/arena.rs`. The typed arena is the list of the addresses it has handed out, in order; the
cells of all nodes are the heap of `Verif.Dom`. Strings (`alloc_str`) are left out. The address of a new node is
a parameter of `alloc`, chosen by the arena outside of the addresses in use.
-/

namespace Verif.Arena

open Verif.Dom

/-- The typed arena (arena.rs:9-10): every node ever allocated, and the cells of the nodes. -/
structure Store where
  made : List Handle
  heap : Heap

/-- Assignment to the `id` cell of a node. -/
def setId (h : Heap) (a : Handle) (v : Nat) : Heap := { h with id := upd h.id a v }

/-- arena.rs:51-72, `Allocator::new`: `indices` is filled with the first node, then every node is stored at the
place its id names. `none` is the panic of an index outside of the vector. -/
def new (s : Store) : Option (List Handle) :=
  match s.made with
  | [] => some []
  | a :: _ => s.made.foldl (fun acc n => acc.bind fun v =>
      if s.heap.id n < v.length then some (v.set (s.heap.id n) n) else none) (some (List.replicate s.made.length a))

/-- node.rs:190-200, `Node::new`: no links, the given id. -/
def nodeNew (h : Heap) (a : Handle) (id : Nat) : Heap where
  parent := upd h.parent a none
  next := upd h.next a none
  prev := upd h.prev a none
  first := upd h.first a none
  last := upd h.last a none
  id := upd h.id a id

/-- arena.rs:75-81, `Allocator::alloc`, the new node being at address `a`. -/
def alloc (s : Store) (indices : List Handle) (a : Handle) : Store × List Handle :=
  let id := indices.length
  (⟨s.made ++ [a], nodeNew s.heap a id⟩, indices ++ [a])

/-- arena.rs:98-105, `Allocator::get`; the error is the failing assertion. -/
def get (s : Store) (indices : List Handle) (id : Nat) : Except Unit (Option Handle) :=
  match indices[id]? with
  | none => .ok none
  | some a => if s.heap.id a = id then .ok (some a) else .error ()

mutual
/-- arena.rs:146-160, `reorder_internal`; the fuel stands for the recursion, `none` is running out of it. -/
def number : Nat → Heap → Handle → Nat → Option (Heap × Nat)
  | 0, _, _, _ => none
  | fuel + 1, h, node, id =>
    let h := setId h node id
    match h.first node with
    | none => some (h, id)
    | some child => numberFrom fuel h child id

/-- arena.rs:153-157, the loop of `reorder_internal` from `child` on, `id` being the last one used. -/
def numberFrom : Nat → Heap → Handle → Nat → Option (Heap × Nat)
  | 0, _, _, _ => none
  | fuel + 1, h, child, id =>
    match number fuel h child (id + 1) with
    | none => none
    | some (h, id) =>
      match h.next child with
      | none => some (h, id)
      | some sibling => numberFrom fuel h sibling id
end

/-- arena.rs:127-133, one step of the loop over the nodes outside of the tree. -/
def outside (len : Nat) (st : Heap × Nat) (n : Handle) : Heap × Nat :=
  if st.1.id n = len then (setId st.1 n st.2, st.2 + 1) else st

/-- arena.rs:120-144, `Allocator::reorder`; the result carries the returned length of the tree. -/
def reorder (fuel : Nat) (s : Store) (indices : List Handle) (root : Handle) : Option (Store × List Handle × Nat) :=
  let len := s.made.length
  let h := indices.foldl (fun h n => setId h n len) s.heap
  (number fuel h root 0).map fun (h, last) =>
    let treeLen := last + 1
    let h := (indices.foldl (outside len) (h, treeLen)).1
    (⟨s.made, h⟩, sortBy (fun a b => decide (h.id a ≤ h.id b)) indices, treeLen)

end Verif.Arena
