import Verif.Arena.Lemmas

/-!
# Model: breadth-first iteration

`crates/oxvg_ast/src/element.rs`. Which nodes are elements is a parameter. Children are taken with the child
iterator of `Verif.Dom`.
-/

namespace Verif.Bfs

open Verif.Dom

/-- node.rs `child_nodes_iter` run to its end, at most `fuel` nodes. -/
def childNodes (fuel : Nat) (h : Heap) (p : Handle) : List Handle := (walk (fun _ g => g) fuel h (Iter.new h p)).1

/-- element.rs `children_iter`: the child nodes that are elements. -/
def children (isElem : Handle → Bool) (fuel : Nat) (h : Heap) (p : Handle) : List Handle :=
  (childNodes fuel h p).filter isElem

/-- element.rs:842-848, `Iterator::next`, on the queue of the iterator. -/
def next (isElem : Handle → Bool) (fuel : Nat) (h : Heap) : List Handle → Option (Handle × List Handle)
  | [] => none
  | current :: queue => some (current, queue ++ children isElem fuel h current)

/-- element.rs:829-836, `Iterator::new`. -/
def new (isElem : Handle → Bool) (fuel : Nat) (h : Heap) (p : Handle) : List Handle := children isElem fuel h p

/-- A `for` loop over the iterator, at most `steps` rounds. -/
def collect (isElem : Handle → Bool) (fuel : Nat) (h : Heap) : Nat → List Handle → List Handle
  | 0, _ => []
  | steps + 1, queue => match next isElem fuel h queue with
    | none => []
    | some (c, queue) => c :: collect isElem fuel h steps queue

/-- element.rs:661-677, the loop of `Element::find_element`. -/
def findLoop (isElem : Handle → Bool) (fuel : Nat) (h : Heap) : Nat → List Handle → Option Handle
  | 0, _ => none
  | _ + 1, [] => none
  | steps + 1, current :: queue =>
    if isElem current then some current else findLoop isElem fuel h steps (queue ++ childNodes fuel h current)

/-- element.rs:661-677, `Element::find_element`. -/
def findElement (isElem : Handle → Bool) (fuel steps : Nat) (h : Heap) (p : Handle) : Option Handle :=
  findLoop isElem fuel h steps [p]

end Verif.Bfs
