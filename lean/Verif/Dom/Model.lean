/-!
# Model: the node heap of a document and the edits of its links

`crates/oxvg_ast/src/node.rs`, `crates/oxvg_ast/src/element.rs`. A node is a handle (its address); the
`Cell`s of all nodes are maps from handles. Node data are left out: no edit modelled here reads them
(`parent_node` in the code also checks that the parent is an element or document node, which is so for
every parent). Debug assertions are left out.
-/

namespace Verif.Dom

/-- The address of a node. -/
abbrev Handle := Nat

/-- node.rs:166-185, the five links and the id of every node. -/
structure Heap where
  parent : Handle → Option Handle
  next : Handle → Option Handle
  prev : Handle → Option Handle
  first : Handle → Option Handle
  last : Handle → Option Handle
  id : Handle → Nat

/-- Assignment to one cell. -/
def upd {α : Type} (f : Handle → α) (a : Handle) (v : α) : Handle → α := fun x => if x = a then v else f x

namespace Heap

def setParent (h : Heap) (a : Handle) (v : Option Handle) : Heap := { h with parent := upd h.parent a v }
def setNext (h : Heap) (a : Handle) (v : Option Handle) : Heap := { h with next := upd h.next a v }
def setPrev (h : Heap) (a : Handle) (v : Option Handle) : Heap := { h with prev := upd h.prev a v }
def setFirst (h : Heap) (a : Handle) (v : Option Handle) : Heap := { h with first := upd h.first a v }
def setLast (h : Heap) (a : Handle) (v : Option Handle) : Heap := { h with last := upd h.last a v }

/-- node.rs:593-621, `Node::remove`. -/
def remove (h : Heap) (c : Handle) : Heap :=
  let parent := h.parent c
  let prev := h.prev c
  let next := h.next c
  let h := ((h.setParent c none).setPrev c none).setNext c none
  match prev with
  | some a =>
    let h := match next with
      | some b => h.setPrev b (some a)
      | none => match parent with
        | some p => h.setLast p (some a)
        | none => h
    h.setNext a next
  | none => match next with
    | some b =>
      let h := h.setPrev b none
      match parent with
      | some p => h.setFirst p (some b)
      | none => h
    | none => match parent with
      | some p => (h.setFirst p none).setLast p none
      | none => h

/-- node.rs:276-279, `Node::empty`. -/
def empty (h : Heap) (p : Handle) : Heap := (h.setFirst p none).setLast p none

/-- node.rs:297-315, `Node::insert_before`. -/
def insertBefore (h : Heap) (p new ref : Handle) : Heap :=
  let h := h.remove new
  let h := h.setParent new (some p)
  let prevChild := h.prev ref
  let h := h.setPrev ref (some new)
  match prevChild with
  | none => (h.setFirst p (some new)).setNext new (some ref)
  | some a => ((h.setNext a (some new)).setPrev new (some a)).setNext new (some ref)

/-- node.rs:320-338, `Node::insert_after`. -/
def insertAfter (h : Heap) (p new ref : Handle) : Heap :=
  let h := h.remove new
  let h := h.setParent new (some p)
  let nextChild := h.next ref
  let h := h.setNext ref (some new)
  match nextChild with
  | none => (h.setLast p (some new)).setPrev new (some ref)
  | some b => ((h.setPrev b (some new)).setNext new (some b)).setPrev new (some ref)

/-- node.rs:428-439, `Node::append_child`. -/
def appendChild (h : Heap) (p c : Handle) : Heap :=
  let h := h.setParent c (some p)
  let l := h.last p
  let h := h.setLast p (some c)
  match l with
  | some a => (h.setNext a (some c)).setPrev c (some a)
  | none => h.setFirst p (some c)

/-- element.rs:472-484, `Element::append`. -/
def append (h : Heap) (p c : Handle) : Heap :=
  let h := h.remove c
  let h := match h.last p with
    | some a => ((h.setNext a (some c)).setPrev c (some a)).setLast p (some c)
    | none => (h.setFirst p (some c)).setLast p (some c)
  h.setParent c (some p)

/-- element.rs:327-338, `Element::prepend`. -/
def prepend (h : Heap) (p c : Handle) : Heap :=
  let h := match h.first p with
    | some b => ((h.setPrev b (some c)).setNext c (some b)).setFirst p (some c)
    | none => (h.setFirst p (some c)).setLast p (some c)
  h.setParent c (some p)

/-- element.rs:462-467, `Element::after`. -/
def after (h : Heap) (e new : Handle) : Heap :=
  match h.parent e with
  | none => h
  | some p => h.insertAfter p new e

/-- element.rs:489-495, `Element::before`. -/
def before (h : Heap) (e new : Handle) : Heap :=
  match h.parent e with
  | none => h
  | some p =>
    let h := h.remove new
    let h := h.setParent new (some p)
    h.insertBefore p new e

/-- element.rs:376-379, `Element::replace_with`. -/
def replaceWith (h : Heap) (e new : Handle) : Heap := (h.after e new).remove e

/-- node.rs:697-724, `Node::replace_child`. -/
def replaceChild (h : Heap) (p new old : Handle) : Heap :=
  let prev := h.prev old
  let next := h.next old
  let h := ((h.setPrev old none).setNext old none).setParent old none
  let h := ((h.setPrev new prev).setNext new next).setParent new (some p)
  let h := match prev with
    | some a => h.setNext a (some new)
    | none => h.setFirst p (some new)
  match next with
  | some b => h.setPrev b (some new)
  | none => h.setLast p (some new)

/-- The loop of element.rs:615-619: every node from `cur` on along `next` gets the parent `par`. The loop
of the code is bounded by `fuel`; `none` when it does not end within. -/
def reparent (par : Option Handle) : Nat → Heap → Option Handle → Option Heap
  | _, h, none => some h
  | 0, _, some _ => none
  | fuel + 1, h, some c =>
    let h := h.setParent c par
    reparent par fuel h (h.next c)

/-- element.rs:620-650, the part of `Element::flatten` after the loop; `parent` was taken before it. -/
def splice (h : Heap) (parent : Option Handle) (e : Handle) : Heap :=
  let prev := h.prev e
  let next := h.next e
  let first := h.first e
  let last := h.last e
  let h := (((h.setPrev e none).setNext e none).setFirst e none).setLast e none
  let h := match first with
    | some f => match prev with
      | some a => (h.setNext a (some f)).setPrev f (some a)
      | none => match parent with
        | some p => h.setFirst p (some f)
        | none => h
    | none => match prev with
      | some a =>
        let h := h.setNext a next
        match next with
        | some b => h.setPrev b (some a)
        | none => h
      | none => match parent with
        | some p => h.setFirst p next
        | none => h
  match last with
  | some l => match next with
    | some b => (h.setNext l (some b)).setPrev b (some l)
    | none => match parent with
      | some p => h.setLast p (some l)
      | none => h
  | none => match next with
    | some b => h.setPrev b prev
    | none => match parent with
      | some p => h.setLast p prev
      | none => h

/-- element.rs:613-651, `Element::flatten`. -/
def flatten (fuel : Nat) (h : Heap) (e : Handle) : Option Heap :=
  let parent := h.parent e
  let h := h.setParent e none
  (reparent parent fuel h (h.first e)).map fun h => h.splice parent e

/-- node.rs:348-364, the loop of `retain_children`; `kept` is `previously_retained`. The callback is a
predicate on nodes (it does not edit the tree). -/
def retainLoop (f : Handle → Bool) (p : Handle) : Nat → Heap → Option Handle → Option Handle → Option Heap
  | _, h, none, _ => some h
  | 0, _, some _, _ => none
  | fuel + 1, h, some c, kept =>
    let current := h.next c
    if f c then
      let h := h.setPrev c kept
      let h := if kept.isNone then h.setFirst p (some c) else h
      retainLoop f p fuel (h.setLast p (some c)) current (some c)
    else
      retainLoop f p fuel (((h.setParent c none).setPrev c none).setNext c none) current kept

/-- node.rs:342-365, `Node::retain_children`. -/
def retainChildren (fuel : Nat) (h : Heap) (p : Handle) (f : Handle → Bool) : Option Heap :=
  let h := h.setLast p none
  let current := h.first p
  retainLoop f p fuel (h.setFirst p none) current none

/-- element.rs:359-365, the loop over neighbouring pairs. -/
def linkPairs (p : Handle) : Heap → List Handle → Heap
  | h, a :: b :: l => linkPairs p (((h.setParent a (some p)).setNext a (some b)).setPrev b (some a)) (b :: l)
  | h, _ => h

/-- element.rs:351-371, `Element::replace_children`; the iterator is the list of its items (in the code it
is consumed lazily; its only user collects it first). -/
def replaceChildren (h : Heap) (p : Handle) (l : List Handle) : Heap :=
  let h := h.setFirst p l.head?
  let h := match l.head? with
    | some f => h.setPrev f none
    | none => h
  let h := linkPairs p h l
  let h := match l.getLast? with
    | some z => (h.setParent z (some p)).setNext z none
    | none => h
  h.setLast p l.getLast?

/-- element.rs:698-700. -/
def setPrevIf (h : Heap) (c : Handle) : Option Handle → Heap
  | some a => h.setPrev c (some a)
  | none => h

/-- element.rs:696-702, the loop over the sorted children: the first keeps its `previous_sibling`. `prev`
is the child before, if any. -/
def relink : Heap → Option Handle → List Handle → Heap
  | h, _, [] => h
  | h, prev, c :: l =>
    relink ((h.setPrevIf c prev).setNext c l.head?) (some c) l

/-- element.rs:679-703, `Element::sort_child_elements`. `sorted` is the order that the standard library's
sort gives for the children (a rearrangement of them); the sort itself is not modelled. -/
def sortChildren (h : Heap) (p : Handle) (sorted : List Handle) : Heap :=
  relink ((h.setFirst p sorted.head?).setLast p sorted.getLast?) none sorted

/-- element.rs:397-428, the effect of `Element::set_local_name` on links; `replacement` is the freshly
allocated node. -/
def setLocalName (h : Heap) (e replacement : Handle) : Heap := h.replaceWith e replacement

/-- node.rs:528-543, `set_text_content` on an element; `text` is the freshly allocated text node. -/
def setTextContent (h : Heap) (p text : Handle) : Heap := (h.empty p).appendChild p text

end Heap

/-- node.rs:114-119, `ChildNodes`. -/
structure Iter where
  front : Option Handle
  frontNext : Option Handle
  endPrev : Option Handle
  back : Option Handle

namespace Iter

def done : Iter := ⟨none, none, none, none⟩

/-- node.rs:245-255, `Node::child_nodes_iter`. -/
def new (h : Heap) (p : Handle) : Iter :=
  let front := h.first p
  let back := h.last p
  ⟨front, front.bind h.next, back.bind h.prev, back⟩

/-- node.rs:124-142, `ChildNodes::next`. Nodes are compared by id (node.rs:729-733). -/
def next (h : Heap) (i : Iter) : Option (Handle × Iter) :=
  match i.front with
  | none => none
  | some current =>
    let j : Iter := { i with front := i.frontNext, frontNext := i.frontNext.bind h.next }
    some (current, if i.back.any (fun e => h.id e == h.id current) then done else j)

/-- node.rs:146-161, `ChildNodes::next_back`. -/
def nextBack (h : Heap) (i : Iter) : Option (Handle × Iter) :=
  match i.back with
  | none => none
  | some current =>
    let j : Iter := { i with back := i.endPrev, endPrev := i.endPrev.bind h.prev }
    some (current, if i.front.any (fun f => h.id f == h.id current) then done else j)

end Iter

/-- node.rs:653-665, `Node::insert`; `item(index - 1)` (node.rs:444-446) is the `n`-th element of the
child iterator, here with fuel-free recursion on the index. -/
def Iter.nth (h : Heap) : Nat → Iter → Option Handle
  | 0, i => (i.next h).map (·.1)
  | n + 1, i => match i.next h with
    | none => none
    | some (_, i) => Iter.nth h n i

def Heap.item (h : Heap) (p : Handle) (index : Nat) : Option Handle := Iter.nth h index (Iter.new h p)

def Heap.insert (h : Heap) (p : Handle) (index : Nat) (new : Handle) : Heap :=
  if index = 0 then
    match h.first p with
    | some f => h.insertBefore p new f
    | none => h.appendChild p new
  else match h.item p (index - 1) with
    | some r => h.insertAfter p new r
    | none => h.appendChild p new

end Verif.Dom
