import Verif.Arena.History

/-!
# Model: how the parser builds the tree of nodes

`crates/oxvg_ast/src/parse/roxmltree.rs` (the links are made by the same code in
`crates/oxvg_ast/src/parse/web_sys.rs:113-160`). The input is the tree of the XML reader; what becomes of a
node's data is a label. Names and namespaces are the subject of `Verif.Namespaces`, not of this model.
-/

namespace Verif.Build

open Verif.Dom Verif.Arena

/-- A node of the XML reader: the data it gets, the data of the style sheet if it is a `style` element with at
least one rule that can be read (roxmltree.rs:250-256, 276-301), and its children. -/
inductive Src (L : Type) where
  | node (l : L) (style : Option L) (kids : List (Src L))

/-- The nodes made so far, the table of the allocator, and the data of the nodes. -/
structure Made (L : Type) where
  store : Store
  indices : List Handle
  label : Handle → Option L

variable {L : Type}

/-- roxmltree.rs:176-191, `attach_child`. -/
def attachChild (h : Heap) (p c : Handle) : Heap :=
  let h := h.setParent c (some p)
  let l := h.last p
  let h := h.setLast p (some c)
  let h := if (h.first p).isNone then h.setFirst p (some c) else h
  let h := h.setPrev c l
  match l with
  | some a => h.setNext a (some c)
  | none => h

/-- `attach_child` on the nodes made so far. -/
def Made.attach (b : Made L) (p c : Handle) : Made L :=
  { b with store := { b.store with heap := attachChild b.store.heap p c } }

/-- arena.rs:75-81, `Allocator::alloc`: the new node is at an address not in use, here the next number. -/
def Made.alloc (b : Made L) (l : L) : Handle × Made L :=
  let a := b.store.made.length
  (a, ⟨(Arena.alloc b.store b.indices a).1, (Arena.alloc b.store b.indices a).2, upd b.label a (some l)⟩)

/-- roxmltree.rs:202-205, 276-302: the style sheet is made and attached to the element by `parse_style`, then
attached again by `parse_xml_node`. -/
def Made.style (b : Made L) (c : Handle) (r : L) : Made L :=
  let (s, b) := b.alloc r
  (b.attach c s).attach c s

mutual
/-- roxmltree.rs:193-224, `parse_xml_node`; `none` is `ParseError::NodesLimitReached`. -/
def parseNode (depth : Nat) (b : Made L) : Src L → Option (Handle × Made L)
  | .node l style kids =>
    if depth > 1024 then none
    else match style with
      | some r => some ((b.alloc l).1, (b.alloc l).2.style (b.alloc l).1 r)
      | none => (parseKids (depth + 1) (b.alloc l).1 (b.alloc l).2 kids).map fun b' => ((b.alloc l).1, b')

/-- roxmltree.rs:160-174, `parse_xml_node_children`. -/
def parseKids (depth : Nat) (p : Handle) (b : Made L) : List (Src L) → Option (Made L)
  | [] => some b
  | k :: ks => match parseNode depth b k with
    | none => none
    | some r => parseKids depth p (r.2.attach p r.1) ks
end

/-- A new arena (arena.rs:45-49). -/
def blank : Made L := ⟨⟨[], fresh⟩, [], fun _ => none⟩

/-- roxmltree.rs:76-100, `parse_tree_with_allocator`: the document node, then the children of the reader's root. -/
def parseTree (document : L) (doc : List (Src L)) : Option (Made L) :=
  parseKids 0 (blank.alloc document).1 (blank.alloc document).2 doc

end Verif.Build
