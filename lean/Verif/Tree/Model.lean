import Verif.Names.Model

/-!
# Model: documents as trees and the visitor that jobs run over them

`crates/oxvg_ast/src/node.rs`, `crates/oxvg_ast/src/visitor.rs`, `crates/oxvg_ast/src/element.rs`,
`crates/oxvg_collections/src/element.rs`.

The linked nodes of the arena are modelled in `Verif.Dom`; there `edit_loop_spec` shows that a loop over
the children of a node in which every child may remove or replace itself leaves the concatenation of
what every original child became. This module works on that level: a node is a tree, and visiting a
node gives the list of nodes that take its place.
-/

namespace Verif.Tree

open Verif.Names (Str lit Prefix StdNs NS)

/-- element.rs (collections):140-156, `ElementId`: a qualified name. The known names are those with the
SVG namespace (`ElementId::new`, 157-167), so the variant is determined by prefix and local name. -/
structure EName where
  pre : Prefix
  loc : Str
  deriving DecidableEq, Repr

/-- element.rs (ast):29-39, `is_element!(element, Name)` with collections/element.rs:157-167 and 291-302:
the unaliased prefix is SVG and the local name is the given one. -/
def EName.is (n : EName) (local' : String) : Bool := n.pre.unaliased == .std .svg && n.loc == lit local'

/-- node.rs:77-112, `NodeData` with the children of the node. The document node is the list of its
children. Comments and texts made by the parser always have a value (parse/roxmltree.rs:315-330).
The rules of a style node are kept as text. There is no node for a doctype. -/
inductive Node (A : Type) where
  | elem (name : EName) (attrs : List A) (kids : List (Node A))
  | text (s : List Char)
  | css (s : List Char)
  | comment (s : List Char)
  | pi (target : Str) (data : Option Str)
  deriving Repr

variable {A ε : Type}

/-- The children of a node. -/
def Node.kids : Node A → List (Node A)
  | .elem _ _ ks => ks
  | _ => []

/-- What the hooks of a job (visitor.rs:150-235: `element`, `text_or_cdata`, `style`, `comment`,
`processing_instruction`) do with a node when it is reached: fail, remove it (`none`), or keep it with
these attributes (no attributes for a node which is not an element). -/
abbrev Hook (A ε : Type) := Node A → Except ε (Option (List A))

/-- What stays in place of an element after its hook and its children. -/
def rebuild (n : EName) (ks : List (Node A)) : Option (List A) → List (Node A)
  | none => []
  | some as => [.elem n as ks]

/-- What stays in place of any other node. -/
def keepLeaf (n : Node A) : Option (List A) → List (Node A)
  | none => []
  | some _ => [n]

mutual
/-- visitor.rs:312-349, `Visitor::visit` for a job without `exit_element`: the hook runs first, then
the children are visited, also those of an element the hook has just removed. -/
def visit (h : Hook A ε) : Node A → Except ε (List (Node A))
  | .elem n as ks => do
    let r ← h (.elem n as ks)
    let ks' ← visitAll h ks
    pure (rebuild n ks' r)
  | .text s => do pure (keepLeaf (.text s) (← h (.text s)))
  | .css s => do pure (keepLeaf (.css s) (← h (.css s)))
  | .comment s => do pure (keepLeaf (.comment s) (← h (.comment s)))
  | .pi t d => do pure (keepLeaf (.pi t d) (← h (.pi t d)))
/-- visitor.rs:355-377, `Visitor::visit_children`. -/
def visitAll (h : Hook A ε) : List (Node A) → Except ε (List (Node A))
  | [] => .ok []
  | n :: ns => do
    let a ← visit h n
    let b ← visitAll h ns
    pure (a ++ b)
end

/-- visitor.rs:294-306, `start_with_context`, for a job whose `prepare` only looks at its own switch. -/
def start (on : Bool) (h : Hook A ε) (doc : List (Node A)) : Except ε (List (Node A)) :=
  if on then visitAll h doc else .ok doc

/-- `char::is_whitespace` on a text, for `str::trim().is_empty()`. -/
def isBlank (white : Char → Bool) (s : List Char) : Bool := s.all white

/-- node.rs:450-454, the test on one child. -/
def Node.isBlankText (white : Char → Bool) : Node A → Bool
  | .text s => isBlank white s
  | _ => false

/-- node.rs:449-455, `Node::is_empty`, given the children. -/
def isEmpty (white : Char → Bool) (ks : List (Node A)) : Bool := ks.all (·.isBlankText white)

end Verif.Tree
