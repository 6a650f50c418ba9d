import Verif.Tree.Model

/-!
# Vocabulary about trees that does not depend on the visitor
-/

namespace Verif.Tree

variable {A ε : Type}

/-- A node without its children. -/
def Node.bare : Node A → Node A
  | .elem n as _ => .elem n as []
  | n => n

mutual
/-- All nodes of a tree in document order, each with the chain of its ancestors (itself first). -/
def Node.lines (anc : List (Node A)) : Node A → List (List (Node A))
  | .elem n as ks => (.elem n as ks :: anc) :: linesAll (.elem n as ks :: anc) ks
  | .text s => [.text s :: anc]
  | .css s => [.css s :: anc]
  | .comment s => [.comment s :: anc]
  | .pi t d => [.pi t d :: anc]
/-- The same for a list of trees. -/
def linesAll (anc : List (Node A)) : List (Node A) → List (List (Node A))
  | [] => []
  | n :: ns => n.lines anc ++ linesAll anc ns
end

/-- All nodes of a document with their ancestors. -/
def lines (doc : List (Node A)) : List (List (Node A)) := linesAll [] doc

/-- `n` occurs in the document. -/
def Occurs (doc : List (Node A)) (n : Node A) : Prop := ∃ anc, (n :: anc) ∈ lines doc

/-- The nodes of the document in order, with their depth, without their children. A document is
determined by this (`outline_inj`). -/
def outline (doc : List (Node A)) : List (Nat × Node A) :=
  (lines doc).filterMap fun l => l.head?.map fun n => (l.length, n.bare)

/-- The nodes of the document that remain when every node for which `drop` holds goes away with all
its descendants, and every remaining node is edited by `f`. -/
def remaining (drop : Node A → Bool) (f : Node A → Node A) (doc : List (Node A)) : List (Nat × Node A) :=
  ((lines doc).filter fun l => !l.any drop).filterMap fun l => l.head?.map fun n => (l.length, f n.bare)

end Verif.Tree
