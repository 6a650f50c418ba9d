import Verif.Canvas.Model

/-!
# Specification: what is seen of the paths of a document
-/

namespace Verif.Canvas

open Verif.Segment Verif.Gjk Verif.Tree

variable {V : Type}

/-- The points inside of the canvas. -/
def inside (b : Box) : Set (Gjk.Pt ℝ) :=
  {x | (b.minX : ℝ) < x.1 ∧ x.1 < b.minX + b.width ∧ (b.minY : ℝ) < x.2 ∧ x.2 < b.minY + b.height}

/-- All that filling path data may paint inside of the canvas: for every subpath that has a piece. -/
def seen (b : Box) (c : List Cmd) : List (Set (Gjk.Pt ℝ)) :=
  ((subpaths c).filter fun u => !u.ops.isEmpty).map fun u => MergePaths.area u ∩ inside b

/-- The attributes but for the path data. -/
def rest (as : List (Attr V)) : List (Attr V) := as.filter fun a => match a with | .d _ => false | _ => true

/-- A node is a path. -/
def isPath : Node (Attr V) → Bool
  | .elem n _ _ => n.is "path"
  | _ => false

/-- A path that is seen: the elements it is in with their attributes, its name, its other attributes and what it paints. -/
structure Look (V : Type) where
  anc : List (Node (Attr V))
  name : EName
  attrs : List (Attr V)
  areas : List (Set (Gjk.Pt ℝ))

open Classical in
/-- What is seen of a node with its ancestors: something if it is a path that is not inside of a path (content of a path is not painted), whose data paint
something inside of the canvas. -/
noncomputable def look (b : Box) : List (Node (Attr V)) → Option (Look V)
  | .elem n as _ :: anc =>
    if n.is "path" ∧ ¬ anc.any isPath ∧ ∃ c, dataOf as = some c ∧ ∃ s ∈ seen b c, s.Nonempty then
      some ⟨anc.map Node.bare, n, rest as, ((dataOf as).map (seen b)).getD []⟩
    else none
  | _ => none

/-- All paths of a document that are seen, in the order of painting. -/
noncomputable def shown (b : Box) (doc : List (Node (Attr V))) : List (Look V) := (lines doc).filterMap (look b)

/-- The canvas of a root element with these attributes: its view box, or else its width and height. -/
def Sized (as : List (Attr V)) (b : Box) : Prop :=
  (.viewBox b ∈ as ∧ ∀ b', .viewBox b' ∈ as → b' = b) ∨
  ((∀ b', .viewBox b' ∉ as) ∧ ∃ w h, (.width (some w) ∈ as ∧ ∀ p, .width p ∈ as → p = some w) ∧ (.height (some h) ∈ as ∧ ∀ p, .height p ∈ as → p = some h) ∧
    b = ⟨0, 0, w, h⟩)

/-- Nothing is known about the canvas: there is no view box, and no width or no height in pixels. -/
def Unsized (as : List (Attr V)) : Prop := (∀ b, .viewBox b ∉ as) ∧ ((∀ w, .width (some w) ∉ as) ∨ ∀ h, .height (some h) ∉ as)

/-- The path data of the document are such that the conversion to segments keeps them (C23). -/
def Proper (doc : List (Node (Attr V))) : Prop := ∀ n as ks, Occurs doc (.elem n as ks) → n.is "path" = true → ∀ c, dataOf as = some c → MergePaths.Good c

end Verif.Canvas
