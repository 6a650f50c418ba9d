import Verif.Tree.Spec
import Verif.MergePaths.Test

/-!
# Model: removing paths outside of the canvas

`crates/oxvg_optimiser/src/jobs/remove_off_canvas_paths.rs`. Numbers are exact: the conversion of `f32` to `f64` and rounding are left out.
-/

namespace Verif.Canvas

open Verif.Segment Verif.Gjk Verif.Tree

/-- oxvg_collections/src/attribute/uncategorised.rs, `ViewBox`. -/
structure Box where
  minX : Rat
  minY : Rat
  width : Rat
  height : Rat
deriving DecidableEq

/-- The attributes that the job looks at. A width or height is `some` if it is a length with a fixed number of pixels (remove_off_canvas_paths.rs 147-158,
`to_px`), and `none` if it is one in `em` and the like, or a percentage. -/
inductive Attr (V : Type) where
  | transform (v : V)
  | width (px : Option Rat)
  | height (px : Option Rat)
  | viewBox (b : Box)
  | d (c : List Cmd)
  | other (name : String) (v : V)
deriving DecidableEq

variable {V : Type}

/-- `has_attribute!(element, Transform)`. -/
def Attr.isTransform : Attr V → Bool
  | .transform _ => true
  | _ => false

/-- `get_attribute!(element, WidthSvg)`. -/
def widthOf (as : List (Attr V)) : Option (Option Rat) := as.findSome? fun a => match a with | .width p => some p | _ => none

/-- `get_attribute!(element, HeightSvg)`. -/
def heightOf (as : List (Attr V)) : Option (Option Rat) := as.findSome? fun a => match a with | .height p => some p | _ => none

/-- `get_attribute!(element, ViewBox)`. -/
def viewBoxOf (as : List (Attr V)) : Option Box := as.findSome? fun a => match a with | .viewBox b => some b | _ => none

/-- `get_attribute_mut!(element, D)`. -/
def dataOf (as : List (Attr V)) : Option (List Cmd) := as.findSome? fun a => match a with | .d c => some c | _ => none

/-- Assigning through the reference of `get_attribute_mut!(element, D)`. -/
def setData (c : List Cmd) : List (Attr V) → List (Attr V)
  | [] => []
  | .d _ :: as => .d c :: as
  | a :: as => a :: setData c as

/-- remove_off_canvas_paths.rs 139-167, `gather(element).ok()`. -/
def gather (as : List (Attr V)) : Option Box :=
  match viewBoxOf as with
  | some b => some b
  | none => match widthOf as, heightOf as with
    | some (some w), some (some h) => some ⟨0, 0, w, h⟩
    | _, _ => none

/-- remove_off_canvas_paths.rs 91-99: a command that moves into the canvas. -/
def movesIn (b : Box) (c : Cmd) : Bool :=
  match MergePaths.explicit c with
  | .moveTo p => decide (b.minX ≤ p.x) && decide (p.x ≤ b.minX + b.width) && decide (b.minY ≤ p.y) && decide (p.y ≤ b.minY + b.height)
  | _ => false

/-- remove_off_canvas_paths.rs 104-106. -/
def closed (c : List Cmd) : List Cmd := if c.length = 2 then c ++ [.closePath] else c

/-- remove_off_canvas_paths.rs 118-123: the canvas as a segment. -/
noncomputable def frame (b : Box) : Seg ℝ ArcR :=
  let p (x y : Rat) : Gjk.Pt ℝ := ((x : ℝ), (y : ℝ))
  ⟨p b.minX b.minY, [.lineTo (p (b.minX + b.width) b.minY), .lineTo (p (b.minX + b.width) (b.minY + b.height)), .lineTo (p b.minX (b.minY + b.height))], true⟩

/-- What happens to a path. -/
inductive Fate where
  | stay
  | stayAs (c : List Cmd)
  | go
deriving DecidableEq

/-- remove_off_canvas_paths.rs 91-129, with the tolerance `tol`. `none` if it panics. -/
noncomputable def fate (tol : Rat) (b : Box) (c : List Cmd) : Option Fate :=
  if c.any (movesIn b) then some .stay
  else match fromSvg tol (closed c) with
    | none => none
    | some segs => match intersects ArcR.nest [frame b] (segs.map MergePaths.realSeg) with
      | none => none
      | some true => some (.stayAs (closed c))
      | some false => some .go

/-- What stays of an element with the attributes `as`, when its children are `ks` afterwards. -/
def Fate.apply (n : EName) (as : List (Attr V)) (ks : List (Node (Attr V))) : Fate → List (Node (Attr V))
  | .stay => [.elem n as ks]
  | .stayAs c => [.elem n (setData c as) ks]
  | .go => []

/-- remove_off_canvas_paths.rs 77-129: what happens to an element without `transform`. -/
noncomputable def fateOf (tol : Rat) (vb : Option Box) (n : EName) (as : List (Attr V)) : Option Fate :=
  if n.is "path" then
    match vb, dataOf as with
    | some b, some c => fate tol b c
    | _, _ => some .stay
  else some .stay

mutual
/-- remove_off_canvas_paths.rs 66-131, `element`, in visitor.rs 312-349, `visit`: children are visited also if the element has been removed, but not
those of an element with `transform`. -/
noncomputable def visit (tol : Rat) (vb : Option Box) : Node (Attr V) → Option (List (Node (Attr V)))
  | .elem n as ks =>
    if as.any Attr.isTransform then some [.elem n as ks]
    else match fateOf tol vb n as, visitAll tol vb ks with
      | some f, some ks' => some (f.apply n as ks')
      | _, _ => none
  | .text s => some [.text s]
  | .css s => some [.css s]
  | .comment s => some [.comment s]
  | .pi t d => some [.pi t d]
/-- visitor.rs 355-377, `visit_children`. -/
noncomputable def visitAll (tol : Rat) (vb : Option Box) : List (Node (Attr V)) → Option (List (Node (Attr V)))
  | [] => some []
  | n :: ns => match visit tol vb n, visitAll tol vb ns with
    | some a, some b => some (a ++ b)
    | _, _ => none
end

/-- remove_off_canvas_paths.rs 71-73: the canvas after the root element has been reached. -/
def enter (vb : Option Box) : Node (Attr V) → Option Box
  | .elem n as _ => if n.is "svg" then gather as else vb
  | _ => vb

/-- The children of the document (element.rs 317-322, `is_root`), with the canvas found so far. -/
noncomputable def visitRoots (tol : Rat) : Option Box → List (Node (Attr V)) → Option (List (Node (Attr V)))
  | _, [] => some []
  | vb, n :: ns => match visit tol (enter vb n) n, visitRoots tol (enter vb n) ns with
    | some a, some b => some (a ++ b)
    | _, _ => none

/-- remove_off_canvas_paths.rs 50-63, `prepare`. -/
noncomputable def run (on : Bool) (tol : Rat) (doc : List (Node (Attr V))) : Option (List (Node (Attr V))) :=
  if on then visitRoots tol none doc else some doc

end Verif.Canvas
