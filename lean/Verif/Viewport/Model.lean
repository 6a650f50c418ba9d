import Verif.Removal.Model
import Verif.Collapse.Model
import Mathlib.Data.Rat.Defs
import Mathlib.Algebra.Order.Ring.Rat

/-!
# Model: jobs that remove `viewBox` or `width` and `height`

`crates/oxvg_optimiser/src/jobs/remove_view_box.rs`, `remove_dimensions.rs`.

Numbers are the rational numbers that the `f32` stand for; the conversion of units is exact (the code rounds the product to
an `f32`). Attribute names are compared with their prefix: attributes whose prefix is an alias of the SVG namespace, which
the code takes for attributes without a prefix (collections/attribute.rs:509-519), are not modelled.
-/

namespace Verif.Viewport

open Verif.Tree Verif.Names Verif.Empty
open Verif.Collapse (AName plainName)

/-- lightningcss `LengthValue`: the units that `to_px` converts. -/
inductive AbsUnit where
  | px | inch | cm | mm | q | pt | pc
  deriving DecidableEq, Repr

/-- collections/attribute/presentation.rs, `LengthPercentage` (lightningcss `DimensionPercentage<LengthValue>`): a dimension
in an absolute or another unit, a percentage (as a fraction), or a calculation. -/
inductive Len where
  | abs (v : ℚ) (u : AbsUnit)
  | rel (v : ℚ) (u : Str)
  | percent (p : ℚ)
  | sum (s : Str)
  deriving DecidableEq, Repr

/-- collections/attribute/uncategorised.rs:1199-1212, `ViewBox`. -/
structure Box where
  x : ℚ
  y : ℚ
  w : ℚ
  h : ℚ
  deriving DecidableEq, Repr

/-- Where content is put in one direction. -/
inductive Side where
  | min | mid | max
  deriving DecidableEq, Repr

/-- collections/attribute/uncategorised.rs, `PreserveAspectRatio`. -/
structure Aspect where
  align : Option (Side × Side)
  slice : Bool
  deriving DecidableEq, Repr

/-- collections/attribute.rs:1076-1085, 1957-1988, `Attr`: the values of the attributes in question. `raw` is the value of any
other attribute and of an attribute that does not parse (407-417, `Attr::Unparsed`). -/
inductive Val where
  | box (b : Box)
  | len (l : Len)
  | aspect (a : Aspect)
  | raw (s : Str)
  deriving DecidableEq, Repr

/-- An attribute. -/
structure Attr where
  name : AName
  val : Val
  deriving DecidableEq, Repr

/-- ast/attribute.rs:150-168, `get_named_item` and `get_named_item_local`. -/
def find (as : List Attr) (name : String) : Option Val := (as.find? fun a => a.name == plainName name).map (·.val)

/-- ast/attribute.rs:212-216, `remove_named_item`: the first attribute of the name. -/
def remove : List Attr → String → List Attr
  | [], _ => []
  | a :: as, name => if a.name == plainName name then as else a :: remove as name

/-- ast/attribute.rs:222-233, `set_named_item`. -/
def set : List Attr → Attr → List Attr
  | [], a => [a]
  | b :: as, a => if b.name == a.name then a :: as else b :: set as a

/-- lightningcss `LengthValue::to_px` on an absolute unit: CSS pixels, points, picas, inches, centimetres, millimetres and
quarters of millimetres. -/
def toPx (v : ℚ) : AbsUnit → ℚ
  | .px => v
  | .inch => v * 96
  | .cm => v * (96 / (254 / 100))
  | .mm => v * (96 / (254 / 100) / 10)
  | .q => v * (96 / (254 / 100) / 40)
  | .pt => v * (96 / 72)
  | .pc => v * (96 / 6)

/-- remove_view_box.rs:65-77 and 78-90, remove_dimensions.rs:68-76 and 79-87: the attribute as a number of pixels, if it is a
dimension in an absolute unit. -/
def pixels (as : List Attr) (name : String) : Option ℚ :=
  match find as name with
  | some (.len (.abs v u)) => some (toPx v u)
  | _ => none

/-- remove_view_box.rs:52-112, `element`: the attributes after the visit. `top`: the parent is the document node. -/
def viewBoxHook (top : Bool) (n : EName) (as : List Attr) : List Attr :=
  if !among ["pattern", "svg", "symbol"] n then as
  else match find as "viewBox", pixels as "width", pixels as "height" with
    | some (.box b), some w, some h =>
      if n.is "svg" && !top then as
      else if b.x == 0 && b.y == 0 && b.w == w && b.h == h then remove as "viewBox"
      else as
    | _, _, _ => as

/-- remove_dimensions.rs:52-100, `element`. -/
def dimensionsHook (_top : Bool) (n : EName) (as : List Attr) : List Attr :=
  if !n.is "svg" then as
  else if (find as "viewBox").isSome then remove (remove as "width") "height"
  else match pixels as "width", pixels as "height" with
    | some w, some h => set (remove (remove as "width") "height") ⟨plainName "viewBox", .box ⟨0, 0, w, h⟩⟩
    | _, _ => as

variable {A : Type}

mutual
/-- visitor.rs:312-349, `Visitor::visit` for a job whose hook only changes the attributes of elements and looks at whether the
parent is the document node. -/
def edit (f : Bool → EName → List A → List A) (top : Bool) : Node A → Node A
  | .elem n as ks => .elem n (f top n as) (editAll f false ks)
  | .text s => .text s
  | .css s => .css s
  | .comment s => .comment s
  | .pi t d => .pi t d
/-- visitor.rs:355-377, `Visitor::visit_children`. -/
def editAll (f : Bool → EName → List A → List A) (top : Bool) : List (Node A) → List (Node A)
  | [] => []
  | n :: ns => edit f top n :: editAll f top ns
end

/-- remove_view_box.rs:37-112. The job does not fail. -/
def removeViewBox (on : Bool) (doc : List (Node Attr)) : List (Node Attr) :=
  if on then editAll viewBoxHook true doc else doc

/-- remove_dimensions.rs:37-100. The job does not fail. -/
def removeDimensions (on : Bool) (doc : List (Node Attr)) : List (Node Attr) :=
  if on then editAll dimensionsHook true doc else doc

end Verif.Viewport
