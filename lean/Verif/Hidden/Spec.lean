import Verif.Hidden.Model
import Verif.Unpainted.Spec
import Mathlib.Data.List.Basic

/-!
# What of a document is rendered

`css` gives the value of a property on the first of these elements, the others being its ancestors, nearest first.
-/

namespace Verif.Hidden

open Verif.Tree Verif.Names
open Verif.Unknowns (Key Val Attr AId E Item word content)
open Verif.Cascade (Mode)

/-- The values of properties. -/
abbrev Css := List E → Key → Val

/-- SVG 2, 5.2 and CSS: what hides an element and everything in it. -/
def Hides (css : Css) (c : List E) : Prop :=
  css c .Display = word "none" ∨ css c .Opacity = .parts [.num 0]

/-- An attribute says a length of zero. -/
def Null (k : Key) (e : E) : Prop :=
  ∃ v, attr k e.2 = some v ∧ (v = .parts [.num 0] ∨ v = .parts [.px 0] ∨ ∃ u, v = .parts [.dim 0 u])

/-- SVG 2, 9 and 10: a shape or an image without an extent, or a path without a point. -/
def Flat (rd : Reading) (e : E) : Prop :=
  (e.1.is "circle" = true ∧ Null .RGeometry e) ∨
  (e.1.is "ellipse" = true ∧ (Null .RX e ∨ Null .RY e)) ∨
  (e.1.is "rect" = true ∧ (Null .WidthRect e ∨ Null .HeightRect e)) ∨
  (e.1.is "image" = true ∧ (Null .WidthImage e ∨ Null .HeightImage e)) ∨
  (e.1.is "path" = true ∧ ∀ d, attr .D e.2 = some d → rd.commands d = 0) ∨
  ((e.1.is "polyline" = true ∨ e.1.is "polygon" = true) ∧ attr .Points e.2 = none)

/-- SVG 2, 14.3: a pattern that paints nothing. -/
def Void (e : E) : Prop := e.1.is "pattern" = true ∧ (Null .WidthPattern e ∨ Null .HeightPattern e)

/-- SVG 2, 13.7: a path of one point and no marker there. -/
def Dot (css : Css) (rd : Reading) (e : E) (cs : List E) : Prop :=
  e.1.is "path" = true ∧ ∃ d, attr .D e.2 = some d ∧ rd.commands d = 1 ∧ css (e :: cs) .MarkerStart = word "none" ∧
    css (e :: cs) .MarkerEnd = word "none"

/-- SVG 2, 5.2: the elements that are not rendered where they stand. -/
def Unrendered (e : E) : Prop :=
  ∃ s ∈ ["clipPath", "defs", "filter", "linearGradient", "marker", "mask", "pattern", "radialGradient", "solidColor", "symbol"],
    e.1.is s = true

/-- The element and its ancestors, or the ancestors of another node. -/
def chainOf : Item → List E
  | .elem c => c
  | .leaf c _ => c

/-- Rendered where it stands, as far as its name and those around it decide that. -/
def Placed (i : Item) : Prop := ∀ e ∈ chainOf i, ¬ Unrendered e

/-- An element and its ancestors are part of the document. -/
def In (doc : List (Node Attr)) (c : List E) : Prop := .elem c ∈ content doc

/-- A `use` refers to an id. -/
def Uses (rd : Reading) (e : E) (i : List Char) : Prop :=
  e.1.is "use" = true ∧ ∃ k v x, (k = .Href ∨ k = .XLinkHref) ∧ .plain (.known k) v ∈ e.2 ∧ rd.text v = x :: i

/-- A `use` refers to an element. -/
def Used (rd : Reading) (doc : List (Node Attr)) (t : E) : Prop :=
  ∃ u us i, In doc (u :: us) ∧ Uses rd u i ∧ i ∈ idsOf rd t.2

/-- A `use` of something in a `defs` that is not seen. -/
def Vain (css : Css) (rd : Reading) (doc : List (Node Attr)) (e : E) : Prop :=
  ∃ i t d cs, Uses rd e i ∧ In doc (t :: d :: cs) ∧ d.1.is "defs" = true ∧ i ∈ idsOf rd t.2 ∧
    (css (t :: d :: cs) .Opacity = .parts [.num 0] ∨ Flat rd t ∨ Void t)

/-- Nothing on the way to an element turns it off. -/
def Sound (css : Css) (rd : Reading) (doc : List (Node Attr)) (c : List E) : Prop :=
  ∀ e cs, e :: cs <:+ c → ¬ Hides css (e :: cs) ∧ ¬ Flat rd e ∧ ¬ Dot css rd e cs ∧ ¬ Void e ∧ ¬ Vain css rd doc e

/-- The element may be rendered, as far as it and its ancestors decide that. -/
def Rendered (css : Css) (rd : Reading) (doc : List (Node Attr)) (c : List E) : Prop :=
  ∀ e cs, e :: cs <:+ c → ¬ Hides css (e :: cs) ∧ ¬ Flat rd e ∧ ¬ Dot css rd e cs ∧ ¬ Unrendered e ∧ ¬ Vain css rd doc e

/-- What is seen of a document: elements that are rendered and visible, and texts and others within them. -/
def Shown (css : Css) (rd : Reading) (doc : List (Node Attr)) : Item → Prop
  | .elem c => Rendered css rd doc c ∧ css c .Visibility = word "visible"
  | .leaf c _ => Rendered css rd doc c ∧ css c .Visibility = word "visible"

/-- A style sheet. -/
def sheetOf : Item → Option (List Char)
  | .leaf _ (.css s) => some s
  | _ => none

/-- The style sheets of a document. -/
def sheets (doc : List (Node Attr)) : List (List Char) := (content doc).filterMap sheetOf

/-- The values that the job works with are those of the properties, where they matter. -/
structure Right (css : Css) (doc : List (Node Attr)) (st : Styles) : Prop where
  opacity : ∀ c s, In doc c → st c = some s → s .Opacity = some (.parts [.num 0], .static) → css c .Opacity = .parts [.num 0]
  display : ∀ c s m, In doc c → st c = some s → s .Display = some (word "none", m) → css c .Display = word "none"
  visibility : ∀ c s, In doc c → st c = some s → s .Visibility = some (word "hidden", .static) → css c .Visibility = word "hidden"
  markers : ∀ c s, In doc c → st c = some s → (s .MarkerStart = none → css c .MarkerStart = word "none") ∧
    (s .MarkerEnd = none → css c .MarkerEnd = word "none")

/-- `visibility` is not said but by attributes. -/
def ByAttribute (css : Css) (doc : List (Node Attr)) : Prop :=
  ∀ e cs, In doc (e :: cs) → css (e :: cs) .Visibility = match attr .Visibility e.2 with
    | none | some .inherit => css cs .Visibility
    | some v => v

/-- A document as the job expects it: the style sheets are not in something transparent nor directly in a `defs`, every `defs` is in
plain sight, and no path directly in a `defs` has just one command. -/
structure Ordinary (css : Css) (rd : Reading) (st : List (Node Attr) → Styles) (doc : List (Node Attr)) : Prop where
  right : ∀ d, sheets d = sheets doc → Right css doc (st d)
  visibility : ByAttribute css doc
  sheets : ∀ c s, .leaf c (.css s) ∈ content doc →
    (∀ e es, e :: es <:+ c → css (e :: es) .Opacity ≠ .parts [.num 0]) ∧ ∀ e es, c = e :: es → e.1.is "defs" = false
  sight : ∀ e es, In doc (e :: es) → e.1.is "defs" = true → Sound css rd doc (e :: es) ∧ css (e :: es) .Visibility = word "visible"
  dots : ∀ t d cs v, In doc (t :: d :: cs) → d.1.is "defs" = true → t.1.is "path" = true → attr .D t.2 = some v → rd.commands v ≠ 1

/-- There is nothing in an element. -/
def Bare (doc : List (Node Attr)) (c : List E) : Prop :=
  ∀ i ∈ content doc, match i with
    | .elem d => ∀ e, d ≠ e :: c
    | .leaf d _ => d ≠ c

/-- An attribute is zero, without a unit or in pixels. -/
def Nought (k : Key) (e : E) : Prop :=
  attr k e.2 = some (.parts [.num 0]) ∨ attr k e.2 = some (.parts [.px 0])

/-- What is asked to be removed for its size. -/
def Asked (o : Options) (rd : Reading) (doc : List (Node Attr)) (e : E) (cs : List E) : Prop :=
  (e.1.is "circle" = true ∧ o.circleR = true ∧ Nought .RGeometry e ∧ Bare doc (e :: cs)) ∨
  (e.1.is "ellipse" = true ∧ (o.ellipseRx = true ∧ Nought .RX e ∨ o.ellipseRy = true ∧ Nought .RY e)) ∨
  (e.1.is "rect" = true ∧ (o.rectWidth = true ∧ Nought .WidthRect e ∨ o.rectHeight = true ∧ Nought .HeightRect e) ∧ Bare doc (e :: cs)) ∨
  (e.1.is "pattern" = true ∧ (o.patternWidth = true ∧ Nought .WidthPattern e ∨ o.patternHeight = true ∧ Nought .HeightPattern e)) ∨
  (e.1.is "image" = true ∧ (o.imageWidth = true ∧ Nought .WidthImage e ∨ o.imageHeight = true ∧ Nought .HeightImage e)) ∨
  (e.1.is "path" = true ∧ o.pathD = true ∧ ∀ d, attr .D e.2 = some d → rd.commands d = 0) ∨
  (e.1.is "polyline" = true ∧ o.polylinePoints = true ∧ attr .Points e.2 = none) ∨
  (e.1.is "polygon" = true ∧ o.polygonPoints = true ∧ attr .Points e.2 = none)

/-- SVG 2, 5.2: the elements that are there to be referred to. -/
def Resource (e : E) : Prop :=
  e.1.pre = .std .svg ∧ ∃ s ∈ ["clipPath", "filter", "linearGradient", "marker", "mask", "pattern", "radialGradient", "solidColor",
    "symbol"], e.1.is s = true

/-- No element of the document refers to an element or to something in it. -/
def Unreferenced (rd : Reading) (doc : List (Node Attr)) (c : List E) : Prop :=
  ∀ e cs, In doc (e :: cs) → c <:+ e :: cs → ∀ i ∈ idsOf rd e.2, ∀ r rs a, In doc (r :: rs) → a ∈ r.2 →
    (∀ v, a ≠ .plain (.known .Id) v) → i ∉ rd.refs a

end Verif.Hidden
