import Verif.Unpainted.Model
import Verif.Retain.Spec

/-!
# What is drawn of a shape

The values of properties by CSS, for documents without style sheets, and what they draw by SVG 2.
-/

namespace Verif.Unpainted

open Verif.Tree Verif.Names
open Verif.Unknowns (Key Val Attr AId E El Item property inlineBlock inheritedProperties otherProperties initial elementOf word)

/-- A declaration of `marker` stands for three. -/
def spread (d : Key × Val) : List (Key × Val) :=
  if d.1 = .Marker then [(.MarkerStart, d.2), (.MarkerMid, d.2), (.MarkerEnd, d.2)] else [d]

/-- The last declaration of a property. -/
def lastOf (k : Key) (l : List (Key × Val)) : Option Val := ((l.filter fun d => d.1 = k).map (·.2)).getLast?

/-- What an element says about a property itself: important declarations in its `style`, other declarations there, and
attributes, in this order. -/
def declared (e : E) (k : Key) : Option Val :=
  let b := (e.2.findSome? inlineBlock).getD ⟨[], []⟩
  ((lastOf k (b.important.flatMap spread)).or (lastOf k (b.declarations.flatMap spread))).or
    (((e.2.filterMap property).find? fun d => d.1 = k).map (·.2))

/-- The value of a property on the first of these elements, the others being its ancestors, nearest first. -/
def value (k : Key) : List E → Val
  | [] => initial k
  | e :: cs => match declared e k with
    | some .inherit => value k cs
    | some v => v
    | none => if k ∈ inheritedProperties then value k cs else initial k

/-- A length that is zero. -/
def Zero (v : Val) : Prop :=
  v = .parts [.num 0] ∨ v = .parts [.px 0] ∨ v = .parts [.pct 0] ∨ ∃ u, v = .parts [.dim 0 u]

/-- SVG 2, 13.4: the properties that say how a shape is filled. -/
def fillKeys : List Key := [.Fill, .FillOpacity, .FillRule]

/-- SVG 2, 13.5: the properties that say how it is stroked. -/
def strokeKeys : List Key :=
  [.Stroke, .StrokeOpacity, .StrokeWidth, .StrokeDasharray, .StrokeDashoffset, .StrokeLinecap, .StrokeLinejoin,
   .StrokeMiterlimit]

open Classical in
/-- How the inside is painted, if it is. -/
noncomputable def fillOf (c : List E) : Option (List Val) :=
  if value .Fill c = word "none" ∨ value .FillOpacity c = .parts [.num 0] then none
  else some (fillKeys.map (value · c))

open Classical in
/-- How the outline is painted, if it is. -/
noncomputable def strokeOf (c : List E) : Option (List Val) :=
  if value .Stroke c = word "none" ∨ value .StrokeOpacity c = .parts [.num 0] ∨ Zero (value .StrokeWidth c) then none
  else some (strokeKeys.map (value · c))

open Classical in
/-- SVG 2, 13.7: the markers, if there are any, with the width of the stroke that is their unit. -/
noncomputable def markersOf (c : List E) : Option (List Val) :=
  if value .MarkerStart c = word "none" ∧ value .MarkerMid c = word "none" ∧ value .MarkerEnd c = word "none" then none
  else some ([Key.MarkerStart, .MarkerMid, .MarkerEnd, .StrokeWidth].map (value · c))

/-- SVG 2, 10: the shapes. -/
def Shape (e : E) : Prop :=
  ∃ s ∈ ["circle", "ellipse", "line", "path", "polygon", "polyline", "rect"], e.1.is s = true

/-- The element has an id. -/
def HasId (e : E) : Prop := ∃ v, .plain (.known .Id) v ∈ e.2

/-- The `style` of an element says nothing about a property. -/
def Silent (k : Key) (e : E) : Prop :=
  ∀ b, .style b ∈ e.2 → ∀ d ∈ b.declarations ++ b.important, d.1 ≠ k

/-- What makes a document more than a picture: a style sheet, a script, an attribute for events, or a link to a script. -/
def Live (js : Val → Bool) (n : EName) (as : List Attr) (ks : List (Node Attr)) : Prop :=
  (∃ s r, ks = .css s :: r) ∨ n.is "script" = true ∨
  (∃ k v, .plain (.known k) v ∈ as ∧ k ≠ .Href ∧ ∃ g ∈ [Unknowns.Group.AnimationEvent, .DocumentEvent, .DocumentElementEvent,
    .GraphicalEvent, .GlobalEvent], g ∈ k.groups) ∨
  (n.is "a" = true ∧ ∃ v, .plain (.known .Href) v ∈ as ∧ js v = true)

/-- The attributes that say how a shape is painted: without a prefix, with a name that begins so. -/
def Painting (a : Attr) : Prop :=
  ∃ i v, a = .plain i v ∧ match i with
    | .known k => k.pre = none ∧ (lit "stroke" <+: lit k.loc ∨ lit "fill" <+: lit k.loc)
    | .other p l => p.unaliased = .std .svg ∧ (lit "stroke" <+: l ∨ lit "fill" <+: l)

end Verif.Unpainted
