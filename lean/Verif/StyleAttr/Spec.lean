import Verif.StyleAttr.Model

/-!
# What CSS and SVG say about declarations and presentation attributes

CSS Cascade, section 6; SVG 2, 6.6 (presentation attributes: the properties of SVG that are no shorthands; `transform` has another name for
gradients and patterns); CSS Fonts (`font`), SVG 2, 13.7 (`marker`).
-/

namespace Verif.StyleAttr

variable {V : Type}

/-- The properties that a declaration sets. Only the shorthands of the table are given; what they set is left to `part`. -/
def sets (n : String) : List String :=
  if n = "font" then ["font-style", "font-weight", "font-stretch", "font-size", "font-family", "line-height"]
  else if n = "marker" then ["marker-start", "marker-mid", "marker-end"] else [n]

/-- The value that a list of declarations gives to a property: that of the last declaration that sets it; `part` takes the value of a property
from that of a shorthand. -/
inductive Gives (part : String → String → V → V) (p : String) : List (Decl V) → Option V → Prop
  | last (before : List (Decl V)) (d : Decl V) (after : List (Decl V)) : d.vendor = false → p ∈ sets d.prop →
      (∀ e ∈ after, e.vendor = false → p ∉ sets e.prop) → Gives part p (before ++ d :: after) (some (part d.prop p d.value))
  | nothing (ds : List (Decl V)) : (∀ e ∈ ds, e.vendor = false → p ∉ sets e.prop) → Gives part p ds none

/-- The presentation attributes of all elements (SVG 2, 6.6, and `color-rendering`, `clip` and `enable-background` of SVG 1.1). -/
def presentation : List String :=
  ["alignment-baseline", "baseline-shift", "clip", "clip-path", "clip-rule", "color", "color-interpolation", "color-interpolation-filters",
    "color-rendering", "cursor", "direction", "display", "dominant-baseline", "enable-background", "fill", "fill-opacity", "fill-rule", "filter",
    "flood-color", "flood-opacity", "font-family", "font-size", "font-size-adjust", "font-stretch", "font-style", "font-variant", "font-weight",
    "glyph-orientation-horizontal", "glyph-orientation-vertical", "image-rendering", "letter-spacing", "lighting-color", "marker-end",
    "marker-mid", "marker-start", "mask", "mask-type", "opacity", "overflow", "paint-order", "pointer-events", "shape-rendering", "stop-color",
    "stop-opacity", "stroke", "stroke-dasharray", "stroke-dashoffset", "stroke-linecap", "stroke-linejoin", "stroke-miterlimit",
    "stroke-opacity", "stroke-width", "text-anchor", "text-decoration", "text-overflow", "text-rendering", "transform", "transform-origin",
    "unicode-bidi", "vector-effect", "visibility", "white-space", "word-spacing", "writing-mode"]

/-- Elements for which an attribute `transform` has no meaning, though the property has. -/
def otherTransform : List String := ["linearGradient", "radialGradient", "pattern"]

/-- The attribute is a presentation attribute of the element, which has to be one of SVG. -/
def Presents (svg : Bool) (el n : String) : Prop := svg = true ∧ n ∈ presentation ∧ (n = "transform" → el ∉ otherTransform)

/-- The attribute of this name. -/
def HasAttr (as : List (Item V)) (n : String) (v : V) : Prop := .attr n v ∈ as

/-- What the style sheets say about an element with these attributes: the winner among their declarations of a property. -/
structure Sheets (V : Type) where
  normal : List (Item V) → String → Option V
  important : List (Item V) → String → Option V

/-- The declarations of the `style` attribute, if there is one. -/
def Styled (as : List (Item V)) (b : Block V) : Prop := Item.style b ∈ as ∨ ((∀ c, Item.style c ∉ as) ∧ b = ⟨[], []⟩)

/-- The value that wins for a property, `none` if there is none: important declarations first, of the `style` attribute before those of style sheets;
then other declarations in this order; then the presentation attribute. -/
inductive Wins (S : Sheets V) (part : String → String → V → V) (svg : Bool) (el : String) (as : List (Item V)) (p : String) : Option V → Prop
  | important {b : Block V} {v : V} : Styled as b → Gives part p b.important (some v) → Wins S part svg el as p (some v)
  | importantSheet {b : Block V} {v : V} : Styled as b → Gives part p b.important none → S.important as p = some v →
      Wins S part svg el as p (some v)
  | style {b : Block V} {v : V} : Styled as b → Gives part p b.important none → S.important as p = none → Gives part p b.normal (some v) →
      Wins S part svg el as p (some v)
  | sheet {b : Block V} {v : V} : Styled as b → Gives part p b.important none → S.important as p = none → Gives part p b.normal none →
      S.normal as p = some v → Wins S part svg el as p (some v)
  | attr {b : Block V} {v : V} : Styled as b → Gives part p b.important none → S.important as p = none → Gives part p b.normal none →
      S.normal as p = none → Presents svg el p → HasAttr as p v → Wins S part svg el as p (some v)
  | nothing {b : Block V} : Styled as b → Gives part p b.important none → S.important as p = none → Gives part p b.normal none →
      S.normal as p = none → (∀ v, Presents svg el p → ¬ HasAttr as p v) → Wins S part svg el as p none

end Verif.StyleAttr
