import Verif.Unknowns.Model
import Verif.Cascade.Spec

/-!
# What elements look like, and what may be removed from a document

The tables here are those of CSS and SVG 2, not those of the code.
-/

namespace Verif.Unknowns

open Verif.Tree Verif.Names
open Verif.Cascade (Block Rule Level)

/-- The properties that are inherited. -/
def inheritedProperties : List Key :=
  [.ClipRule, .Color, .ColorInterpolation, .ColorInterpolationFilters, .ColorProfile, .ColorRendering, .Cursor,
   .Direction, .DominantBaseline, .Fill, .FillOpacity, .FillRule, .Font, .FontFamily, .FontSize, .FontSizeAdjust,
   .FontStretch, .FontStyle, .FontVariant, .FontWeight, .GlyphOrientationHorizontal, .GlyphOrientationVertical,
   .ImageRendering, .Kerning, .LetterSpacing, .Marker, .MarkerEnd, .MarkerMid, .MarkerStart, .PaintOrder,
   .PointerEvents, .ShapeRendering, .Stroke, .StrokeDasharray, .StrokeDashoffset, .StrokeLinecap, .StrokeLinejoin,
   .StrokeMiterlimit, .StrokeOpacity, .StrokeWidth, .TextAnchor, .TextRendering, .Visibility, .WordSpacing,
   .WritingMode]

/-- The properties that are not. -/
def otherProperties : List Key :=
  [.AlignmentBaseline, .BaselineShift, .Clip, .ClipPath, .Display, .EnableBackground, .Filter, .FloodColor,
   .FloodOpacity, .LightingColor, .Mask, .Opacity, .Overflow, .StopColor, .StopOpacity, .TextDecoration, .Transform,
   .TransformOrigin, .UnicodeBidi, .VectorEffect]

def word (s : String) : Val := .parts [.word s]

/-- The initial value of a property. -/
def initial : Key → Val
  | .AlignmentBaseline => word "baseline"
  | .BaselineShift => .parts [.px 0]
  | .Clip | .ColorProfile | .ColorRendering | .Cursor | .DominantBaseline | .GlyphOrientationVertical | .ImageRendering
  | .Kerning | .ShapeRendering | .TextRendering => word "auto"
  | .ClipPath | .Filter | .FontSizeAdjust | .Marker | .MarkerEnd | .MarkerMid | .MarkerStart | .Mask | .Stroke
  | .StrokeDasharray | .TextDecoration | .Transform | .VectorEffect => word "none"
  | .ClipRule | .FillRule => word "nonzero"
  | .Color => word "canvastext"
  | .ColorInterpolation => word "sRGB"
  | .ColorInterpolationFilters => word "linearRGB"
  | .Direction => word "ltr"
  | .Display => word "inline"
  | .EnableBackground => word "accumulate"
  | .Fill | .FloodColor | .StopColor => word "black"
  | .LightingColor => word "white"
  | .FillOpacity | .FloodOpacity | .Opacity | .StopOpacity | .StrokeOpacity => .parts [.num 1]
  | .FontSize => word "medium"
  | .FontStretch | .FontStyle | .FontVariant | .FontWeight | .LetterSpacing | .PaintOrder | .UnicodeBidi
  | .WordSpacing => word "normal"
  | .GlyphOrientationHorizontal => .parts [.num 0]
  | .Overflow | .Visibility => word "visible"
  | .PointerEvents => word "visiblePainted"
  | .StrokeDashoffset => .parts [.px 0]
  | .StrokeLinecap => word "butt"
  | .StrokeLinejoin => word "miter"
  | .StrokeMiterlimit => .parts [.num 4]
  | .StrokeWidth => .parts [.px 1]
  | .TextAnchor => word "start"
  | .TransformOrigin => .parts [.px 0, .px 0]
  | .WritingMode => word "horizontal-tb"
  | _ => word ""

/-- What a declaration means for the single properties: `marker` stands for three, `font` for those given by `fonts`. -/
def expand (fonts : Val → List (Key × Val)) (d : Key × Val) : List (Key × Val) :=
  match d.1 with
  | .Marker => [(.MarkerStart, d.2), (.MarkerMid, d.2), (.MarkerEnd, d.2)]
  | .Font => fonts d.2
  | _ => [d]

def expandBlock (fonts : Val → List (Key × Val)) (b : Block Key Val) : Block Key Val :=
  ⟨b.declarations.flatMap (expand fonts), b.important.flatMap (expand fonts)⟩

variable {Sel C : Type}

mutual
def expandRule (fonts : Val → List (Key × Val)) : Rule Key Val Sel C → Rule Key Val Sel C
  | .style ss b => .style ss (expandBlock fonts b)
  | .media c rs => .media c (expandRules fonts rs)
  | .other c rs => .other c (expandRules fonts rs)
def expandRules (fonts : Val → List (Key × Val)) : List (Rule Key Val Sel C) → List (Rule Key Val Sel C)
  | [] => []
  | r :: rs => expandRule fonts r :: expandRules fonts rs
end

/-- The property an attribute sets, with its value. -/
def property : Attr → Option (Key × Val)
  | .plain (.known k) v => if k ∈ inheritedProperties ∨ k ∈ otherProperties then some (k, v) else none
  | _ => none

/-- The declarations in an attribute. -/
def inlineBlock : Attr → Option (Block Key Val)
  | .style b => some b
  | _ => none

/-- What an element says itself. -/
def own (fonts : Val → List (Key × Val)) : List E → Level Key Val
  | [] => ⟨[], none⟩
  | e :: _ => ⟨e.2.filterMap property, (e.2.findSome? inlineBlock).map (expandBlock fonts)⟩

/-- The value of a property on the first of these elements, the others being its ancestors, nearest first. `holds` says
which conditions of at-rules are met. -/
def styleOf (r : Run Sel C) (fonts : Val → List (Key × Val)) (holds : C → Bool) : List E → Key → Val
  | [], k => initial k
  | e :: cs, k =>
    (Cascade.specified r.test (own fonts) (expandRules fonts r.rules) holds (e :: cs) k).getD
      (if k ∈ inheritedProperties then styleOf r fonts holds cs k else initial k)

/-- What is said about a property on the first of these elements, by it or by the nearest ancestor that says something, if
anything is. -/
def said (r : Run Sel C) (fonts : Val → List (Key × Val)) (holds : C → Bool) : List E → Key → Option Val
  | [], _ => none
  | e :: cs, k =>
    (Cascade.specified r.test (own fonts) (expandRules fonts r.rules) holds (e :: cs) k).or
      (if k ∈ inheritedProperties then said r fonts holds cs k else none)

/-! ## What is in a document -/

/-- An element with its ancestors, or another node with its ancestors. -/
inductive Item where
  | elem (c : List E)
  | leaf (anc : List E) (n : Node Attr)

mutual
/-- What is in a node, in document order, without the elements that `drop` says and what is in them. `drop` is told
whether the element is within a `foreignObject`, its ancestors and its name. -/
def items (drop : Bool → List E → EName → Bool) (foreign : Bool) (anc : List E) : Node Attr → List Item
  | .elem n as ks =>
    if drop foreign anc n then []
    else .elem ((n, as) :: anc) :: itemsAll drop (foreign || n.is "foreignObject") ((n, as) :: anc) ks
  | n => [.leaf anc n]
def itemsAll (drop : Bool → List E → EName → Bool) (foreign : Bool) (anc : List E) : List (Node Attr) → List Item
  | [] => []
  | n :: ns => items drop foreign anc n ++ itemsAll drop foreign anc ns
end

/-- All that is in a document. -/
def content (doc : List (Node Attr)) : List Item := itemsAll (fun _ _ _ => false) false [] doc

/-- An element of SVG accepts a child: it accepts everything, a category of the child, or the child. -/
def Accepts (parent : El) (child : Option El) : Prop :=
  parent.permittedCategories = none ∨
  ∃ c, child = some c ∧ (c ∈ parent.permittedElements ∨
    ∃ l, parent.permittedCategories = some l ∧ ∃ x ∈ l, x ∈ c.categories)

/-- The elements that are not known, and those that their parent does not accept, outside of `foreignObject` and without a
prefix. -/
def Stray (foreign : Bool) (anc : List E) (n : EName) : Prop :=
  foreign = false ∧ n.is "foreignObject" = false ∧ n.pre.value = none ∧
  (elementOf n = none ∨ ∃ p e rest, anc = (p, e) :: rest ∧ ∃ q, elementOf p = some q ∧ ¬ Accepts q (elementOf n))

/-- The elements that are left alone: those that are or are within a `foreignObject`, and those with a prefix. -/
def Alone (e : E) (cs : List E) : Prop :=
  (∃ x ∈ e :: cs, x.1.is "foreignObject" = true) ∨ e.1.pre.value ≠ none

open Classical in
/-- What is in a document, without stray elements if these are to be removed. -/
noncomputable def proper (on : Bool) (doc : List (Node Attr)) : List Item :=
  itemsAll (fun f a n => decide (on = true ∧ Stray f a n)) false [] doc

/-! ## What SVG 2 allows in an element -/

def animations : List El := [.Animate, .AnimateMotion, .AnimateTransform, .Set]
def descriptions : List El := [.Desc, .Metadata, .Title]
def paints : List El := [.LinearGradient, .RadialGradient, .Pattern]
def shapes : List El := [.Circle, .Ellipse, .Line, .Path, .Polygon, .Polyline, .Rect]
def structures : List El := [.Defs, .G, .Svg, .Symbol, .Use]
def lights : List El := [.FeDistantLight, .FePointLight, .FeSpotLight]
def primitives : List El :=
  [.FeBlend, .FeColorMatrix, .FeComponentTransfer, .FeComposite, .FeConvolveMatrix, .FeDiffuseLighting,
   .FeDisplacementMap, .FeDropShadow, .FeFlood, .FeGaussianBlur, .FeImage, .FeMerge, .FeMorphology, .FeOffset,
   .FeSpecularLighting, .FeTile, .FeTurbulence]
def graphics : List El :=
  animations ++ descriptions ++ paints ++ shapes ++ structures ++
    [.A, .ClipPath, .Filter, .ForeignObject, .Image, .Marker, .Mask, .Script, .Style, .Switch, .Text, .View]

/-- The content models of SVG 2, Filter Effects and CSS Masking, as far as they name elements of SVG. What `a` may contain
depends on where it stands; here it may contain what graphics and what text may contain. -/
def contentModel : El → List El
  | .Svg | .G | .Defs | .Symbol | .Marker | .Mask | .Pattern => graphics
  | .A => graphics ++ [.TSpan, .TextPath]
  | .ClipPath => descriptions ++ animations ++ shapes ++ [.Text, .Use, .Script]
  | .Switch => animations ++ shapes ++ [.A, .ForeignObject, .G, .Image, .Svg, .Switch, .Text, .Use]
  | .Text =>
    animations ++ descriptions ++ paints ++ [.TSpan, .TextPath, .A, .ClipPath, .Marker, .Mask, .Script, .Style]
  | .TSpan => descriptions ++ paints ++ [.A, .Animate, .Script, .Set, .Style, .TSpan]
  | .TextPath => descriptions ++ paints ++ [.A, .Animate, .ClipPath, .Marker, .Mask, .Script, .Set, .Style, .TSpan]
  | .Circle | .Ellipse | .Line | .Path | .Polygon | .Polyline | .Rect =>
    animations ++ descriptions ++ paints ++ [.ClipPath, .Marker, .Mask, .Script, .Style]
  | .Use | .Image => animations ++ descriptions ++ [.ClipPath, .Mask, .Script, .Style]
  | .LinearGradient | .RadialGradient => descriptions ++ [.Animate, .AnimateTransform, .Script, .Set, .Stop, .Style]
  | .Stop => [.Animate, .Script, .Set, .Style]
  | .Filter => descriptions ++ primitives ++ [.Animate, .Script, .Set]
  | .FeDiffuseLighting | .FeSpecularLighting => descriptions ++ lights ++ [.Script]
  | .FeComponentTransfer => descriptions ++ [.FeFuncA, .FeFuncB, .FeFuncG, .FeFuncR, .Script]
  | .FeMerge => descriptions ++ [.FeMergeNode, .Script]
  | .FeBlend | .FeColorMatrix | .FeComposite | .FeConvolveMatrix | .FeDisplacementMap | .FeDropShadow | .FeFlood
  | .FeGaussianBlur | .FeImage | .FeMorphology | .FeOffset | .FeTile | .FeTurbulence | .FeMergeNode | .FeFuncA
  | .FeFuncB | .FeFuncG | .FeFuncR | .FeDistantLight | .FePointLight | .FeSpotLight =>
    descriptions ++ [.Animate, .Script, .Set]
  | .View => animations ++ descriptions ++ [.Script, .Style]
  | .AnimateMotion => descriptions ++ [.MPath, .Script]
  | .Animate | .Set | .AnimateTransform | .MPath => descriptions ++ [.Script]
  | _ => []

/-- All elements are elements of SVG where SVG 2 allows them, but for text in links. -/
def Conforms (doc : List (Node Attr)) : Prop :=
  (∀ e cs, .elem (e :: cs) ∈ content doc → ∃ x, elementOf e.1 = some x) ∧
  ∀ e p cs, .elem (e :: p :: cs) ∈ content doc → ∃ x y, elementOf e.1 = some x ∧ elementOf p.1 = some y ∧
    x ∈ contentModel y ∧ ¬ (y = .A ∧ (x = .TSpan ∨ x = .TextPath))

/-! ## What SVG 2 allows as attributes -/

def conditional : List Key := [.RequiredExtensions, .SystemLanguage]
def timing : List Key := [.Begin, .Dur, .End, .Min, .Max, .Restart, .RepeatCount, .RepeatDur, .FillAnimate]
def animating : List Key :=
  [.CalcMode, .ValuesAnimate, .KeyTimes, .KeySplines, .From, .To, .By, .Additive, .Accumulate]
def primitive : List Key := [.XFe, .YFe, .WidthFe, .HeightFe, .Result]
/-- The attributes of SVG 2 and Filter Effects for each element, without those that are properties, that all
elements have, that are for events or accessibility. -/
def attributeModel : El → List Key
  | .A => [.Href, .Target, .Download, .Ping, .Rel, .Hreflang, .TypeA, .ReferrerPolicy] ++ conditional
  | .Animate => conditional ++ timing ++ animating ++ [.AttributeName, .Href]
  | .AnimateMotion => conditional ++ timing ++ animating ++ [.Path, .KeyPoints, .RotateAnimate, .Origin, .Href]
  | .AnimateTransform => conditional ++ timing ++ animating ++ [.AttributeName, .TypeAnimateTransform, .Href]
  | .Circle => conditional ++ [.CXGeometry, .CYGeometry, .RGeometry, .PathLength]
  | .ClipPath => [.ClipPathUnits]
  | .Ellipse => conditional ++ [.CXGeometry, .CYGeometry, .RX, .RY, .PathLength]
  | .FeBlend => primitive ++ [.In, .In2, .Mode]
  | .FeColorMatrix => primitive ++ [.In, .TypeFeColorMatrix, .ValuesFeColorMatrix]
  | .FeComponentTransfer | .FeTile => primitive ++ [.In]
  | .FeComposite => primitive ++ [.In, .In2, .OperatorFeComposite, .K1, .K2, .K3, .K4]
  | .FeConvolveMatrix =>
    primitive ++ [.In, .Order, .KernelMatrix, .Divisor, .Bias, .TargetX, .TargetY, .EdgeModeFeConvolveMatrix,
    .KernelUnitLength, .PreserveAlpha]
  | .FeDiffuseLighting => primitive ++ [.In, .SurfaceScale, .DiffuseConstant, .KernelUnitLength]
  | .FeDisplacementMap => primitive ++ [.In, .In2, .Scale, .XChannelSelector, .YChannelSelector]
  | .FeDistantLight => [.Azimuth, .Elevation]
  | .FeDropShadow => primitive ++ [.In, .StdDeviationFeDropShadow, .DXFeDropShadow, .DYFeDropShadow]
  | .FeFlood | .FeMerge => primitive
  | .FeFuncA | .FeFuncB | .FeFuncG | .FeFuncR =>
    [.TypeFeFunc, .TableValues, .SlopeFe, .Intercept, .Amplitude, .Exponent, .OffsetFe]
  | .FeGaussianBlur => primitive ++ [.In, .StdDeviationFeGaussianBlur, .EdgeModeFeGaussianBlur]
  | .FeImage => primitive ++ [.PreserveAspectRatio, .Href, .CrossOrigin]
  | .FeMergeNode => [.In]
  | .FeMorphology => primitive ++ [.In, .OperatorFeMorphology, .Radius]
  | .FeOffset => primitive ++ [.In, .DXFeOffset, .DYFeOffset]
  | .FePointLight => [.XFe, .YFe, .ZFe]
  | .FeSpecularLighting => primitive ++ [.In, .SurfaceScale, .SpecularConstant, .SpecularExponent, .KernelUnitLength]
  | .FeSpotLight => [.XFe, .YFe, .ZFe, .PointsAtX, .PointsAtY, .PointsAtZ, .SpecularExponent, .LimitingConeAngle]
  | .FeTurbulence => primitive ++ [.BaseFrequency, .NumOctaves, .Seed, .StitchTiles, .TypeFeTurbulence]
  | .Filter => [.XFilter, .YFilter, .WidthFilter, .HeightFilter, .FilterUnits, .PrimitiveUnits]
  | .Defs | .Desc | .Metadata | .Title => []
  | .G | .Switch => conditional
  | .Image =>
    conditional ++ [.PreserveAspectRatio, .Href, .CrossOrigin, .XGeometry, .YGeometry, .WidthImage, .HeightImage]
  | .Line => conditional ++ [.PathLength, .X1Line, .X2Line, .Y1Line, .Y2Line]
  | .LinearGradient =>
    [.X1LinearGradient, .X2LinearGradient, .Y1LinearGradient, .Y2LinearGradient, .GradientUnits, .GradientTransform,
    .SpreadMethod, .Href]
  | .Marker => [.ViewBox, .PreserveAspectRatio, .RefX, .RefY, .MarkerUnits, .MarkerWidth, .MarkerHeight, .Orient]
  | .Mask => conditional ++ [.XMask, .YMask, .WidthMask, .HeightMask, .MaskUnits, .MaskContentUnits]
  | .MPath => [.Href]
  | .Path => conditional ++ [.D, .PathLength]
  | .Pattern =>
    [.ViewBox, .PreserveAspectRatio, .XPattern, .YPattern, .WidthPattern, .HeightPattern, .PatternUnits,
    .PatternContentUnits, .PatternTransform, .Href]
  | .Polygon | .Polyline => conditional ++ [.PathLength, .Points]
  | .RadialGradient =>
    [.CXRadialGradient, .CYRadialGradient, .RRadialGradient, .FX, .FY, .FR, .GradientUnits, .GradientTransform,
    .SpreadMethod, .Href]
  | .Rect => conditional ++ [.PathLength, .XGeometry, .YGeometry, .WidthRect, .HeightRect, .RX, .RY]
  | .Script => [.TypeScript, .Href, .CrossOrigin]
  | .Set => conditional ++ timing ++ [.AttributeName, .To, .Href]
  | .Stop => [.OffsetStop]
  | .Style => [.TypeStyle, .Media, .Title]
  | .Svg =>
    conditional ++ [.XGeometry, .YGeometry, .WidthSvg, .HeightSvg, .ViewBox, .PreserveAspectRatio, .ZoomAndPan,
    .Playbackorder, .Timelinebegin]
  | .Symbol => [.PreserveAspectRatio, .ViewBox, .RefX, .RefY, .XGeometry, .YGeometry, .WidthSymbol, .HeightSymbol]
  | .Text => conditional ++ [.LengthAdjust, .XText, .YText, .DXText, .DYText, .RotateText, .TextLength]
  | .TextPath => conditional ++ [.LengthAdjust, .TextLength, .Path, .Href, .StartOffset, .Method, .Spacing, .Side]
  | .TSpan => conditional ++ [.XTRef, .YTRef, .DXTSpan, .DYTSpan, .RotateText, .TextLength, .LengthAdjust]
  | .Use => conditional ++ [.Href, .XGeometry, .YGeometry, .WidthUse, .HeightUse]
  | .View => [.ViewBox, .PreserveAspectRatio, .ZoomAndPan]
  | _ => []

/-! ## What it means not to give an attribute -/

/-- By SVG 1.1, SVG 2 and Filter Effects, the value that has the same effect as leaving the attribute out. Zero is the same
in all units. Attributes that are properties, and attributes for which there is no such value, are not listed. -/
def absent : Key → Option Val
  | .Accumulate | .BaseProfile | .EdgeModeFeGaussianBlur => some (word "none")
  | .Additive => some (word "replace")
  | .Amplitude | .DiffuseConstant | .Exponent | .NumOctaves | .SlopeFe | .SpecularConstant | .SpecularExponent
  | .SurfaceScale => some (.parts [.num 1])
  | .ExternalResourcesRequired | .PreserveAlpha => some (word "false")
  | .AttributeType | .RenderingIntent => some (word "auto")
  | .Azimuth | .BaseFrequency | .Bias | .DXFeOffset | .DYFeOffset | .Elevation | .HorizOriginX | .HorizOriginY
  | .Intercept | .K1 | .K2 | .K3 | .K4 | .OffsetFe | .Orient | .PointsAtX | .PointsAtY | .PointsAtZ | .Radius
  | .RotateAnimate | .RotateHatch | .Scale | .Seed | .SlopeFont | .StdDeviationFeGaussianBlur | .XFePointLight
  | .XFeSpotLight | .YFePointLight | .YFeSpotLight | .ZFe => some (.parts [.num 0])
  | .ClipPathUnits | .HatchContentUnits | .MaskContentUnits | .PatternContentUnits | .PrimitiveUnits =>
    some (word "userSpaceOnUse")
  | .GradientUnits | .HatchUnits | .MaskUnits | .PatternUnits | .FilterUnits => some (word "objectBoundingBox")
  | .ContentScriptType | .TypeScript => some (word "application/ecmascript")
  | .ContentStyleType | .TypeStyle => some (word "text/css")
  | .CXGeometry | .CYGeometry | .Pitch | .RGeometry | .StartOffset | .XCursor | .XGeometry | .XPattern | .XText
  | .X1Line | .X2Line | .YCursor | .YGeometry | .YPattern | .YText => some (.parts [.px 0])
  | .FR | .HeightPattern | .WidthPattern | .XHatch | .X1LinearGradient | .YHatch | .Y1Line | .Y2Line
  | .Y1LinearGradient | .Y2LinearGradient => some (.parts [.pct 0])
  | .CXRadialGradient | .CYRadialGradient | .RRadialGradient => some (.parts [.pct (1 / 2)])
  | .X2LinearGradient | .WidthSvg | .HeightSvg => some (.parts [.pct 1])
  | .WidthFilter | .HeightFilter | .WidthMask | .HeightMask => some (.parts [.pct (6 / 5)])
  | .XFilter | .XMask | .YFilter | .YMask => some (.parts [.pct (-1 / 10)])
  | .D | .TableValues => some (.parts [])
  | .DXFeDropShadow | .DYFeDropShadow | .StdDeviationFeDropShadow => some (.parts [.num 2])
  | .EdgeModeFeConvolveMatrix => some (word "duplicate")
  | .FillAnimate => some (word "remove")
  | .LengthAdjust => some (word "spacing")
  | .MarkerHeight | .MarkerWidth | .Order => some (.parts [.num 3])
  | .MarkerUnits => some (word "strokeWidth")
  | .Media | .Playbackorder => some (word "all")
  | .Method => some (word "align")
  | .Mode => some (word "normal")
  | .OperatorFeComposite => some (word "over")
  | .OperatorFeMorphology => some (word "erode")
  | .Origin => some (word "default")
  | .Panose1 => some (.parts (List.replicate 10 (.num 0)))
  | .PreserveAspectRatio => some (.parts [.word "xMidYMid", .word "meet"])
  | .Restart => some (word "always")
  | .Side => some (word "left")
  | .Spacing => some (word "exact")
  | .SpreadMethod => some (word "pad")
  | .StitchTiles => some (word "noStitch")
  | .TypeAnimateTransform => some (word "translate")
  | .TypeFeColorMatrix => some (word "matrix")
  | .TypeFeFunc => some (word "identity")
  | .TypeFeTurbulence => some (word "turbulence")
  | .UnicodeRange => some (word "U+0-10FFFF")
  | .UnitsPerEm => some (.parts [.num 1000])
  | .XChannelSelector | .YChannelSelector => some (word "A")
  | .ZoomAndPan => some (word "magnify")
  | _ => none

/-! ## When removing is safe -/

mutual
/-- The blocks of declarations in a rule. -/
def blocksOf : Rule Key Val Sel C → List (Block Key Val)
  | .style _ b => [b]
  | .media _ rs => blocksOfAll rs
  | .other _ rs => blocksOfAll rs
def blocksOfAll : List (Rule Key Val Sel C) → List (Block Key Val)
  | [] => []
  | r :: rs => blocksOf r ++ blocksOfAll rs
end

/-- Only single properties are declared. -/
def Single (b : Block Key Val) : Prop :=
  (∀ d ∈ b.declarations, d.1 ≠ .Marker ∧ d.1 ≠ .Font) ∧ ∀ d ∈ b.important, d.1 ≠ .Marker ∧ d.1 ≠ .Font

/-- The name of an element, its class and its id. -/
def badge (e : E) : EName × List (Key × Val) :=
  (e.1, e.2.filterMap fun
    | .plain (.known .Class) v => some (.Class, v)
    | .plain (.known .Id) v => some (.Id, v)
    | _ => none)

/-- The circumstances in which the job leaves the styles of a document alone. -/
structure Fair (r : Run Sel C) (doc : List (Node Attr)) : Prop where
  /-- Selectors only ask for names, classes and ids. -/
  selectors : ∀ ss c c', c.map badge = c'.map badge → r.test ss c = r.test ss c'
  /-- Style sheets and `style` attributes do not use shorthands. -/
  rules : ∀ b ∈ blocksOfAll r.rules, Single b
  inline : ∀ e cs, .elem (e :: cs) ∈ content doc → ∀ b, .style b ∈ e.2 → Single b
  /-- The computed styles are right (C43). -/
  fits : ∀ c, .elem c ∈ content doc → Cascade.Fits r.test (own fun _ => []) r.rules c
  apart : ∀ c, .elem c ∈ content doc → Cascade.NoClash r.test (own fun _ => []) r.rules c
  /-- Only known elements have attributes that are properties. -/
  parsed : ∀ e cs, .elem (e :: cs) ∈ content doc → elementOf e.1 = none → ∀ a ∈ e.2, property a = none

end Verif.Unknowns
