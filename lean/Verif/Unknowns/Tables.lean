import Mathlib.Data.Rat.Defs

/-!
# Model: the tables of elements and attributes

`crates/oxvg_collections/src/attribute.rs`, `crates/oxvg_collections/src/element.rs`. The tables are written down row by
row, in the order of the code. Percentages are as they stand in the code.
-/

namespace Verif.Unknowns

/-- A part of a value. -/
inductive Atom where
  | num (q : Rat)
  | px (q : Rat)
  | dim (q : Rat) (unit : String)
  | pct (q : Rat)
  | word (s : String)
  deriving DecidableEq

/-- The value of an attribute, as parsed: the keyword `inherit`, or parts. attribute/inheritable.rs, and the types in
attribute/presentation.rs and attribute/uncategorised.rs; what differs is kept apart, nothing else is needed here. -/
inductive Val where
  | inherit
  | parts (l : List Atom)
  deriving DecidableEq

/-- attribute.rs:563-2606, `AttrId`. -/
inductive Key where
  | AccentHeight | Accumulate | Additive | Alphabetic | Amplitude | ArabicForm | AriaActiveDescendant | AriaAtomic
  | AriaAutocomplete | AriaBusy | AriaChecked | AriaColCount | AriaColIndex | AriaColSpan | AriaControls
  | AriaCurrent | AriaDescribedBy | AriaDetails | AriaDisabled | AriaDropEffect | AriaErrorMessage | AriaExpanded
  | AriaFlowTo | AriaGrabbed | AriaHasPopup | AriaHidden | AriaInvalid | AriaKeyshortcuts | AriaLabel
  | AriaLabelledBy | AriaLevel | AriaLive | AriaModal | AriaMultiline | AriaMultiselectable | AriaOrientation
  | AriaOwns | AriaPlaceholder | AriaPosInSet | AriaPressed | AriaReadonly | AriaRelevant | AriaRequired
  | AriaRoleDescription | AriaRowCount | AriaRowIndex | AriaRowSpan | AriaSelected | AriaSetSize | AriaSort
  | AriaValueMax | AriaValueMin | AriaValueNow | AriaValueText | Ascent | AttributeName | AttributeType | AutoFocus
  | Azimuth | BaseFrequency | BaseProfile | Bbox | Begin | Bias | By | CalcMode | CapHeight | Class | ClipPathUnits
  | ContentScriptType | ContentStyleType | CrossOrigin | CXGeometry | CXRadialGradient | CYGeometry
  | CYRadialGradient | D | Descent | DiffuseConstant | Divisor | Download | Dur | DXAltGlyph | DXFeDropShadow
  | DXFeOffset | DXGlyphRef | DXText | DXTSpan | DYAltGlyph | DYFeDropShadow | DYFeOffset | DYGlyphRef | DYText
  | DYTSpan | EdgeModeFeConvolveMatrix | EdgeModeFeGaussianBlur | Elevation | End | Exponent
  | ExternalResourcesRequired | FillAnimate | FilterRes | FilterUnits | Format | FR | From | FX | FY | G1 | G2
  | GlyphName | GlyphRef | GradientTransform | GradientUnits | Hanging | HatchContentUnits | HatchUnits
  | HeightFilter | HeightForeignObject | HeightImage | HeightPattern | HeightRect | HeightSvg | HeightSymbol
  | HeightUse | HeightFe | HeightMask | HorizAdvX | HorizOriginX | HorizOriginY | Href | Hreflang | Id
  | Ideographic | In | In2 | Intercept | K | K1 | K2 | K3 | K4 | KernelMatrix | KernelUnitLength | KeyPoints
  | KeySplines | KeyTimes | Lang | LengthAdjust | LimitingConeAngle | Local | MarkerHeight | MarkerUnits
  | MarkerWidth | MaskContentUnits | MaskUnits | Mathematical | Max | Media | Method | Min | Mode
  | NameColorProfile | NameFontFace | NumOctaves | OffsetStop | OffsetFe | OffsetHatchPath | OnAbort | OnActivate
  | OnBegin | OnCancel | OnCanplay | OnCanplaythrough | OnChange | OnClick | OnClose | OnCopy | OnCuechange | OnCut
  | OnDblclick | OnDrag | OnDragend | OnDragenter | OnDragexit | OnDragleave | OnDragover | OnDragstart | OnDrop
  | OnDurationchange | OnEmptied | OnEnd | OnEnded | OnError | OnFocusIn | OnFocusOut | OnFocus | OnInput
  | OnInvalid | OnKeydown | OnKeypress | OnKeyup | OnLoad | OnLoadeddata | OnLoadedmetadata | OnLoadstart
  | OnMousedown | OnMouseenter | OnMouseleave | OnMousemove | OnMouseout | OnMouseover | OnMouseup | OnPaste
  | OnPause | OnPlay | OnPlaying | OnProgress | OnRatechange | OnRepeat | OnReset | OnResize | OnScroll | OnSeeked
  | OnSeeking | OnSelect | OnShow | OnStalled | OnSubmit | OnSuspend | OnTimeupdate | OnToggle | OnUnload
  | OnVolumechange | OnWaiting | OnWheel | OnZoom | OperatorFeComposite | OperatorFeMorphology | Order | Orient
  | Orientation | Origin | OverlinePosition | OverlineThickness | Panose1 | Path | PathLength | PatternContentUnits
  | PatternTransform | PatternUnits | Ping | Pitch | Playbackorder | Points | PointsAtX | PointsAtY | PointsAtZ
  | PreserveAlpha | PreserveAspectRatio | PrimitiveUnits | Radius | ReferrerPolicy | RefX | RefY | Rel
  | RenderingIntent | RepeatCount | RepeatDur | RequiredExtensions | RequiredFeatures | Restart | Result | Role
  | RotateText | RotateAnimate | RotateHatch | RX | RY | RGeometry | RRadialGradient | Scale | Seed | Side
  | SlopeFont | SlopeFe | SolidColor | SolidOpacity | Spacing | SpecularConstant | SpecularExponent | SpreadMethod
  | StartOffset | StdDeviationFeDropShadow | StdDeviationFeGaussianBlur | Stemh | Stemv | StitchTiles
  | StrikethroughPosition | StrikethroughThickness | String | Style | SurfaceScale | SystemLanguage | Tabindex
  | TableValues | Target | TargetX | TargetY | TextLength | Timelinebegin | Title | To | TypeA
  | TypeAnimateTransform | TypeFeColorMatrix | TypeFeFunc | TypeFeTurbulence | TypeScript | TypeStyle | U1 | U2
  | UnderlinePosition | UnderlineThickness | Unicode | UnicodeRange | UnitsPerEm | VAlphabetic | VHanging
  | VIdeographic | VMathematical | ValuesFeColorMatrix | ValuesAnimate | Version | VertAdvY | VertOriginX
  | VertOriginY | ViewBox | ViewTarget | WidthFilter | WidthForeignObject | WidthImage | WidthPattern | WidthRect
  | WidthSvg | WidthSymbol | WidthUse | WidthFe | WidthMask | Widths | XAltGlyph | XCursor | XFe | XFePointLight
  | XFeSpotLight | XFilter | XGeometry | XGlyphRef | XHatch | XMask | XPattern | XText | XTRef | XHeight | X1Line
  | X1LinearGradient | X2Line | X2LinearGradient | XChannelSelector | XLinkActuate | XLinkArcrole | XLinkHref
  | XLinkRole | XLinkTitle | XLinkType | XLinkShow | XMLNS | XmlBase | XmlLang | XmlSpace | YAltGlyph | YCursor
  | YFe | YFePointLight | YFeSpotLight | YFilter | YGeometry | YGlyphRef | YHatch | YMask | YPattern | YText
  | YTRef | Y1Line | Y1LinearGradient | Y2Line | Y2LinearGradient | YChannelSelector | ZFe | ZoomAndPan
  | AlignmentBaseline | BaselineShift | Clip | ClipPath | ClipRule | Color | ColorInterpolation
  | ColorInterpolationFilters | ColorProfile | ColorRendering | Cursor | Direction | Display | DominantBaseline
  | EnableBackground | Fill | FillOpacity | FillRule | Filter | FloodColor | FloodOpacity | Font | FontFamily
  | FontSize | FontSizeAdjust | FontStretch | FontStyle | FontVariant | FontWeight | GlyphOrientationHorizontal
  | GlyphOrientationVertical | ImageRendering | Kerning | LetterSpacing | LightingColor | MarkerEnd | MarkerMid
  | MarkerStart | Marker | Mask | Opacity | Overflow | PaintOrder | PointerEvents | ShapeRendering | StopColor
  | StopOpacity | Stroke | StrokeDasharray | StrokeDashoffset | StrokeLinecap | StrokeLinejoin | StrokeMiterlimit
  | StrokeOpacity | StrokeWidth | TextAnchor | TextDecoration | TextRendering | Transform | TransformOrigin
  | UnicodeBidi | VectorEffect | Visibility | WordSpacing | WritingMode
  deriving DecidableEq

/-- element.rs:377-2153, `ElementId`. -/
inductive El where
  | A | AltGlyph | AltGlyphDef | AltGlyphItem | Animate | AnimateColor | AnimateMotion | AnimateTransform | Circle
  | ClipPath | ColorProfile | Cursor | Defs | Desc | Ellipse | FeBlend | FeColorMatrix | FeComponentTransfer
  | FeComposite | FeConvolveMatrix | FeDiffuseLighting | FeDisplacementMap | FeDistantLight | FeDropShadow
  | FeFlood | FeFuncA | FeFuncB | FeFuncG | FeFuncR | FeGaussianBlur | FeImage | FeMerge | FeMergeNode
  | FeMorphology | FeOffset | FePointLight | FeSpecularLighting | FeSpotLight | FeTile | FeTurbulence | Filter
  | Font | FontFace | FontFaceFormat | FontFaceName | FontFaceSrc | FontFaceURI | ForeignObject | G | Glyph
  | GlyphRef | Hatch | HatchPath | HKern | Image | Line | LinearGradient | Marker | Mask | Metadata | MissingGlyph
  | MPath | Path | Pattern | Polygon | Polyline | RadialGradient | Rect | Script | Set | Stop | Style | Svg
  | Switch | Symbol | Text | TextPath | Title | TRef | TSpan | Use | View | VKern
  deriving DecidableEq

/-- attribute/group.rs:13-44, `AttributeGroup`. -/
inductive Group where
  | AnimationAddition | TransferFunction | Aria | AnimationAttributeTarget | Core | AnimationTiming
  | AnimationValue | FilterPrimitive | AnimationTargetElement | DocumentEvent | GraphicalEvent | AnimationEvent
  | GlobalEvent | DocumentElementEvent | ConditionalProcessing | XLink | Presentation
  deriving DecidableEq

/-- element/category.rs:12-50, `ElementCategory`. -/
inductive Category where
  | Container | Renderable | Animation | Descriptive | Shape | Structural | Gradient | TextContent
  | TextContentChild | Uncategorised | BasicShape | Graphics | PaintServer | NeverRendered | FilterPrimitive
  | LightSource | TransferFunction | StructurallyExternal | GraphicsReferencing
  deriving DecidableEq

/-- attribute.rs:367-373 and the rows, `attribute_group`. -/
def Key.groups : Key → List Group
  | .Accumulate | .Additive =>
    [.AnimationAddition]
  | .Amplitude | .Exponent | .Intercept | .OffsetFe | .SlopeFe | .TableValues | .TypeFeFunc =>
    [.TransferFunction]
  | .AriaActiveDescendant | .AriaAtomic | .AriaAutocomplete | .AriaBusy | .AriaChecked | .AriaColCount
  | .AriaColIndex | .AriaColSpan | .AriaControls | .AriaCurrent | .AriaDescribedBy | .AriaDetails | .AriaDisabled
  | .AriaDropEffect | .AriaErrorMessage | .AriaExpanded | .AriaFlowTo | .AriaGrabbed | .AriaHasPopup | .AriaHidden
  | .AriaInvalid | .AriaKeyshortcuts | .AriaLabel | .AriaLabelledBy | .AriaLevel | .AriaLive | .AriaModal
  | .AriaMultiline | .AriaMultiselectable | .AriaOrientation | .AriaOwns | .AriaPlaceholder | .AriaPosInSet
  | .AriaPressed | .AriaReadonly | .AriaRelevant | .AriaRequired | .AriaRoleDescription | .AriaRowCount
  | .AriaRowIndex | .AriaRowSpan | .AriaSelected | .AriaSetSize | .AriaSort | .AriaValueMax | .AriaValueMin
  | .AriaValueNow | .AriaValueText | .Role =>
    [.Aria]
  | .AttributeName | .AttributeType =>
    [.AnimationAttributeTarget]
  | .AutoFocus | .Class | .Id | .Lang | .Style | .Tabindex | .XMLNS | .XmlBase | .XmlLang | .XmlSpace =>
    [.Core]
  | .Begin | .Dur | .End | .FillAnimate | .Max | .Min | .RepeatCount | .RepeatDur | .Restart =>
    [.AnimationTiming]
  | .By | .CalcMode | .From | .KeySplines | .KeyTimes | .To | .ValuesAnimate =>
    [.AnimationValue]
  | .HeightFe | .Result | .WidthFe | .XFe | .YFe =>
    [.FilterPrimitive]
  | .Href =>
    [.AnimationTargetElement]
  | .OnAbort | .OnUnload | .OnZoom =>
    [.DocumentEvent]
  | .OnActivate | .OnFocusIn | .OnFocusOut =>
    [.GraphicalEvent]
  | .OnBegin | .OnEnd | .OnRepeat =>
    [.AnimationEvent]
  | .OnCancel | .OnCanplay | .OnCanplaythrough | .OnChange | .OnClose | .OnCuechange | .OnDblclick | .OnDrag
  | .OnDragend | .OnDragenter | .OnDragexit | .OnDragleave | .OnDragover | .OnDragstart | .OnDrop
  | .OnDurationchange | .OnEmptied | .OnEnded | .OnFocus | .OnInput | .OnInvalid | .OnKeydown | .OnKeypress
  | .OnKeyup | .OnLoadeddata | .OnLoadedmetadata | .OnLoadstart | .OnMouseenter | .OnMouseleave | .OnPause
  | .OnPlay | .OnPlaying | .OnProgress | .OnRatechange | .OnReset | .OnSeeked | .OnSeeking | .OnSelect | .OnShow
  | .OnStalled | .OnSubmit | .OnSuspend | .OnTimeupdate | .OnToggle | .OnVolumechange | .OnWaiting | .OnWheel =>
    [.GlobalEvent]
  | .OnClick | .OnMousedown | .OnMousemove | .OnMouseout | .OnMouseover | .OnMouseup =>
    [.GlobalEvent, .GraphicalEvent]
  | .OnCopy | .OnCut | .OnPaste =>
    [.DocumentElementEvent, .GlobalEvent]
  | .OnError | .OnResize | .OnScroll =>
    [.GlobalEvent, .DocumentEvent]
  | .OnLoad =>
    [.GlobalEvent, .GraphicalEvent, .AnimationEvent]
  | .RequiredExtensions | .RequiredFeatures | .SystemLanguage =>
    [.ConditionalProcessing]
  | .XLinkActuate | .XLinkArcrole | .XLinkHref | .XLinkRole | .XLinkTitle | .XLinkType | .XLinkShow =>
    [.XLink]
  | .AlignmentBaseline | .BaselineShift | .Clip | .ClipPath | .ClipRule | .Color | .ColorInterpolation
  | .ColorInterpolationFilters | .ColorProfile | .ColorRendering | .Cursor | .Direction | .Display
  | .DominantBaseline | .EnableBackground | .Fill | .FillOpacity | .FillRule | .Filter | .FloodColor
  | .FloodOpacity | .Font | .FontFamily | .FontSize | .FontSizeAdjust | .FontStretch | .FontStyle | .FontVariant
  | .FontWeight | .GlyphOrientationHorizontal | .GlyphOrientationVertical | .ImageRendering | .Kerning
  | .LetterSpacing | .LightingColor | .MarkerEnd | .MarkerMid | .MarkerStart | .Marker | .Mask | .Opacity
  | .Overflow | .PaintOrder | .PointerEvents | .ShapeRendering | .StopColor | .StopOpacity | .Stroke
  | .StrokeDasharray | .StrokeDashoffset | .StrokeLinecap | .StrokeLinejoin | .StrokeMiterlimit | .StrokeOpacity
  | .StrokeWidth | .TextAnchor | .TextDecoration | .TextRendering | .Transform | .TransformOrigin | .UnicodeBidi
  | .VectorEffect | .Visibility | .WordSpacing | .WritingMode =>
    [.Presentation]
  | _ => []

/-- attribute.rs:376-381 and the rows, `info` contains `Inheritable`. -/
def Key.inheritable : Key → Bool
  | .ClipRule | .Color | .ColorInterpolation | .ColorInterpolationFilters | .ColorProfile | .ColorRendering
  | .Cursor | .Direction | .DominantBaseline | .Fill | .FillOpacity | .FillRule | .Font | .FontFamily | .FontSize
  | .FontSizeAdjust | .FontStretch | .FontStyle | .FontVariant | .FontWeight | .GlyphOrientationHorizontal
  | .GlyphOrientationVertical | .ImageRendering | .LetterSpacing | .MarkerEnd | .MarkerMid | .MarkerStart | .Marker
  | .PaintOrder | .PointerEvents | .ShapeRendering | .Stroke | .StrokeDasharray | .StrokeDashoffset
  | .StrokeLinecap | .StrokeLinejoin | .StrokeMiterlimit | .StrokeOpacity | .StrokeWidth | .TextAnchor
  | .TextRendering | .Visibility | .WordSpacing | .WritingMode =>
    true
  | _ => false

/-- attribute.rs:376-381 and the rows, `info` contains `PresentationNonInheritableGroupAttrs`. -/
def Key.alone : Key → Bool
  | .ClipPath | .Display | .Filter | .Mask | .Opacity | .TextDecoration | .Transform | .UnicodeBidi =>
    true
  | _ => false

/-- attribute.rs:392-401 and the rows, `type` is `Inheritable(_)`. -/
def Key.typed : Key → Bool
  | .AlignmentBaseline | .BaselineShift | .Clip | .ClipPath | .ClipRule | .Color | .ColorInterpolation
  | .ColorInterpolationFilters | .ColorProfile | .ColorRendering | .Cursor | .Direction | .Display
  | .DominantBaseline | .EnableBackground | .Fill | .FillOpacity | .FillRule | .Filter | .FloodColor
  | .FloodOpacity | .Font | .FontFamily | .FontSize | .FontSizeAdjust | .FontStretch | .FontStyle | .FontVariant
  | .FontWeight | .GlyphOrientationHorizontal | .GlyphOrientationVertical | .ImageRendering | .Kerning
  | .LetterSpacing | .LightingColor | .MarkerEnd | .MarkerMid | .MarkerStart | .Marker | .Mask | .Opacity
  | .Overflow | .PaintOrder | .PointerEvents | .ShapeRendering | .StopColor | .StopOpacity | .Stroke
  | .StrokeDasharray | .StrokeDashoffset | .StrokeLinecap | .StrokeLinejoin | .StrokeMiterlimit | .StrokeOpacity
  | .StrokeWidth | .TextAnchor | .TextDecoration | .TextRendering | .Transform | .UnicodeBidi | .Visibility
  | .WordSpacing | .WritingMode =>
    true
  | _ => false

/-- The rows with `prefix: XML` or `prefix: XLink`. -/
def Key.prefixed : Key → Bool
  | .XLinkActuate | .XLinkArcrole | .XLinkHref | .XLinkRole | .XLinkTitle | .XLinkType | .XLinkShow | .XmlBase
  | .XmlLang | .XmlSpace =>
    true
  | _ => false

/-- The rows whose name starts with `aria-`. -/
def Key.aria : Key → Bool
  | .AriaActiveDescendant | .AriaAtomic | .AriaAutocomplete | .AriaBusy | .AriaChecked | .AriaColCount
  | .AriaColIndex | .AriaColSpan | .AriaControls | .AriaCurrent | .AriaDescribedBy | .AriaDetails | .AriaDisabled
  | .AriaDropEffect | .AriaErrorMessage | .AriaExpanded | .AriaFlowTo | .AriaGrabbed | .AriaHasPopup | .AriaHidden
  | .AriaInvalid | .AriaKeyshortcuts | .AriaLabel | .AriaLabelledBy | .AriaLevel | .AriaLive | .AriaModal
  | .AriaMultiline | .AriaMultiselectable | .AriaOrientation | .AriaOwns | .AriaPlaceholder | .AriaPosInSet
  | .AriaPressed | .AriaReadonly | .AriaRelevant | .AriaRequired | .AriaRoleDescription | .AriaRowCount
  | .AriaRowIndex | .AriaRowSpan | .AriaSelected | .AriaSetSize | .AriaSort | .AriaValueMax | .AriaValueMin
  | .AriaValueNow | .AriaValueText =>
    true
  | _ => false

/-- attribute.rs:384-389 and the rows, `default`. -/
def Key.standard : Key → Option Val
  | .Accumulate | .AriaAutocomplete | .AriaDropEffect | .AriaSort | .BaseProfile | .EdgeModeFeGaussianBlur
  | .ClipPath | .FontSizeAdjust | .MarkerEnd | .MarkerMid | .MarkerStart | .VectorEffect =>
    some (.parts [.word "none"])
  | .Additive =>
    some (.parts [.word "replace"])
  | .Amplitude | .DiffuseConstant | .Divisor | .Exponent | .NumOctaves | .SlopeFe | .SpecularConstant
  | .SpecularExponent | .SurfaceScale | .FillOpacity | .FloodOpacity | .Opacity | .StopOpacity | .StrokeOpacity =>
    some (.parts [.num 1])
  | .ArabicForm =>
    some (.parts [.word "initial"])
  | .AriaBusy | .AriaCurrent | .AriaDisabled | .AriaHasPopup | .AriaInvalid | .AriaModal | .AriaMultiline
  | .AriaMultiselectable | .AriaReadonly | .AriaRequired | .ExternalResourcesRequired | .PreserveAlpha =>
    some (.parts [.word "false"])
  | .AriaExpanded | .AriaGrabbed | .AriaHidden | .AriaOrientation | .AriaSelected =>
    some (.parts [.word "undefined"])
  | .AriaLive =>
    some (.parts [.word "off"])
  | .AttributeType | .RenderingIntent | .Clip | .ColorProfile | .ColorRendering | .Cursor | .DominantBaseline
  | .ImageRendering | .Kerning | .ShapeRendering | .TextRendering =>
    some (.parts [.word "auto"])
  | .Azimuth | .BaseFrequency | .Bias | .DXFeOffset | .DXGlyphRef | .DYFeOffset | .Elevation | .HorizOriginX
  | .HorizOriginY | .Intercept | .K1 | .K2 | .K3 | .K4 | .OffsetFe | .Orient | .PointsAtX | .PointsAtY | .PointsAtZ
  | .Radius | .RefX | .RefY | .RotateAnimate | .RotateHatch | .Scale | .Seed | .SlopeFont
  | .StdDeviationFeGaussianBlur | .XFePointLight | .XFeSpotLight | .YFePointLight | .YFeSpotLight | .ZFe
  | .GlyphOrientationHorizontal =>
    some (.parts [.num 0])
  | .ClipPathUnits | .HatchContentUnits | .MaskContentUnits | .PatternContentUnits | .PrimitiveUnits =>
    some (.parts [.word "userSpaceOnUse"])
  | .ContentScriptType | .TypeScript =>
    some (.parts [.word "application/ecmascript"])
  | .ContentStyleType | .TypeStyle =>
    some (.parts [.word "text/css"])
  | .CXGeometry | .CYGeometry | .Pitch | .RGeometry | .StartOffset | .XCursor | .XGeometry | .XPattern | .XText
  | .X1Line | .X2Line | .YCursor | .YGeometry | .YPattern | .YText | .StrokeDashoffset =>
    some (.parts [.px 0])
  | .CXRadialGradient | .CYRadialGradient =>
    some (.parts [.px 50])
  | .D | .TableValues =>
    some (.parts [])
  | .DXFeDropShadow | .DYFeDropShadow | .StdDeviationFeDropShadow =>
    some (.parts [.num 2])
  | .EdgeModeFeConvolveMatrix =>
    some (.parts [.word "duplicate"])
  | .FillAnimate =>
    some (.parts [.word "remove"])
  | .FR | .HeightPattern | .WidthPattern | .XFe | .XHatch | .X1LinearGradient | .YFe | .YHatch | .Y1Line | .Y2Line
  | .Y2LinearGradient =>
    some (.parts [.pct 0])
  | .GradientUnits | .HatchUnits | .MaskUnits | .PatternUnits =>
    some (.parts [.word "objectBoundingBox"])
  | .HeightFilter | .HeightMask | .WidthFilter | .WidthMask =>
    some (.parts [.pct 120])
  | .HeightSvg | .WidthSvg | .X2LinearGradient =>
    some (.parts [.pct 100])
  | .LengthAdjust =>
    some (.parts [.word "spacing"])
  | .MarkerHeight | .MarkerWidth | .Order =>
    some (.parts [.num 3])
  | .MarkerUnits =>
    some (.parts [.word "strokeWidth"])
  | .Media | .Playbackorder =>
    some (.parts [.word "all"])
  | .Method =>
    some (.parts [.word "align"])
  | .Mode | .FontStretch | .FontStyle | .FontVariant | .FontWeight | .LetterSpacing | .PaintOrder | .UnicodeBidi
  | .WordSpacing =>
    some (.parts [.word "normal"])
  | .NameColorProfile | .ColorInterpolation =>
    some (.parts [.word "sRGB"])
  | .OperatorFeComposite =>
    some (.parts [.word "over"])
  | .OperatorFeMorphology =>
    some (.parts [.word "erode"])
  | .Origin =>
    some (.parts [.word "default"])
  | .Panose1 =>
    some (.parts [.num 0, .num 0, .num 0, .num 0, .num 0, .num 0, .num 0, .num 0, .num 0, .num 0])
  | .PreserveAspectRatio =>
    some (.parts [.word "xMidYMid", .word "meet"])
  | .Restart =>
    some (.parts [.word "always"])
  | .RRadialGradient =>
    some (.parts [.pct 50])
  | .Side =>
    some (.parts [.word "left"])
  | .Spacing =>
    some (.parts [.word "exact"])
  | .SpreadMethod =>
    some (.parts [.word "pad"])
  | .StitchTiles =>
    some (.parts [.word "noStitch"])
  | .Target =>
    some (.parts [.word "self"])
  | .Timelinebegin =>
    some (.parts [.word "loadend"])
  | .TypeAnimateTransform =>
    some (.parts [.word "translate"])
  | .TypeFeColorMatrix =>
    some (.parts [.word "matrix"])
  | .TypeFeFunc =>
    some (.parts [.word "identity"])
  | .TypeFeTurbulence =>
    some (.parts [.word "turbulence"])
  | .UnicodeRange =>
    some (.parts [.word "U+0-10FFFF"])
  | .UnitsPerEm =>
    some (.parts [.num 1000])
  | .Version =>
    some (.parts [.word "1.1"])
  | .XFilter | .XMask | .YFilter | .YMask | .Y1LinearGradient =>
    some (.parts [.pct (-10)])
  | .XChannelSelector | .YChannelSelector =>
    some (.parts [.word "A"])
  | .ZoomAndPan =>
    some (.parts [.word "magnify"])
  | .ClipRule | .FillRule =>
    some (.parts [.word "nonzero"])
  | .ColorInterpolationFilters =>
    some (.parts [.word "linearRGB"])
  | .FontSize =>
    some (.parts [.word "medium"])
  | .PointerEvents =>
    some (.parts [.word "visiblePainted"])
  | .StrokeLinecap =>
    some (.parts [.word "butt"])
  | .StrokeLinejoin =>
    some (.parts [.word "miter"])
  | .StrokeMiterlimit =>
    some (.parts [.num 4])
  | .StrokeWidth =>
    some (.parts [.px 1])
  | .TextAnchor =>
    some (.parts [.word "start"])
  | .TransformOrigin =>
    some (.parts [.pct 50, .pct 50])
  | .Visibility =>
    some (.parts [.word "visible"])
  | _ => none

/-- element.rs:377-2153, `categories`. -/
def El.categories : El → List Category
  | .A | .Switch =>
    [.Container, .Renderable]
  | .AltGlyph | .TRef =>
    [.TextContent, .TextContentChild]
  | .AltGlyphDef | .AltGlyphItem | .ClipPath | .ColorProfile | .Cursor | .FeMergeNode | .Filter | .Font | .FontFace
  | .FontFaceFormat | .FontFaceName | .FontFaceSrc | .FontFaceURI | .GlyphRef | .HatchPath | .HKern | .View
  | .VKern =>
    [.Uncategorised]
  | .Animate | .AnimateColor | .AnimateMotion | .AnimateTransform | .MPath | .Set =>
    [.Animation]
  | .Circle =>
    [.Shape, .BasicShape, .Graphics, .Renderable]
  | .Defs =>
    [.Container, .NeverRendered, .Structural]
  | .Desc | .Metadata | .Title =>
    [.Descriptive, .NeverRendered]
  | .Ellipse | .Polyline =>
    [.BasicShape, .Renderable, .Graphics, .Shape]
  | .FeBlend | .FeColorMatrix | .FeComponentTransfer | .FeComposite | .FeConvolveMatrix | .FeDiffuseLighting
  | .FeDisplacementMap | .FeDropShadow | .FeFlood | .FeGaussianBlur | .FeImage | .FeMerge | .FeMorphology
  | .FeOffset | .FeSpecularLighting | .FeTile | .FeTurbulence =>
    [.FilterPrimitive]
  | .FeDistantLight | .FePointLight | .FeSpotLight =>
    [.LightSource]
  | .FeFuncA | .FeFuncB | .FeFuncG | .FeFuncR =>
    [.TransferFunction]
  | .ForeignObject =>
    [.Graphics, .Renderable, .StructurallyExternal]
  | .G | .Svg =>
    [.Container, .Renderable, .Structural]
  | .Glyph | .MissingGlyph =>
    [.Container]
  | .Hatch =>
    [.Animation, .PaintServer]
  | .Image =>
    [.Graphics, .GraphicsReferencing, .Renderable, .StructurallyExternal]
  | .Line | .Rect =>
    [.BasicShape, .Graphics, .Renderable, .Shape]
  | .LinearGradient | .RadialGradient =>
    [.Gradient, .NeverRendered, .PaintServer]
  | .Marker | .Mask =>
    [.Container, .NeverRendered]
  | .Path =>
    [.Graphics, .Shape, .Renderable]
  | .Pattern =>
    [.Container, .NeverRendered, .PaintServer]
  | .Polygon =>
    [.Graphics, .Renderable, .Shape, .BasicShape]
  | .Script =>
    [.NeverRendered, .StructurallyExternal]
  | .Stop =>
    []
  | .Style =>
    [.NeverRendered]
  | .Symbol =>
    [.Container, .Structural]
  | .Text =>
    [.Graphics, .Renderable, .TextContent]
  | .TextPath | .TSpan =>
    [.Graphics, .Renderable, .TextContent, .TextContentChild]
  | .Use =>
    [.Graphics, .GraphicsReferencing, .Renderable, .Structural, .StructurallyExternal]

/-- element.rs:377-2153, `permitted_categories`; `none` is `ElementCategory::all()`. -/
def El.permittedCategories : El → Option (List Category)
  | .A | .Glyph | .Mask | .MissingGlyph =>
    some [.Animation, .Descriptive, .Shape, .Structural, .Gradient]
  | .AltGlyph | .Desc | .ForeignObject | .Metadata | .Title =>
    none
  | .AltGlyphDef | .AltGlyphItem | .FontFaceFormat | .FontFaceName | .FontFaceSrc | .FontFaceURI | .GlyphRef
  | .HKern | .Script | .Stop | .Style | .VKern =>
    some []
  | .Animate | .AnimateColor | .AnimateMotion | .AnimateTransform | .ColorProfile | .Cursor | .FeBlend
  | .FeColorMatrix | .FeComponentTransfer | .FeComposite | .FeConvolveMatrix | .FeDisplacementMap | .FeDistantLight
  | .FeDropShadow | .FeFlood | .FeFuncA | .FeFuncB | .FeFuncG | .FeFuncR | .FeGaussianBlur | .FeImage | .FeMerge
  | .FeMergeNode | .FeMorphology | .FeOffset | .FePointLight | .FeSpotLight | .FeTile | .FeTurbulence | .Font
  | .FontFace | .LinearGradient | .MPath | .RadialGradient | .Set | .TRef =>
    some [.Descriptive]
  | .Circle | .Ellipse | .Line | .Path | .Polygon | .Polyline | .Rect =>
    some [.Animation, .Descriptive, .PaintServer]
  | .ClipPath =>
    some [.Animation, .Descriptive, .Shape]
  | .Defs | .G | .Marker | .Pattern | .Svg | .Symbol =>
    some [.Animation, .Descriptive, .PaintServer, .Shape, .Structural, .Gradient]
  | .FeDiffuseLighting =>
    some [.Descriptive, .LightSource]
  | .FeSpecularLighting =>
    some [.LightSource, .Descriptive]
  | .Filter =>
    some [.Descriptive, .FilterPrimitive]
  | .Hatch | .HatchPath | .Image | .Use | .View =>
    some [.Animation, .Descriptive]
  | .Switch =>
    some [.Animation, .Shape]
  | .Text =>
    some [.Animation, .Descriptive, .PaintServer, .TextContentChild]
  | .TextPath | .TSpan =>
    some [.Descriptive, .PaintServer]

/-- element.rs:377-2153, `permitted_elements`. -/
def El.permittedElements : El → List El
  | .A | .G | .Glyph | .Marker | .MissingGlyph | .Pattern | .Svg | .Symbol =>
    [.A, .AltGlyphDef, .ClipPath, .ColorProfile, .Cursor, .Filter, .Font, .FontFace, .ForeignObject, .Image, .Marker,
    .Mask, .Pattern, .Script, .Style, .Switch, .Text, .View]
  | .AltGlyphDef =>
    [.GlyphRef, .AltGlyphItem]
  | .AltGlyphItem =>
    [.GlyphRef]
  | .Animate | .AnimateTransform | .FeDiffuseLighting | .FeSpecularLighting | .MPath | .Set =>
    [.Script]
  | .AnimateMotion =>
    [.MPath, .Script]
  | .Circle | .Ellipse | .Line | .Path | .Polygon | .Polyline | .Rect =>
    [.ClipPath, .Marker, .Mask, .Script, .Style]
  | .ClipPath =>
    [.Text, .Use, .Script]
  | .Defs =>
    [.A, .AltGlyphDef, .ClipPath, .ColorProfile, .Cursor, .Filter, .Font, .FontFace, .ForeignObject, .Image, .Marker,
    .Mask, .Script, .Style, .Switch, .Text, .View]
  | .FeBlend | .FeColorMatrix | .FeComposite | .FeConvolveMatrix | .FeDisplacementMap | .FeDistantLight
  | .FeDropShadow | .FeFuncA | .FeFuncB | .FeFuncG | .FeFuncR | .FeGaussianBlur | .FeMergeNode | .FeMorphology
  | .FeOffset | .FePointLight | .FeSpotLight | .FeTile | .FeTurbulence | .Filter =>
    [.Animate, .Script, .Set]
  | .FeComponentTransfer =>
    [.FeFuncB, .FeFuncR, .FeFuncG, .FeFuncA, .Script]
  | .FeFlood =>
    [.Animate, .AnimateColor, .Script, .Set]
  | .FeImage =>
    [.Animate, .AnimateTransform, .Script, .Set]
  | .FeMerge =>
    [.FeMergeNode, .Script]
  | .Font =>
    [.FontFace, .Glyph, .HKern, .MissingGlyph, .VKern]
  | .FontFace =>
    [.FontFaceSrc]
  | .FontFaceSrc =>
    [.FontFaceName, .FontFaceURI]
  | .FontFaceURI =>
    [.FontFaceFormat]
  | .Hatch =>
    [.Script, .Style, .HatchPath]
  | .HatchPath | .View =>
    [.Script, .Style]
  | .Image | .Use =>
    [.ClipPath, .Mask, .Script, .Style]
  | .LinearGradient | .RadialGradient =>
    [.Animate, .AnimateTransform, .Script, .Set, .Stop, .Style]
  | .Mask =>
    [.A, .AltGlyphDef, .ClipPath, .ColorProfile, .Cursor, .Filter, .Font, .FontFace, .ForeignObject, .Image, .Marker,
    .Mask, .Pattern, .Script, .Style, .Switch, .View, .Text]
  | .Stop =>
    [.Animate, .AnimateColor, .Script, .Set, .Style]
  | .Switch =>
    [.A, .ForeignObject, .G, .Image, .Svg, .Switch, .Text, .Use]
  | .Text =>
    [.A, .ClipPath, .Marker, .Mask, .Script, .Style]
  | .TextPath =>
    [.A, .AltGlyph, .Animate, .AnimateColor, .ClipPath, .Marker, .Mask, .Script, .Set, .TRef, .Style, .TSpan]
  | .TRef =>
    [.Animate, .AnimateColor, .Set]
  | .TSpan =>
    [.A, .AltGlyph, .Animate, .AnimateColor, .Script, .Set, .Style, .TRef, .TSpan]
  | _ => []

/-- element.rs:377-2153, `expected_attribute_groups`, without `Presentation` and `Core`, which are added for all (257-266). -/
def El.groups : El → List Group
  | .A =>
    [.Aria, .ConditionalProcessing, .DocumentElementEvent, .GlobalEvent, .GraphicalEvent, .XLink]
  | .AltGlyph | .TRef =>
    [.ConditionalProcessing, .GraphicalEvent, .XLink]
  | .Animate | .AnimateTransform =>
    [.AnimationAddition, .AnimationEvent, .AnimationTargetElement, .AnimationAttributeTarget, .AnimationTiming,
    .AnimationValue, .ConditionalProcessing, .GlobalEvent, .DocumentElementEvent, .XLink]
  | .AnimateColor =>
    [.ConditionalProcessing, .AnimationEvent, .XLink, .AnimationAttributeTarget, .AnimationTiming, .AnimationValue,
    .AnimationAddition]
  | .AnimateMotion =>
    [.AnimationAddition, .AnimationEvent, .AnimationTargetElement, .AnimationTiming, .AnimationValue,
    .ConditionalProcessing, .GlobalEvent, .DocumentElementEvent, .XLink]
  | .Circle | .Ellipse | .ForeignObject | .Line | .Path | .Polygon | .Polyline | .Rect | .Switch | .Text =>
    [.Aria, .ConditionalProcessing, .GlobalEvent, .DocumentElementEvent, .GraphicalEvent]
  | .ClipPath | .Mask =>
    [.ConditionalProcessing]
  | .ColorProfile | .Filter | .FontFaceURI | .GlyphRef =>
    [.XLink]
  | .Cursor =>
    [.ConditionalProcessing, .XLink]
  | .Defs =>
    [.GlobalEvent, .DocumentElementEvent, .GraphicalEvent, .ConditionalProcessing]
  | .Desc | .Marker | .Metadata | .Stop | .Style | .Title =>
    [.GlobalEvent, .DocumentElementEvent]
  | .FeBlend | .FeColorMatrix | .FeComponentTransfer | .FeComposite | .FeConvolveMatrix | .FeDiffuseLighting
  | .FeDisplacementMap | .FeDropShadow | .FeFlood | .FeGaussianBlur | .FeMerge | .FeMergeNode | .FeMorphology
  | .FeOffset | .FeSpecularLighting | .FeTile | .FeTurbulence =>
    [.FilterPrimitive]
  | .FeFuncA | .FeFuncB | .FeFuncG | .FeFuncR =>
    [.TransferFunction]
  | .FeImage =>
    [.FilterPrimitive, .XLink]
  | .G =>
    [.Aria, .ConditionalProcessing, .GraphicalEvent, .GlobalEvent, .DocumentElementEvent]
  | .Hatch | .HatchPath =>
    [.GlobalEvent]
  | .Image | .TextPath | .Use =>
    [.Aria, .ConditionalProcessing, .GlobalEvent, .DocumentElementEvent, .GraphicalEvent, .XLink]
  | .LinearGradient | .MPath | .Pattern | .RadialGradient | .Script =>
    [.GlobalEvent, .DocumentElementEvent, .XLink]
  | .Set =>
    [.AnimationEvent, .AnimationTargetElement, .AnimationAttributeTarget, .AnimationTiming, .ConditionalProcessing,
    .GlobalEvent, .DocumentElementEvent, .XLink]
  | .Svg =>
    [.Aria, .ConditionalProcessing, .DocumentEvent, .GlobalEvent, .DocumentElementEvent, .GraphicalEvent]
  | .Symbol =>
    [.Aria, .GlobalEvent, .DocumentElementEvent, .GraphicalEvent]
  | .TSpan =>
    [.Aria, .ConditionalProcessing, .GlobalEvent, .DocumentElementEvent]
  | .View =>
    [.Aria, .GlobalEvent, .DocumentElementEvent]
  | _ => []

/-- element.rs:377-2153, `expected_attributes`. -/
def El.expected : El → List Key
  | .A =>
    [.Class, .ExternalResourcesRequired, .Download, .Href, .Hreflang, .Ping, .ReferrerPolicy, .Rel, .Target, .TypeA]
  | .AltGlyph =>
    [.ExternalResourcesRequired, .XAltGlyph, .YAltGlyph, .DXAltGlyph, .DYAltGlyph, .GlyphRef, .Format, .RotateText]
  | .Animate | .AnimateColor | .Defs | .G | .Switch =>
    [.ExternalResourcesRequired]
  | .AnimateMotion =>
    [.ExternalResourcesRequired, .Path, .KeyPoints, .RotateAnimate, .Origin]
  | .AnimateTransform =>
    [.TypeAnimateTransform]
  | .Circle =>
    [.ExternalResourcesRequired, .PathLength, .CXGeometry, .CYGeometry, .RGeometry]
  | .ClipPath =>
    [.ExternalResourcesRequired, .ClipPathUnits]
  | .ColorProfile =>
    [.Local, .NameColorProfile, .RenderingIntent]
  | .Cursor =>
    [.ExternalResourcesRequired, .XCursor, .YCursor]
  | .Ellipse =>
    [.ExternalResourcesRequired, .PathLength, .CXGeometry, .CYGeometry, .RX, .RY]
  | .FeBlend =>
    [.In, .In2, .Mode]
  | .FeColorMatrix =>
    [.In, .TypeFeColorMatrix, .ValuesFeColorMatrix]
  | .FeComponentTransfer | .FeMergeNode | .FeTile =>
    [.In]
  | .FeComposite =>
    [.In, .In2, .OperatorFeComposite, .K1, .K2, .K3, .K4]
  | .FeConvolveMatrix =>
    [.In, .Order, .KernelMatrix, .Divisor, .Bias, .TargetX, .TargetY, .EdgeModeFeConvolveMatrix, .KernelUnitLength,
    .PreserveAlpha]
  | .FeDiffuseLighting =>
    [.In, .SurfaceScale, .DiffuseConstant, .KernelUnitLength]
  | .FeDisplacementMap =>
    [.In, .In2, .Scale, .XChannelSelector, .YChannelSelector]
  | .FeDistantLight =>
    [.Azimuth, .Elevation]
  | .FeDropShadow =>
    [.In, .StdDeviationFeDropShadow, .DXFeDropShadow, .DYFeDropShadow]
  | .FeGaussianBlur =>
    [.In, .StdDeviationFeGaussianBlur, .EdgeModeFeGaussianBlur]
  | .FeImage =>
    [.ExternalResourcesRequired, .PreserveAspectRatio, .Href, .CrossOrigin]
  | .FeMorphology =>
    [.In, .OperatorFeMorphology, .Radius]
  | .FeOffset =>
    [.In, .DXFeOffset, .DYFeOffset]
  | .FePointLight =>
    [.XFe, .YFe, .ZFe]
  | .FeSpecularLighting =>
    [.In, .SurfaceScale, .SpecularConstant, .SpecularExponent, .KernelUnitLength]
  | .FeSpotLight =>
    [.XFe, .YFe, .ZFe, .PointsAtX, .PointsAtY, .PointsAtZ, .SpecularExponent, .LimitingConeAngle]
  | .FeTurbulence =>
    [.BaseFrequency, .NumOctaves, .Seed, .StitchTiles, .TypeFeTurbulence]
  | .Filter =>
    [.ExternalResourcesRequired, .XFilter, .YFilter, .WidthFilter, .HeightFilter, .FilterRes, .FilterUnits,
    .PrimitiveUnits]
  | .Font =>
    [.ExternalResourcesRequired, .HorizOriginX, .HorizOriginY, .HorizAdvX, .VertOriginX, .VertOriginY, .VertAdvY]
  | .FontFace =>
    [.FontFamily, .FontStyle, .FontVariant, .FontWeight, .FontStretch, .FontSize, .UnicodeRange, .UnitsPerEm,
    .Panose1, .Stemv, .Stemh, .SlopeFont, .CapHeight, .XHeight, .AccentHeight, .Ascent, .Descent, .Widths, .Bbox,
    .Ideographic, .Alphabetic, .Mathematical, .Hanging, .VIdeographic, .VAlphabetic, .VMathematical, .VHanging,
    .UnderlinePosition, .UnderlineThickness, .StrikethroughPosition, .StrikethroughThickness, .OverlinePosition,
    .OverlineThickness]
  | .FontFaceFormat =>
    [.String]
  | .FontFaceName =>
    [.NameFontFace]
  | .ForeignObject =>
    [.ExternalResourcesRequired, .XGeometry, .YGeometry, .WidthForeignObject, .HeightForeignObject]
  | .Glyph =>
    [.D, .HorizAdvX, .VertOriginX, .VertOriginY, .VertAdvY, .Unicode, .GlyphName, .Orientation, .ArabicForm]
  | .GlyphRef =>
    [.XGlyphRef, .YGlyphRef, .DXGlyphRef, .DYGlyphRef, .GlyphRef, .Format]
  | .Hatch =>
    [.XHatch, .YHatch, .Pitch, .RotateHatch, .HatchUnits, .HatchContentUnits, .Href]
  | .HatchPath =>
    [.D, .OffsetHatchPath]
  | .HKern | .VKern =>
    [.U1, .G1, .U2, .G2, .K]
  | .Image =>
    [.ExternalResourcesRequired, .PreserveAspectRatio, .Href, .CrossOrigin, .XGeometry, .YGeometry, .WidthImage,
    .HeightImage]
  | .Line =>
    [.ExternalResourcesRequired, .PathLength, .X1Line, .X2Line, .Y1Line, .Y2Line]
  | .LinearGradient =>
    [.ExternalResourcesRequired, .X1LinearGradient, .X2LinearGradient, .Y1LinearGradient, .Y2LinearGradient,
    .GradientUnits, .GradientTransform, .SpreadMethod, .Href]
  | .Marker =>
    [.ExternalResourcesRequired, .ViewBox, .PreserveAspectRatio, .RefX, .RefY, .MarkerUnits, .MarkerWidth,
    .MarkerHeight, .Orient]
  | .Mask =>
    [.ExternalResourcesRequired, .XMask, .YMask, .WidthMask, .HeightMask, .MaskUnits, .MaskContentUnits]
  | .MissingGlyph =>
    [.D, .HorizAdvX, .VertOriginX, .VertOriginY, .VertAdvY]
  | .MPath =>
    [.ExternalResourcesRequired, .Href]
  | .Path =>
    [.ExternalResourcesRequired, .D, .PathLength]
  | .Pattern =>
    [.ExternalResourcesRequired, .ViewBox, .PreserveAspectRatio, .XPattern, .YPattern, .WidthPattern, .HeightPattern,
    .PatternUnits, .PatternContentUnits, .PatternTransform, .Href]
  | .Polygon | .Polyline =>
    [.ExternalResourcesRequired, .PathLength, .Points]
  | .RadialGradient =>
    [.ExternalResourcesRequired, .CXRadialGradient, .CYRadialGradient, .RRadialGradient, .FX, .FY, .FR,
    .GradientUnits, .GradientTransform, .SpreadMethod, .Href]
  | .Rect =>
    [.ExternalResourcesRequired, .PathLength, .XGeometry, .YGeometry, .WidthRect, .HeightRect, .RX, .RY]
  | .Script =>
    [.ExternalResourcesRequired, .TypeScript, .Href, .CrossOrigin]
  | .Set =>
    [.ExternalResourcesRequired, .To]
  | .Stop =>
    [.OffsetStop]
  | .Style =>
    [.TypeStyle, .Media, .Title]
  | .Svg =>
    [.ExternalResourcesRequired, .XGeometry, .YGeometry, .WidthSvg, .HeightSvg, .ViewBox, .PreserveAspectRatio,
    .ZoomAndPan, .Version, .BaseProfile, .ContentScriptType, .ContentStyleType, .Playbackorder, .Timelinebegin]
  | .Symbol =>
    [.ExternalResourcesRequired, .PreserveAspectRatio, .ViewBox, .RefX, .RefY, .XGeometry, .YGeometry, .WidthSymbol,
    .HeightSymbol]
  | .Text =>
    [.ExternalResourcesRequired, .LengthAdjust, .XText, .YText, .DXText, .DYText, .RotateText, .TextLength]
  | .TextPath =>
    [.ExternalResourcesRequired, .LengthAdjust, .TextLength, .Path, .Href, .StartOffset, .Method, .Spacing, .Side]
  | .TRef =>
    [.ExternalResourcesRequired, .XTRef, .YTRef, .DXTSpan, .DYTSpan, .RotateText]
  | .TSpan =>
    [.ExternalResourcesRequired, .XTRef, .YTRef, .DXTSpan, .DYTSpan, .RotateText, .TextLength, .LengthAdjust]
  | .Use =>
    [.ExternalResourcesRequired, .Href, .XGeometry, .YGeometry, .WidthUse, .HeightUse]
  | .View =>
    [.ExternalResourcesRequired, .ViewBox, .PreserveAspectRatio, .ZoomAndPan, .ViewTarget]
  | _ => []

/-- element.rs:377-2153, `name`. -/
def El.name : El → String
  | .A => "a" | .AltGlyph => "altGlyph" | .AltGlyphDef => "altGlyphDef" | .AltGlyphItem => "altGlyphItem"
  | .Animate => "animate" | .AnimateColor => "animateColor" | .AnimateMotion => "animateMotion"
  | .AnimateTransform => "animateTransform" | .Circle => "circle" | .ClipPath => "clipPath"
  | .ColorProfile => "color-profile" | .Cursor => "cursor" | .Defs => "defs" | .Desc => "desc"
  | .Ellipse => "ellipse" | .FeBlend => "feBlend" | .FeColorMatrix => "feColorMatrix"
  | .FeComponentTransfer => "feComponentTransfer" | .FeComposite => "feComposite"
  | .FeConvolveMatrix => "feConvolveMatrix" | .FeDiffuseLighting => "feDiffuseLighting"
  | .FeDisplacementMap => "feDisplacementMap" | .FeDistantLight => "feDistantLight"
  | .FeDropShadow => "feDropShadow" | .FeFlood => "feFlood" | .FeFuncA => "feFuncA" | .FeFuncB => "feFuncB"
  | .FeFuncG => "feFuncG" | .FeFuncR => "feFuncR" | .FeGaussianBlur => "feGaussianBlur" | .FeImage => "feImage"
  | .FeMerge => "feMerge" | .FeMergeNode => "feMergeNode" | .FeMorphology => "feMorphology"
  | .FeOffset => "feOffset" | .FePointLight => "fePointLight" | .FeSpecularLighting => "feSpecularLighting"
  | .FeSpotLight => "feSpotLight" | .FeTile => "feTile" | .FeTurbulence => "feTurbulence" | .Filter => "filter"
  | .Font => "font" | .FontFace => "font-face" | .FontFaceFormat => "font-face-format"
  | .FontFaceName => "font-face-name" | .FontFaceSrc => "font-face-src" | .FontFaceURI => "font-face-uri"
  | .ForeignObject => "foreignObject" | .G => "g" | .Glyph => "glyph" | .GlyphRef => "glyphRef" | .Hatch => "hatch"
  | .HatchPath => "hatchpath" | .HKern => "hkern" | .Image => "image" | .Line => "line"
  | .LinearGradient => "linearGradient" | .Marker => "marker" | .Mask => "mask" | .Metadata => "metadata"
  | .MissingGlyph => "missing-glyph" | .MPath => "mpath" | .Path => "path" | .Pattern => "pattern"
  | .Polygon => "polygon" | .Polyline => "polyline" | .RadialGradient => "radialGradient" | .Rect => "rect"
  | .Script => "script" | .Set => "set" | .Stop => "stop" | .Style => "style" | .Svg => "svg" | .Switch => "switch"
  | .Symbol => "symbol" | .Text => "text" | .TextPath => "textPath" | .Title => "title" | .TRef => "tref"
  | .TSpan => "tspan" | .Use => "use" | .View => "view" | .VKern => "vkern"

/-- element.rs:377-2153, all rows. -/
def El.all : List El :=
  [.A, .AltGlyph, .AltGlyphDef, .AltGlyphItem, .Animate, .AnimateColor, .AnimateMotion, .AnimateTransform, .Circle,
   .ClipPath, .ColorProfile, .Cursor, .Defs, .Desc, .Ellipse, .FeBlend, .FeColorMatrix, .FeComponentTransfer,
   .FeComposite, .FeConvolveMatrix, .FeDiffuseLighting, .FeDisplacementMap, .FeDistantLight, .FeDropShadow,
   .FeFlood, .FeFuncA, .FeFuncB, .FeFuncG, .FeFuncR, .FeGaussianBlur, .FeImage, .FeMerge, .FeMergeNode,
   .FeMorphology, .FeOffset, .FePointLight, .FeSpecularLighting, .FeSpotLight, .FeTile, .FeTurbulence, .Filter,
   .Font, .FontFace, .FontFaceFormat, .FontFaceName, .FontFaceSrc, .FontFaceURI, .ForeignObject, .G, .Glyph,
   .GlyphRef, .Hatch, .HatchPath, .HKern, .Image, .Line, .LinearGradient, .Marker, .Mask, .Metadata, .MissingGlyph,
   .MPath, .Path, .Pattern, .Polygon, .Polyline, .RadialGradient, .Rect, .Script, .Set, .Stop, .Style, .Svg,
   .Switch, .Symbol, .Text, .TextPath, .Title, .TRef, .TSpan, .Use, .View, .VKern]

end Verif.Unknowns
