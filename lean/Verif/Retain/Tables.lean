import Verif.Unknowns.Tables

/-!
# Model: more columns of the table of attributes

`crates/oxvg_collections/src/attribute.rs`. The local names, and which rows are marked as deprecated.
-/

namespace Verif.Unknowns

/-- attribute.rs:563-2606, `AttrId::local_name`. -/
def Key.loc : Key → _root_.String
  | .AccentHeight => "accent-height"
  | .Accumulate => "accumulate"
  | .Additive => "additive"
  | .Alphabetic => "alphabetic"
  | .Amplitude => "amplitude"
  | .ArabicForm => "arabic-form"
  | .AriaActiveDescendant => "aria-activedescendant"
  | .AriaAtomic => "aria-atomic"
  | .AriaAutocomplete => "aria-autocomplete"
  | .AriaBusy => "aria-busy"
  | .AriaChecked => "aria-checked"
  | .AriaColCount => "aria-colcount"
  | .AriaColIndex => "aria-colindex"
  | .AriaColSpan => "aria-colspan"
  | .AriaControls => "aria-controls"
  | .AriaCurrent => "aria-current"
  | .AriaDescribedBy => "aria-describedby"
  | .AriaDetails => "aria-details"
  | .AriaDisabled => "aria-disabled"
  | .AriaDropEffect => "aria-dropeffect"
  | .AriaErrorMessage => "aria-errormessage"
  | .AriaExpanded => "aria-expanded"
  | .AriaFlowTo => "aria-flowto"
  | .AriaGrabbed => "aria-grabbed"
  | .AriaHasPopup => "aria-haspopup"
  | .AriaHidden => "aria-hidden"
  | .AriaInvalid => "aria-invalid"
  | .AriaKeyshortcuts => "aria-keyshortcuts"
  | .AriaLabel => "aria-label"
  | .AriaLabelledBy => "aria-labelledby"
  | .AriaLevel => "aria-level"
  | .AriaLive => "aria-live"
  | .AriaModal => "aria-modal"
  | .AriaMultiline => "aria-multiline"
  | .AriaMultiselectable => "aria-multiselectable"
  | .AriaOrientation => "aria-orientation"
  | .AriaOwns => "aria-owns"
  | .AriaPlaceholder => "aria-placeholder"
  | .AriaPosInSet => "aria-posinset"
  | .AriaPressed => "aria-pressed"
  | .AriaReadonly => "aria-readonly"
  | .AriaRelevant => "aria-relevant"
  | .AriaRequired => "aria-required"
  | .AriaRoleDescription => "aria-roledescription"
  | .AriaRowCount => "aria-rowcount"
  | .AriaRowIndex => "aria-rowindex"
  | .AriaRowSpan => "aria-rowspan"
  | .AriaSelected => "aria-selected"
  | .AriaSetSize => "aria-setsize"
  | .AriaSort => "aria-sort"
  | .AriaValueMax => "aria-valuemax"
  | .AriaValueMin => "aria-valuemin"
  | .AriaValueNow => "aria-valuenow"
  | .AriaValueText => "aria-valuetext"
  | .Ascent => "ascent"
  | .AttributeName => "attributeName"
  | .AttributeType => "attributeType"
  | .AutoFocus => "autofocus"
  | .Azimuth => "azimuth"
  | .BaseFrequency => "baseFrequency"
  | .BaseProfile => "baseProfile"
  | .Bbox => "bbox"
  | .Begin => "begin"
  | .Bias => "bias"
  | .By => "by"
  | .CalcMode => "calcMode"
  | .CapHeight => "cap-height"
  | .Class => "class"
  | .ClipPathUnits => "clipPathUnits"
  | .ContentScriptType => "contentScriptType"
  | .ContentStyleType => "contentStyleType"
  | .CrossOrigin => "crossorigin"
  | .CXGeometry | .CXRadialGradient => "cx"
  | .CYGeometry | .CYRadialGradient => "cy"
  | .D => "d"
  | .Descent => "descent"
  | .DiffuseConstant => "diffuseConstant"
  | .Divisor => "divisor"
  | .Download => "download"
  | .Dur => "dur"
  | .DXAltGlyph | .DXFeDropShadow | .DXFeOffset | .DXGlyphRef | .DXText | .DXTSpan => "dx"
  | .DYAltGlyph | .DYFeDropShadow | .DYFeOffset | .DYGlyphRef | .DYText | .DYTSpan => "dy"
  | .EdgeModeFeConvolveMatrix | .EdgeModeFeGaussianBlur => "edgeMode"
  | .Elevation => "elevation"
  | .End => "end"
  | .Exponent => "exponent"
  | .ExternalResourcesRequired => "externalResourcesRequired"
  | .FillAnimate | .Fill => "fill"
  | .FilterRes => "filterRes"
  | .FilterUnits => "filterUnits"
  | .Format => "format"
  | .FR => "fr"
  | .From => "from"
  | .FX => "fx"
  | .FY => "fy"
  | .G1 => "g1"
  | .G2 => "g2"
  | .GlyphName => "glyph-name"
  | .GlyphRef => "glyphRef"
  | .GradientTransform => "gradientTransform"
  | .GradientUnits => "gradientUnits"
  | .Hanging => "hanging"
  | .HatchContentUnits => "hatchContentUnits"
  | .HatchUnits => "hatchUnits"
  | .HeightFilter | .HeightForeignObject | .HeightImage | .HeightPattern | .HeightRect | .HeightSvg | .HeightSymbol
  | .HeightUse | .HeightFe | .HeightMask => "height"
  | .HorizAdvX => "horiz-adv-x"
  | .HorizOriginX => "horiz-origin-x"
  | .HorizOriginY => "horiz-origin-y"
  | .Href | .XLinkHref => "href"
  | .Hreflang => "hreflang"
  | .Id => "id"
  | .Ideographic => "ideographic"
  | .In => "in"
  | .In2 => "in2"
  | .Intercept => "intercept"
  | .K => "k"
  | .K1 => "k1"
  | .K2 => "k2"
  | .K3 => "k3"
  | .K4 => "k4"
  | .KernelMatrix => "kernelMatrix"
  | .KernelUnitLength => "kernelUnitLength"
  | .KeyPoints => "keyPoints"
  | .KeySplines => "keySplines"
  | .KeyTimes => "keyTimes"
  | .Lang | .XmlLang => "lang"
  | .LengthAdjust => "lengthAdjust"
  | .LimitingConeAngle => "limitingConeAngle"
  | .Local => "local"
  | .MarkerHeight => "markerHeight"
  | .MarkerUnits => "markerUnits"
  | .MarkerWidth => "markerWidth"
  | .MaskContentUnits => "maskContentUnits"
  | .MaskUnits => "maskUnits"
  | .Mathematical => "mathematical"
  | .Max => "max"
  | .Media => "media"
  | .Method => "method"
  | .Min => "min"
  | .Mode => "mode"
  | .NameColorProfile | .NameFontFace => "name"
  | .NumOctaves => "numOctaves"
  | .OffsetStop | .OffsetFe | .OffsetHatchPath => "offset"
  | .OnAbort => "onabort"
  | .OnActivate => "onactivate"
  | .OnBegin => "onbegin"
  | .OnCancel => "oncancel"
  | .OnCanplay => "oncanplay"
  | .OnCanplaythrough => "oncanplaythrough"
  | .OnChange => "onchange"
  | .OnClick => "onclick"
  | .OnClose => "onclose"
  | .OnCopy => "oncopy"
  | .OnCuechange => "oncuechange"
  | .OnCut => "oncut"
  | .OnDblclick => "ondblclick"
  | .OnDrag => "ondrag"
  | .OnDragend => "ondragend"
  | .OnDragenter => "ondragenter"
  | .OnDragexit => "ondragexit"
  | .OnDragleave => "ondragleave"
  | .OnDragover => "ondragover"
  | .OnDragstart => "ondragstart"
  | .OnDrop => "ondrop"
  | .OnDurationchange => "ondurationchange"
  | .OnEmptied => "onemptied"
  | .OnEnd => "onend"
  | .OnEnded => "onended"
  | .OnError => "onerror"
  | .OnFocusIn => "onfocusin"
  | .OnFocusOut => "onfocusout"
  | .OnFocus => "onfocus"
  | .OnInput => "oninput"
  | .OnInvalid => "oninvalid"
  | .OnKeydown => "onkeydown"
  | .OnKeypress => "onkeypress"
  | .OnKeyup => "onkeyup"
  | .OnLoad => "onload"
  | .OnLoadeddata => "onloadeddata"
  | .OnLoadedmetadata => "onloadedmetadata"
  | .OnLoadstart => "onloadstart"
  | .OnMousedown => "onmousedown"
  | .OnMouseenter => "onmouseenter"
  | .OnMouseleave => "onmouseleave"
  | .OnMousemove => "onmousemove"
  | .OnMouseout => "onmouseout"
  | .OnMouseover => "onmouseover"
  | .OnMouseup => "onmouseup"
  | .OnPaste => "onpaste"
  | .OnPause => "onpause"
  | .OnPlay => "onplay"
  | .OnPlaying => "onplaying"
  | .OnProgress => "onprogress"
  | .OnRatechange => "onratechange"
  | .OnRepeat => "onrepeat"
  | .OnReset => "onreset"
  | .OnResize => "onresize"
  | .OnScroll => "onscroll"
  | .OnSeeked => "onseeked"
  | .OnSeeking => "onseeking"
  | .OnSelect => "onselect"
  | .OnShow => "onshow"
  | .OnStalled => "onstalled"
  | .OnSubmit => "onsubmit"
  | .OnSuspend => "onsuspend"
  | .OnTimeupdate => "ontimeupdate"
  | .OnToggle => "ontoggle"
  | .OnUnload => "onunload"
  | .OnVolumechange => "onvolumechange"
  | .OnWaiting => "onwaiting"
  | .OnWheel => "onwheel"
  | .OnZoom => "onzoom"
  | .OperatorFeComposite | .OperatorFeMorphology => "operator"
  | .Order => "order"
  | .Orient => "orient"
  | .Orientation => "orientation"
  | .Origin => "origin"
  | .OverlinePosition => "overline-position"
  | .OverlineThickness => "overline-thickness"
  | .Panose1 => "panose-1"
  | .Path => "path"
  | .PathLength => "pathLength"
  | .PatternContentUnits => "patternContentUnits"
  | .PatternTransform => "patternTransform"
  | .PatternUnits => "patternUnits"
  | .Ping => "ping"
  | .Pitch => "pitch"
  | .Playbackorder => "playbackorder"
  | .Points => "points"
  | .PointsAtX => "pointsAtX"
  | .PointsAtY => "pointsAtY"
  | .PointsAtZ => "pointsAtZ"
  | .PreserveAlpha => "preserveAlpha"
  | .PreserveAspectRatio => "preserveAspectRatio"
  | .PrimitiveUnits => "primitiveUnits"
  | .Radius => "radius"
  | .ReferrerPolicy => "referrerpolicy"
  | .RefX => "refX"
  | .RefY => "refY"
  | .Rel => "rel"
  | .RenderingIntent => "rendering-intent"
  | .RepeatCount => "repeatCount"
  | .RepeatDur => "repeatDur"
  | .RequiredExtensions => "requiredExtensions"
  | .RequiredFeatures => "requiredFeatures"
  | .Restart => "restart"
  | .Result => "result"
  | .Role | .XLinkRole => "role"
  | .RotateText | .RotateAnimate | .RotateHatch => "rotate"
  | .RX => "rx"
  | .RY => "ry"
  | .RGeometry | .RRadialGradient => "r"
  | .Scale => "scale"
  | .Seed => "seed"
  | .Side => "side"
  | .SlopeFont | .SlopeFe => "slope"
  | .SolidColor => "solid-color"
  | .SolidOpacity => "solid-opacity"
  | .Spacing => "spacing"
  | .SpecularConstant => "specularConstant"
  | .SpecularExponent => "specularExponent"
  | .SpreadMethod => "spreadMethod"
  | .StartOffset => "startOffset"
  | .StdDeviationFeDropShadow | .StdDeviationFeGaussianBlur => "stdDeviation"
  | .Stemh => "stemh"
  | .Stemv => "stemv"
  | .StitchTiles => "stitchTiles"
  | .StrikethroughPosition => "strikethrough-position"
  | .StrikethroughThickness => "strikethrough-thickness"
  | .String => "string"
  | .Style => "style"
  | .SurfaceScale => "surfaceScale"
  | .SystemLanguage => "systemLanguage"
  | .Tabindex => "tabindex"
  | .TableValues => "tableValues"
  | .Target => "target"
  | .TargetX => "targetX"
  | .TargetY => "targetY"
  | .TextLength => "textLength"
  | .Timelinebegin => "timelinebegin"
  | .Title | .XLinkTitle => "title"
  | .To => "to"
  | .TypeA | .TypeAnimateTransform | .TypeFeColorMatrix | .TypeFeFunc | .TypeFeTurbulence | .TypeScript
  | .TypeStyle | .XLinkType => "type"
  | .U1 => "u1"
  | .U2 => "u2"
  | .UnderlinePosition => "underline-position"
  | .UnderlineThickness => "underline-thickness"
  | .Unicode => "unicode"
  | .UnicodeRange => "unicode-range"
  | .UnitsPerEm => "units-per-em"
  | .VAlphabetic => "v-alphabetic"
  | .VHanging => "v-hanging"
  | .VIdeographic => "v-ideographic"
  | .VMathematical => "v-mathematical"
  | .ValuesFeColorMatrix | .ValuesAnimate => "values"
  | .Version => "version"
  | .VertAdvY => "vert-adv-y"
  | .VertOriginX => "vert-origin-x"
  | .VertOriginY => "vert-origin-y"
  | .ViewBox => "viewBox"
  | .ViewTarget => "viewTarget"
  | .WidthFilter | .WidthForeignObject | .WidthImage | .WidthPattern | .WidthRect | .WidthSvg | .WidthSymbol
  | .WidthUse | .WidthFe | .WidthMask => "width"
  | .Widths => "widths"
  | .XAltGlyph | .XCursor | .XFe | .XFePointLight | .XFeSpotLight | .XFilter | .XGeometry | .XGlyphRef | .XHatch
  | .XMask | .XPattern | .XText | .XTRef => "x"
  | .XHeight => "x-height"
  | .X1Line | .X1LinearGradient => "x1"
  | .X2Line | .X2LinearGradient => "x2"
  | .XChannelSelector => "xChannelSelector"
  | .XLinkActuate => "actuate"
  | .XLinkArcrole => "arcrole"
  | .XLinkShow => "show"
  | .XMLNS => "xmlns"
  | .XmlBase => "base"
  | .XmlSpace => "space"
  | .YAltGlyph | .YCursor | .YFe | .YFePointLight | .YFeSpotLight | .YFilter | .YGeometry | .YGlyphRef | .YHatch
  | .YMask | .YPattern | .YText | .YTRef => "y"
  | .Y1Line | .Y1LinearGradient => "y1"
  | .Y2Line | .Y2LinearGradient => "y2"
  | .YChannelSelector => "yChannelSelector"
  | .ZFe => "z"
  | .ZoomAndPan => "zoomAndPan"
  | .AlignmentBaseline => "alignment-baseline"
  | .BaselineShift => "baseline-shift"
  | .Clip => "clip"
  | .ClipPath => "clip-path"
  | .ClipRule => "clip-rule"
  | .Color => "color"
  | .ColorInterpolation => "color-interpolation"
  | .ColorInterpolationFilters => "color-interpolation-filters"
  | .ColorProfile => "color-profile"
  | .ColorRendering => "color-rendering"
  | .Cursor => "cursor"
  | .Direction => "direction"
  | .Display => "display"
  | .DominantBaseline => "dominant-baseline"
  | .EnableBackground => "enable-background"
  | .FillOpacity => "fill-opacity"
  | .FillRule => "fill-rule"
  | .Filter => "filter"
  | .FloodColor => "flood-color"
  | .FloodOpacity => "flood-opacity"
  | .Font => "font"
  | .FontFamily => "font-family"
  | .FontSize => "font-size"
  | .FontSizeAdjust => "font-size-adjust"
  | .FontStretch => "font-stretch"
  | .FontStyle => "font-style"
  | .FontVariant => "font-variant"
  | .FontWeight => "font-weight"
  | .GlyphOrientationHorizontal => "glyph-orientation-horizontal"
  | .GlyphOrientationVertical => "glyph-orientation-vertical"
  | .ImageRendering => "image-rendering"
  | .Kerning => "kerning"
  | .LetterSpacing => "letter-spacing"
  | .LightingColor => "lighting-color"
  | .MarkerEnd => "marker-end"
  | .MarkerMid => "marker-mid"
  | .MarkerStart => "marker-start"
  | .Marker => "marker"
  | .Mask => "mask"
  | .Opacity => "opacity"
  | .Overflow => "overflow"
  | .PaintOrder => "paint-order"
  | .PointerEvents => "pointer-events"
  | .ShapeRendering => "shape-rendering"
  | .StopColor => "stop-color"
  | .StopOpacity => "stop-opacity"
  | .Stroke => "stroke"
  | .StrokeDasharray => "stroke-dasharray"
  | .StrokeDashoffset => "stroke-dashoffset"
  | .StrokeLinecap => "stroke-linecap"
  | .StrokeLinejoin => "stroke-linejoin"
  | .StrokeMiterlimit => "stroke-miterlimit"
  | .StrokeOpacity => "stroke-opacity"
  | .StrokeWidth => "stroke-width"
  | .TextAnchor => "text-anchor"
  | .TextDecoration => "text-decoration"
  | .TextRendering => "text-rendering"
  | .Transform => "transform"
  | .TransformOrigin => "transform-origin"
  | .UnicodeBidi => "unicode-bidi"
  | .VectorEffect => "vector-effect"
  | .Visibility => "visibility"
  | .WordSpacing => "word-spacing"
  | .WritingMode => "writing-mode"

/-- attribute.rs:563-2606, the rows with `AttributeInfo::DeprecatedSafe`. -/
def Key.outdated : Key → Bool
  | .Version => true
  | _ => false

/-- attribute.rs:563-2606, the rows with `AttributeInfo::DeprecatedUnsafe`. -/
def Key.discouraged : Key → Bool
  | .AccentHeight | .Alphabetic | .ArabicForm | .Ascent | .AttributeType | .BaseProfile | .Bbox | .CapHeight
  | .ContentScriptType | .ContentStyleType | .Descent | .DXAltGlyph | .DXGlyphRef | .DYAltGlyph | .DYGlyphRef
  | .ExternalResourcesRequired | .FilterRes | .Format | .G1 | .G2 | .GlyphName | .GlyphRef | .Hanging
  | .HatchContentUnits | .HatchUnits | .HorizAdvX | .HorizOriginX | .HorizOriginY | .Ideographic | .K | .Local
  | .Mathematical | .NameColorProfile | .NameFontFace | .OffsetHatchPath | .Orientation | .OverlinePosition
  | .OverlineThickness | .Panose1 | .Pitch | .RenderingIntent | .RequiredFeatures | .SlopeFont | .Stemh | .Stemv
  | .StrikethroughPosition | .StrikethroughThickness | .String | .U1 | .U2 | .UnderlinePosition
  | .UnderlineThickness | .Unicode | .UnicodeRange | .UnitsPerEm | .VAlphabetic | .VHanging | .VIdeographic
  | .VMathematical | .VertAdvY | .VertOriginX | .VertOriginY | .ViewTarget | .Widths | .XAltGlyph | .XCursor
  | .XGlyphRef | .XHatch | .XHeight | .XmlBase | .XmlLang | .XmlSpace | .YAltGlyph | .YCursor | .YGlyphRef
  | .YHatch | .ZoomAndPan | .ColorProfile | .ColorRendering | .EnableBackground | .GlyphOrientationHorizontal
  | .GlyphOrientationVertical | .Kerning =>
    true
  | _ => false

/-- attribute.rs:563-2606, `AttrId::prefix`: the rows with a prefix. -/
def Key.pre : Key → Option _root_.String
  | .XLinkActuate | .XLinkArcrole | .XLinkHref | .XLinkRole | .XLinkTitle | .XLinkType | .XLinkShow => some "xlink"
  | .XmlBase | .XmlLang | .XmlSpace => some "xml"
  | _ => none

end Verif.Unknowns
