/-!
# The tables of the enums

All types of `crates/oxvg_collections/src/attribute/*.rs` that are made with `enum_attr!`.
-/

namespace Verif.Keywords

/-- A keyword. -/
abbrev Word := List Char

/-- The keywords of an enum, in the order of its variants. -/
abbrev Table := List Word

/-- A table from its keywords. -/
def tab (l : List String) : Table := l.map String.toList

/-- attribute/animation.rs:14-25, `AttributeType`. -/
def tAttributeType : Table := tab ["CSS", "XML", "auto"]

/-- attribute/animation.rs:313-326, `CalcMode`. -/
def tCalcMode : Table := tab ["discrete", "linear", "paced", "spline"]

/-- attribute/animation_addition.rs:4-17, `Accumulate`. -/
def tAccumulate : Table := tab ["none", "sum"]

/-- attribute/animation_addition.rs:18-31, `Additive`. -/
def tAdditive : Table := tab ["replace", "sum"]

/-- attribute/animation_timing.rs:244-255, `Fill`. -/
def tFill : Table := tab ["freeze", "remove"]

/-- attribute/animation_timing.rs:366-379, `Restart`. -/
def tRestart : Table := tab ["always", "whenNotActive", "never"]

/-- attribute/aria.rs:6-22, `AriaAutocomplete`. -/
def tAriaAutocomplete : Table := tab ["inline", "list", "both", "none"]

/-- attribute/aria.rs:23-45, `AriaCurrent`. -/
def tAriaCurrent : Table := tab ["page", "step", "location", "date", "time", "true", "false"]

/-- attribute/aria.rs:46-66, `AriaDropEffect`. -/
def tAriaDropEffect : Table := tab ["copy", "execute", "link", "move", "none", "popup"]

/-- attribute/aria.rs:67-89, `AriaHasPopup`. -/
def tAriaHasPopup : Table := tab ["false", "true", "menu", "listbox", "tree", "grid", "dialog"]

/-- attribute/aria.rs:90-106, `AriaInvalid`. -/
def tAriaInvalid : Table := tab ["grammar", "false", "spelling", "true"]

/-- attribute/aria.rs:107-121, `AriaLive`. -/
def tAriaLive : Table := tab ["assertive", "off", "polite"]

/-- attribute/aria.rs:122-134, `AriaOrientation`. -/
def tAriaOrientation : Table := tab ["horizontal", "undefined", "vertical"]

/-- attribute/aria.rs:135-149, `AriaRelevant`. -/
def tAriaRelevant : Table := tab ["additions", "additions text", "all", "removals", "text"]

/-- attribute/aria.rs:150-166, `AriaSort`. -/
def tAriaSort : Table := tab ["ascending", "descending", "none", "other"]

/-- attribute/aria.rs:171-339, `Role`. -/
def tRole : Table := tab ["alert", "alertdialog", "application", "article", "banner", "button", "cell", "checkbox",
  "columnheader", "combobox", "command", "complementary", "composite", "contentinfo", "definition", "dialog",
  "directory", "document", "feed", "figure", "form", "grid", "gridcell", "group", "heading", "img", "input",
  "landmark", "link", "list", "listbox", "listitem", "log", "main", "marquee", "math", "menu", "menubar",
  "menuitem", "menuitemcheckbox", "menuitemradio", "navigation", "none", "note", "option", "presentation",
  "progressbar", "radio", "radiogroup", "range", "region", "roletype", "row", "rowgroup", "rowheader", "scrollbar",
  "search", "searchbox", "section", "sectionhead", "select", "separator", "slider", "spinbutton", "status",
  "structure", "switch", "tab", "table", "tablist", "tabpanel", "term", "textbox", "timer", "toolbar", "tooltip",
  "tree", "treegrid", "treeitem", "widget", "window"]

/-- attribute/aria.rs:340-352, `Tristate`. -/
def tTristate : Table := tab ["true", "mixed", "false"]

/-- attribute/filter_effect.rs:9-26, `ChannelSelector`. -/
def tChannelSelector : Table := tab ["R", "G", "B", "A"]

/-- attribute/filter_effect.rs:27-60, `TypeFeColorMatrix`. -/
def tTypeFeColorMatrix : Table := tab ["matrix", "saturate", "hueRotate", "luminanceToAlpha"]

/-- attribute/filter_effect.rs:61-84, `OperatorFeComposite`. -/
def tOperatorFeComposite : Table := tab ["over", "in", "out", "atop", "xor", "lighter", "arithmetic"]

/-- attribute/filter_effect.rs:85-102, `EdgeMode`. -/
def tEdgeMode : Table := tab ["duplicate", "wrap", "mirror", "none"]

/-- attribute/filter_effect.rs:103-116, `OperatorFeMorphology`. -/
def tOperatorFeMorphology : Table := tab ["erode", "dilate"]

/-- attribute/filter_effect.rs:117-130, `StitchTilesFeTurbulence`. -/
def tStitchTilesFeTurbulence : Table := tab ["stitch", "noStitch"]

/-- attribute/filter_effect.rs:131-144, `TypeFeTurbulence`. -/
def tTypeFeTurbulence : Table := tab ["fractalNoise", "turbulence"]

/-- attribute/fonts.rs:5-19, `ArabicForm`. -/
def tArabicForm : Table := tab ["initial", "medial", "terminal", "isolated"]

/-- attribute/fonts.rs:21-31, `Orientation`. -/
def tOrientation : Table := tab ["h", "v"]

/-- attribute/presentation.rs:33-65, `AlignmentBaseline`. -/
def tAlignmentBaseline : Table := tab ["auto", "baseline", "before-edge", "text-before-edge", "middle", "central",
  "after-edge", "text-after-edge", "ideographic", "alphabetic", "hanging", "mathematical"]

/-- attribute/presentation.rs:296-326, `DominantBaseline`. -/
def tDominantBaseline : Table := tab ["auto", "use-script", "no-change", "reset-size", "ideographic", "alphabetic",
  "hanging", "mathematical", "central", "middle", "text-after-edge", "text-before-edge"]

/-- attribute/presentation.rs:746-754, `CommonLigValues`. -/
def tCommonLigValues : Table := tab ["common-ligatures", "no-common-ligatures"]

/-- attribute/presentation.rs:755-763, `DiscretionaryLigValues`. -/
def tDiscretionaryLigValues : Table := tab ["discretionary-ligatures", "no-discretionary-ligatures"]

/-- attribute/presentation.rs:764-772, `HistoricalLigValues`. -/
def tHistoricalLigValues : Table := tab ["historical-ligatures", "no-historical-ligatures"]

/-- attribute/presentation.rs:773-781, `ContextualAltValues`. -/
def tContextualAltValues : Table := tab ["contextual", "no-contextual"]

/-- attribute/presentation.rs:783-801, `FontVariantCaps`. -/
def tFontVariantCaps : Table := tab ["small-caps", "all-small-caps", "petite-caps", "all-petite-caps", "unicase",
  "titling-caps"]

/-- attribute/presentation.rs:1124-1132, `NumericFigureValues`. -/
def tNumericFigureValues : Table := tab ["lining-nums", "oldstyle-nums"]

/-- attribute/presentation.rs:1133-1141, `NumericSpacingValues`. -/
def tNumericSpacingValues : Table := tab ["proportional-nums", "tabular-nums"]

/-- attribute/presentation.rs:1142-1150, `NumericFractionValues`. -/
def tNumericFractionValues : Table := tab ["diagonal-fractions", "stacked-fractions"]

/-- attribute/presentation.rs:1214-1230, `EastAsianVariantValues`. -/
def tEastAsianVariantValues : Table := tab ["jis78", "jis83", "jis90", "jis04", "simplified", "traditional"]

/-- attribute/presentation.rs:1231-1239, `EastAsianWidthValues`. -/
def tEastAsianWidthValues : Table := tab ["full-width", "proportional-width"]

/-- attribute/presentation.rs:1241-1251, `FontVariantPosition`. -/
def tFontVariantPosition : Table := tab ["sub", "super"]

/-- attribute/presentation.rs:1253-1263, `FontVariantEmoji`. -/
def tFontVariantEmoji : Table := tab ["text", "emoji", "unicode"]

/-- attribute/presentation.rs:1265-1275, `Paint`. -/
def tPaint : Table := tab ["stroke", "fill", "markers"]

/-- attribute/presentation.rs:1400-1428, `PointerEvents`. -/
def tPointerEvents : Table := tab ["auto", "bounding-box", "visiblePainted", "visibleFill", "visibleStroke",
  "visible", "painted", "fill", "stroke", "all", "none"]

/-- attribute/presentation.rs:1429-1441, `TextAnchor`. -/
def tTextAnchor : Table := tab ["start", "middle", "end"]

/-- attribute/presentation.rs:1443-1459, `VectorEffect`. -/
def tVectorEffect : Table := tab ["none", "non-scaling-stroke", "non-scaling-size", "non-rotation",
  "fixed-position"]

/-- attribute/presentation.rs:1461-1502, `WritingMode`. -/
def tWritingMode : Table := tab ["lr-tb", "rl-tb", "tb-rl", "lr", "rl", "tb", "horizontal-tb", "vertical-rl",
  "vertical-lr", "sideways-rl", "sideways-lr"]

/-- attribute/transfer_function.rs:4-23, `TransferFunctionType`. -/
def tTransferFunctionType : Table := tab ["identity", "table", "discrete", "linear", "gamma"]

/-- attribute/uncategorised.rs:17-58, `BlendMode`. -/
def tBlendMode : Table := tab ["normal", "multiply", "color-burn", "screen", "color-dodge", "hard-light",
  "overlay", "soft-light", "darken", "lighten", "difference", "exclusion", "hue", "saturation", "color",
  "luminosity"]

/-- attribute/uncategorised.rs:59-75, `CrossOrigin`. -/
def tCrossOrigin : Table := tab ["anonymous", "use-credentials"]

/-- attribute/uncategorised.rs:214-240, `PreserveAspectRatioAlign`. -/
def tPreserveAspectRatioAlign : Table := tab ["none", "xMinYMin", "xMidYMin", "xMaxYMin", "xMinYMid", "xMidYMid",
  "xMaxYMid", "xMinYMax", "xMidYMax", "xMaxYMax"]

/-- attribute/uncategorised.rs:242-268, `PreserveAspectRatioMeetOrSlice`. -/
def tPreserveAspectRatioMeetOrSlice : Table := tab ["meet", "slice"]

/-- attribute/uncategorised.rs:270-280, `Playbackorder`. -/
def tPlaybackorder : Table := tab ["forwardonly", "all"]

/-- attribute/uncategorised.rs:282-290, `Timelinebegin`. -/
def tTimelinebegin : Table := tab ["loadend", "loadbegin"]

/-- attribute/uncategorised.rs:292-306, `Units`. -/
def tUnits : Table := tab ["userSpaceOnUse", "objectBoundingBox"]

/-- attribute/uncategorised.rs:308-323, `MarkerUnits`. -/
def tMarkerUnits : Table := tab ["userSpaceOnUse", "strokeWidth"]

/-- attribute/uncategorised.rs:325-335, `LengthAdjust`. -/
def tLengthAdjust : Table := tab ["spacing", "spacingAndGlyphs"]

/-- attribute/uncategorised.rs:337-404, `LinkType`. -/
def tLinkType : Table := tab ["alternate", "author", "bookmark", "canonical", "compression-dictionary",
  "dns-prefetch", "external", "expect", "help", "icon", "license", "manifest", "me", "modulepreload", "next",
  "nofollow", "noopener", "noreferrer", "opener", "pingback", "preconnect", "prefetch", "preload", "prerender",
  "prev", "privacy-policy", "search", "stylesheet", "tag", "terms-of-service"]

/-- attribute/uncategorised.rs:551-559, `Origin`. -/
def tOrigin : Table := tab ["default"]

/-- attribute/uncategorised.rs:660-678, `RenderingIntent`. -/
def tRenderingIntent : Table := tab ["auto", "perceptual", "relative-colorimetric", "saturation",
  "absolute-colorimetric"]

/-- attribute/uncategorised.rs:844-887, `ReferrerPolicy`. -/
def tReferrerPolicy : Table := tab ["no-referrer", "no-referrer-when-downgrade", "same-origin", "origin",
  "strict-origin", "origin-when-cross-origin", "strict-origin-when-cross-origin", "unsafe-url"]

/-- attribute/uncategorised.rs:943-955, `SpreadMethod`. -/
def tSpreadMethod : Table := tab ["pad", "reflect", "repeat"]

/-- attribute/uncategorised.rs:1024-1034, `TextPathMethod`. -/
def tTextPathMethod : Table := tab ["align", "stretch"]

/-- attribute/uncategorised.rs:1036-1046, `TextPathSpacing`. -/
def tTextPathSpacing : Table := tab ["auto", "exact"]

/-- attribute/uncategorised.rs:1048-1058, `TextPathSide`. -/
def tTextPathSide : Table := tab ["left", "right"]

/-- attribute/uncategorised.rs:1181-1197, `TypeAnimateTransform`. -/
def tTypeAnimateTransform : Table := tab ["translate", "scale", "rotate", "skewX", "skewY"]

/-- attribute/uncategorised.rs:1271-1281, `ZoomAndPan`. -/
def tZoomAndPan : Table := tab ["disable", "magnify"]

/-- attribute/xlink.rs:4-12, `XLinkActuate`. -/
def tXLinkActuate : Table := tab ["onRequest", "onLoad"]

/-- attribute/xlink.rs:14-30, `XLinkShow`. -/
def tXLinkShow : Table := tab ["new", "replace", "embed", "other", "none"]

/-- attribute/xlink.rs:32-38, `XLinkType`. -/
def tXLinkType : Table := tab ["simple"]

/-- attribute/xml.rs:4-20, `XmlSpace`. -/
def tXmlSpace : Table := tab ["default", "preserve"]

/-- All tables. -/
def tables : List Table :=
  [tAttributeType, tCalcMode, tAccumulate, tAdditive, tFill, tRestart, tAriaAutocomplete, tAriaCurrent,
    tAriaDropEffect, tAriaHasPopup, tAriaInvalid, tAriaLive, tAriaOrientation, tAriaRelevant, tAriaSort, tRole,
    tTristate, tChannelSelector, tTypeFeColorMatrix, tOperatorFeComposite, tEdgeMode, tOperatorFeMorphology,
    tStitchTilesFeTurbulence, tTypeFeTurbulence, tArabicForm, tOrientation, tAlignmentBaseline, tDominantBaseline,
    tCommonLigValues, tDiscretionaryLigValues, tHistoricalLigValues, tContextualAltValues, tFontVariantCaps,
    tNumericFigureValues, tNumericSpacingValues, tNumericFractionValues, tEastAsianVariantValues,
    tEastAsianWidthValues, tFontVariantPosition, tFontVariantEmoji, tPaint, tPointerEvents, tTextAnchor,
    tVectorEffect, tWritingMode, tTransferFunctionType, tBlendMode, tCrossOrigin, tPreserveAspectRatioAlign,
    tPreserveAspectRatioMeetOrSlice, tPlaybackorder, tTimelinebegin, tUnits, tMarkerUnits, tLengthAdjust,
    tLinkType, tOrigin, tRenderingIntent, tReferrerPolicy, tSpreadMethod, tTextPathMethod, tTextPathSpacing,
    tTextPathSide, tTypeAnimateTransform, tZoomAndPan, tXLinkActuate, tXLinkShow, tXLinkType, tXmlSpace]

end Verif.Keywords
