/-!
# Model: the spellings of attributes in JSX

`crates/oxvg_jsx/src/utils/attr_to_jsx_str.rs` and the names of the attributes in
`crates/oxvg_collections/src/attribute.rs`.
-/

namespace Verif.Jsx

/-- attr_to_jsx_str.rs:16-221, the arms for known attributes: the prefix and the local name the
attribute has in attribute.rs:566-2600 (no prefix there is the empty one) and the name given to
it in JSX.  Arms of attributes with the same name are listed once. -/
def known : List (Option String × String × String) := [
  (none, "autofocus", "autoFocus"),
  (none, "class", "className"),
  (none, "crossorigin", "crossOrigin"),
  (none, "hreflang", "hrefLang"),
  (none, "referrerpolicy", "referrerPolicy"),
  (none, "tabindex", "tabIndex"),
  (none, "aria-activedescendant", "aria-activedescendant"),
  (none, "aria-atomic", "aria-atomic"),
  (none, "aria-autocomplete", "aria-autocomplete"),
  (none, "aria-busy", "aria-busy"),
  (none, "aria-checked", "aria-checked"),
  (none, "aria-colcount", "aria-colcount"),
  (none, "aria-colindex", "aria-colindex"),
  (none, "aria-colspan", "aria-colspan"),
  (none, "aria-controls", "aria-controls"),
  (none, "aria-current", "aria-current"),
  (none, "aria-describedby", "aria-describedby"),
  (none, "aria-details", "aria-details"),
  (none, "aria-disabled", "aria-disabled"),
  (none, "aria-dropeffect", "aria-dropeffect"),
  (none, "aria-errormessage", "aria-errormessage"),
  (none, "aria-expanded", "aria-expanded"),
  (none, "aria-flowto", "aria-flowto"),
  (none, "aria-grabbed", "aria-grabbed"),
  (none, "aria-haspopup", "aria-haspopup"),
  (none, "aria-hidden", "aria-hidden"),
  (none, "aria-invalid", "aria-invalid"),
  (none, "aria-keyshortcuts", "aria-keyshortcuts"),
  (none, "aria-label", "aria-label"),
  (none, "aria-labelledby", "aria-labelledby"),
  (none, "aria-level", "aria-level"),
  (none, "aria-live", "aria-live"),
  (none, "aria-modal", "aria-modal"),
  (none, "aria-multiline", "aria-multiline"),
  (none, "aria-multiselectable", "aria-multiselectable"),
  (none, "aria-orientation", "aria-orientation"),
  (none, "aria-owns", "aria-owns"),
  (none, "aria-placeholder", "aria-placeholder"),
  (none, "aria-posinset", "aria-posinset"),
  (none, "aria-pressed", "aria-pressed"),
  (none, "aria-readonly", "aria-readonly"),
  (none, "aria-relevant", "aria-relevant"),
  (none, "aria-required", "aria-required"),
  (none, "aria-roledescription", "aria-roledescription"),
  (none, "aria-rowcount", "aria-rowcount"),
  (none, "aria-rowindex", "aria-rowindex"),
  (none, "aria-rowspan", "aria-rowspan"),
  (none, "aria-selected", "aria-selected"),
  (none, "aria-setsize", "aria-setsize"),
  (none, "aria-sort", "aria-sort"),
  (none, "aria-valuemax", "aria-valuemax"),
  (none, "aria-valuemin", "aria-valuemin"),
  (none, "aria-valuenow", "aria-valuenow"),
  (none, "aria-valuetext", "aria-valuetext"),
  (none, "accent-height", "accentHeight"),
  (none, "alignment-baseline", "alignmentBaseline"),
  (none, "arabic-form", "arabicForm"),
  (none, "attributeName", "attributeName"),
  (none, "attributeType", "attributeType"),
  (none, "baseFrequency", "baseFrequency"),
  (none, "baseline-shift", "baselineShift"),
  (none, "baseProfile", "baseProfile"),
  (none, "calcMode", "calcMode"),
  (none, "cap-height", "capHeight"),
  (none, "clip-path", "clipPath"),
  (none, "clipPathUnits", "clipPathUnits"),
  (none, "clip-rule", "clipRule"),
  (none, "color-interpolation", "colorInterpolation"),
  (none, "color-interpolation-filters", "colorInterpolationFilters"),
  (none, "color-profile", "colorProfile"),
  (none, "color-rendering", "colorRendering"),
  (none, "contentScriptType", "contentScriptType"),
  (none, "contentStyleType", "contentStyleType"),
  (none, "diffuseConstant", "diffuseConstant"),
  (none, "dominant-baseline", "dominantBaseline"),
  (none, "edgeMode", "edgeMode"),
  (none, "enable-background", "enableBackground"),
  (none, "externalResourcesRequired", "externalResourcesRequired"),
  (none, "fill-opacity", "fillOpacity"),
  (none, "fill-rule", "fillRule"),
  (none, "filterRes", "filterRes"),
  (none, "filterUnits", "filterUnits"),
  (none, "flood-opacity", "floodOpacity"),
  (none, "flood-color", "floodColor"),
  (none, "font-family", "fontFamily"),
  (none, "font-size", "fontSize"),
  (none, "font-size-adjust", "fontSizeAdjust"),
  (none, "font-stretch", "fontStretch"),
  (none, "font-style", "fontStyle"),
  (none, "font-variant", "fontVariant"),
  (none, "font-weight", "fontWeight"),
  (none, "glyph-name", "glyphName"),
  (none, "glyph-orientation-horizontal", "glyphOrientationHorizontal"),
  (none, "glyph-orientation-vertical", "glyphOrientationVertical"),
  (none, "glyphRef", "glyphRef"),
  (none, "gradientTransform", "gradientTransform"),
  (none, "gradientUnits", "gradientUnits"),
  (none, "horiz-adv-x", "horizAdvX"),
  (none, "horiz-origin-x", "horizOriginX"),
  (none, "horiz-origin-y", "horizOriginY"),
  (none, "image-rendering", "imageRendering"),
  (none, "kernelMatrix", "kernelMatrix"),
  (none, "kernelUnitLength", "kernelUnitLength"),
  (none, "keyPoints", "keyPoints"),
  (none, "keySplines", "keySplines"),
  (none, "keyTimes", "keyTimes"),
  (none, "lengthAdjust", "lengthAdjust"),
  (none, "letter-spacing", "letterSpacing"),
  (none, "lighting-color", "lightingColor"),
  (none, "limitingConeAngle", "limitingConeAngle"),
  (none, "marker-end", "markerEnd"),
  (none, "markerHeight", "markerHeight"),
  (none, "marker-mid", "markerMid"),
  (none, "marker-start", "markerStart"),
  (none, "markerUnits", "markerUnits"),
  (none, "markerWidth", "markerWidth"),
  (none, "maskContentUnits", "maskContentUnits"),
  (none, "maskUnits", "maskUnits"),
  (none, "numOctaves", "numOctaves"),
  (none, "overline-position", "overlinePosition"),
  (none, "overline-thickness", "overlineThickness"),
  (none, "paint-order", "paintOrder"),
  (none, "panose-1", "panose1"),
  (none, "pathLength", "pathLength"),
  (none, "patternContentUnits", "patternContentUnits"),
  (none, "patternTransform", "patternTransform"),
  (none, "patternUnits", "patternUnits"),
  (none, "pointer-events", "pointerEvents"),
  (none, "pointsAtX", "pointsAtX"),
  (none, "pointsAtY", "pointsAtY"),
  (none, "pointsAtZ", "pointsAtZ"),
  (none, "preserveAlpha", "preserveAlpha"),
  (none, "preserveAspectRatio", "preserveAspectRatio"),
  (none, "primitiveUnits", "primitiveUnits"),
  (none, "refX", "refX"),
  (none, "refY", "refY"),
  (none, "rendering-intent", "renderingIntent"),
  (none, "repeatCount", "repeatCount"),
  (none, "repeatDur", "repeatDur"),
  (none, "requiredExtensions", "requiredExtensions"),
  (none, "requiredFeatures", "requiredFeatures"),
  (none, "shape-rendering", "shapeRendering"),
  (none, "solid-color", "solidColor"),
  (none, "solid-opacity", "solidOpacity"),
  (none, "specularConstant", "specularConstant"),
  (none, "specularExponent", "specularExponent"),
  (none, "spreadMethod", "spreadMethod"),
  (none, "startOffset", "startOffset"),
  (none, "stdDeviation", "stdDeviation"),
  (none, "stitchTiles", "stitchTiles"),
  (none, "stop-color", "stopColor"),
  (none, "stop-opacity", "stopOpacity"),
  (none, "strikethrough-position", "strikethroughPosition"),
  (none, "strikethrough-thickness", "strikethroughThickness"),
  (none, "stroke-dasharray", "strokeDasharray"),
  (none, "stroke-dashoffset", "strokeDashoffset"),
  (none, "stroke-linecap", "strokeLinecap"),
  (none, "stroke-linejoin", "strokeLinejoin"),
  (none, "stroke-miterlimit", "strokeMiterlimit"),
  (none, "stroke-width", "strokeWidth"),
  (none, "stroke-opacity", "strokeOpacity"),
  (none, "surfaceScale", "surfaceScale"),
  (none, "systemLanguage", "systemLanguage"),
  (none, "tableValues", "tableValues"),
  (none, "targetX", "targetX"),
  (none, "targetY", "targetY"),
  (none, "text-anchor", "textAnchor"),
  (none, "text-decoration", "textDecoration"),
  (none, "textLength", "textLength"),
  (none, "text-rendering", "textRendering"),
  (none, "transform-origin", "transformOrigin"),
  (none, "underline-position", "underlinePosition"),
  (none, "underline-thickness", "underlineThickness"),
  (none, "unicode-bidi", "unicodeBidi"),
  (none, "unicode-range", "unicodeRange"),
  (none, "units-per-em", "unitsPerEm"),
  (none, "v-alphabetic", "vAlphabetic"),
  (none, "vector-effect", "vectorEffect"),
  (none, "vert-adv-y", "vertAdvY"),
  (none, "vert-origin-x", "vertOriginX"),
  (none, "vert-origin-y", "vertOriginY"),
  (none, "v-hanging", "vHanging"),
  (none, "v-ideographic", "vIdeographic"),
  (none, "viewBox", "viewBox"),
  (none, "viewTarget", "viewTarget"),
  (none, "v-mathematical", "vMathematical"),
  (none, "word-spacing", "wordSpacing"),
  (none, "writing-mode", "writingMode"),
  (none, "xChannelSelector", "xChannelSelector"),
  (none, "x-height", "xHeight"),
  (some "xlink", "actuate", "xlinkActuate"),
  (some "xlink", "arcrole", "xlinkArcrole"),
  (some "xlink", "href", "xlinkHref"),
  (some "xlink", "role", "xlinkRole"),
  (some "xlink", "show", "xlinkShow"),
  (some "xlink", "title", "xlinkTitle"),
  (some "xlink", "type", "xlinkType"),
  (some "xml", "base", "xmlBase"),
  (some "xml", "lang", "xmlLang"),
  (some "xml", "space", "xmlSpace"),
  (none, "yChannelSelector", "yChannelSelector"),
  (none, "zoomAndPan", "zoomAndPan") ]

/-- attr_to_jsx_str.rs:238-290, the arms for other names without a prefix. -/
def html : List (String × String) := [
  ("accept-charset", "acceptCharset"),
  ("accesskey", "accessKey"),
  ("allowfullscreen", "allowFullScreen"),
  ("autocapitalize", "autoCapitalize"),
  ("autocomplete", "autoComplete"),
  ("autocorrect", "autoCorrect"),
  ("autoplay", "autoPlay"),
  ("autosave", "autoSave"),
  ("cellpadding", "cellPadding"),
  ("cellspacing", "cellSpacing"),
  ("charset", "charSet"),
  ("classid", "classID"),
  ("colspan", "colSpan"),
  ("contenteditable", "contentEditable"),
  ("contextmenu", "contextMenu"),
  ("controlslist", "controlsList"),
  ("datetime", "dateTime"),
  ("checked", "defaultChecked"),
  ("value", "defaultValue"),
  ("enctype", "encType"),
  ("for", "htmlFor"),
  ("formmethod", "formMethod"),
  ("formaction", "formAction"),
  ("formenctype", "formEncType"),
  ("formnovalidate", "formNoValidate"),
  ("formtarget", "formTarget"),
  ("frameborder", "frameBorder"),
  ("http-equiv", "httpEquiv"),
  ("inputmode", "inputMode"),
  ("itemid", "itemID"),
  ("itemprop", "itemProp"),
  ("itemref", "itemRef"),
  ("itemscope", "itemScope"),
  ("itemtype", "itemType"),
  ("keyparams", "keyParams"),
  ("keytype", "keyType"),
  ("marginwidth", "marginWidth"),
  ("marginheight", "marginHeight"),
  ("maxlength", "maxLength"),
  ("mediagroup", "mediaGroup"),
  ("minlength", "minLength"),
  ("nomodule", "noModule"),
  ("novalidate", "noValidate"),
  ("playsinline", "playsInline"),
  ("radiogroup", "radioGroup"),
  ("readonly", "readOnly"),
  ("rowspan", "rowSpan"),
  ("spellcheck", "spellCheck"),
  ("srcdoc", "srcDoc"),
  ("srclang", "srcLang"),
  ("srcset", "srcSet"),
  ("usemap", "useMap") ]

/-- attribute.rs:566-2600, the local names of the known attributes without an arm in
`attr_to_jsx_str`; none of them has a prefix. -/
def plain : List String := [
  "accumulate", "additive", "alphabetic", "amplitude", "ascent", "azimuth", "bbox", "begin",
  "bias", "by", "cx", "cy", "d", "descent", "divisor", "download", "dur", "dx", "dy", "elevation",
  "end", "exponent", "fill", "format", "fr", "from", "fx", "fy", "g1", "g2", "hanging",
  "hatchContentUnits", "hatchUnits", "height", "href", "id", "ideographic", "in", "in2",
  "intercept", "k", "k1", "k2", "k3", "k4", "lang", "local", "mathematical", "max", "media",
  "method", "min", "mode", "name", "offset", "onabort", "onactivate", "onbegin", "oncancel",
  "oncanplay", "oncanplaythrough", "onchange", "onclick", "onclose", "oncopy", "oncuechange",
  "oncut", "ondblclick", "ondrag", "ondragend", "ondragenter", "ondragexit", "ondragleave",
  "ondragover", "ondragstart", "ondrop", "ondurationchange", "onemptied", "onend", "onended",
  "onerror", "onfocusin", "onfocusout", "onfocus", "oninput", "oninvalid", "onkeydown",
  "onkeypress", "onkeyup", "onload", "onloadeddata", "onloadedmetadata", "onloadstart",
  "onmousedown", "onmouseenter", "onmouseleave", "onmousemove", "onmouseout", "onmouseover",
  "onmouseup", "onpaste", "onpause", "onplay", "onplaying", "onprogress", "onratechange",
  "onrepeat", "onreset", "onresize", "onscroll", "onseeked", "onseeking", "onselect", "onshow",
  "onstalled", "onsubmit", "onsuspend", "ontimeupdate", "ontoggle", "onunload", "onvolumechange",
  "onwaiting", "onwheel", "onzoom", "operator", "order", "orient", "orientation", "origin", "path",
  "ping", "pitch", "playbackorder", "points", "radius", "rel", "restart", "result", "role",
  "rotate", "rx", "ry", "r", "scale", "seed", "side", "slope", "spacing", "stemh", "stemv",
  "string", "style", "target", "timelinebegin", "title", "to", "type", "u1", "u2", "unicode",
  "values", "version", "width", "widths", "x", "x1", "x2", "xmlns", "y", "y1", "y2", "z", "clip",
  "color", "cursor", "direction", "display", "filter", "font", "kerning", "marker", "mask",
  "opacity", "overflow", "stroke", "transform", "visibility" ]

end Verif.Jsx
