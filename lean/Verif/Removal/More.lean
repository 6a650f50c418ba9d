import Verif.Removal.Props

/-!
# Model: jobs that remove elements by attributes, images and the data of editors

`crates/oxvg_optimiser/src/jobs/remove_elements_by_attr.rs`, `remove_raster_images.rs`, `remove_editors_n_s_data.rs`.
-/

namespace Verif.Removal

open Verif.Tree Verif.Names

/-! ## remove_elements_by_attr.rs -/

/-- The attributes the job tells apart. The tokens of a `class` have been split by the parser (C09). -/
inductive IdAttr where
  | id (v : Str)
  | class (tokens : List Str)
  | other (name v : Str)
  deriving DecidableEq, Repr

/-- ast/attribute.rs:62-88, `get_attribute!(element, Id)`. -/
def idOf : List IdAttr → Option Str
  | [] => none
  | .id v :: _ => some v
  | _ :: as => idOf as

/-- class_list.rs:186-191, `with_iter`: the tokens of the first `class`. -/
def classesOf : List IdAttr → List Str
  | [] => []
  | .class ts :: _ => ts
  | _ :: as => classesOf as

/-- remove_elements_by_attr.rs:41-64, `element`. Removing an element twice is removing it. -/
def byAttrHook (ids classes : List Str) : Hook IdAttr Err
  | .elem _ as _ =>
    if !ids.isEmpty && (idOf as).any (fun v => ids.any (· == v)) then .ok none
    else if !classes.isEmpty then .ok (kept (!(classesOf as).any fun c => classes.any (· == c)) as)
    else .ok (some as)
  | n => .ok (some (own n))

/-- remove_elements_by_attr.rs: the job has no switch. -/
def removeByAttr (ids classes : List Str) (doc : List (Node IdAttr)) : Except Err (List (Node IdAttr)) :=
  start true (byAttrHook ids classes) doc

/-! ## remove_raster_images.rs -/

/-- `str::split` for a text that is not empty: what is before the first occurrence, and so on. `acc` is the piece so far. -/
def splitOn (sep : List Char) (acc : List Char) : List Char → List (List Char)
  | [] => [acc]
  | c :: cs =>
    if sep.isPrefixOf (c :: cs) then acc :: splitOn sep [] (cs.drop (sep.length - 1))
    else splitOn sep (acc ++ [c]) cs
  termination_by cs => cs.length
  decreasing_by all_goals (simp only [List.length_cons, List.length_drop]; omega)

/-- remove_raster_images.rs:65-69, `is_raster_image`. -/
def isRaster (href : List Char) : Bool :=
  (splitOn ['.'] [] href ++ splitOn "image/".toList [] href).any fun ext =>
    "jpeg".toList.isPrefixOf ext || (ext.take 3 == "jpg".toList || ext.take 3 == "png".toList || ext.take 3 == "gif".toList)

/-- remove_raster_images.rs:46-62, `element`. `href` is the value of `xlink:href`. -/
def rasterHook {A : Type} (href : List A → Option (List Char)) : Hook A Err
  | .elem n as _ =>
    if !n.is "image" then .ok (some as)
    else match href as with
      | none => .ok (some as)
      | some v => .ok (kept (!isRaster v) as)
  | n => .ok (some (own n))

/-- remove_raster_images.rs:31-63. -/
def removeRaster {A : Type} (href : List A → Option (List Char)) (on : Bool) (doc : List (Node A)) : Except Err (List (Node A)) :=
  start on (rasterHook href) doc

/-! ## remove_editors_n_s_data.rs -/

/-- remove_editors_n_s_data.rs:55-64: a declaration `xmlns:p="uri"`, or any other attribute. -/
inductive NsAttr where
  | decl (p uri : Str)
  | named (pre : Prefix) (loc v : Str)
  deriving DecidableEq, Repr

/-- remove_editors_n_s_data.rs:90-118, `is_editor_namespace`. -/
def editorUris : List String :=
  ["http://creativecommons.org/ns#", "http://inkscape.sourceforge.net/DTD/sodipodi-0.dtd",
   "http://ns.adobe.com/AdobeIllustrator/10.0/", "http://ns.adobe.com/AdobeSVGViewerExtensions/3.0/",
   "http://ns.adobe.com/Extensibility/1.0/", "http://ns.adobe.com/Flows/1.0/",
   "http://ns.adobe.com/GenericCustomNamespace/1.0/", "http://ns.adobe.com/Graphs/1.0/",
   "http://ns.adobe.com/ImageReplacement/1.0/", "http://ns.adobe.com/SaveForWeb/1.0/",
   "http://ns.adobe.com/Variables/1.0/", "http://ns.adobe.com/XPath/1.0/", "http://purl.org/dc/elements/1.1/",
   "http://schemas.microsoft.com/visio/2003/SVGExtensions/", "http://sodipodi.sourceforge.net/DTD/sodipodi-0.dtd",
   "http://taptrix.com/vectorillustrator/svg_extensions", "http://www.bohemiancoding.com/sketch/ns",
   "http://www.figma.com/figma/ns", "http://www.inkscape.org/namespaces/inkscape", "http://www.serif.com/",
   "http://www.vector.evaxdesign.sk", "http://www.w3.org/1999/02/22-rdf-syntax-ns#"]

/-- `is_editor_namespace` or in the additional namespaces. -/
def isEditor (more : Option (List Str)) (uri : Str) : Bool :=
  editorUris.any (fun u => uri == lit u) || more.any (fun l => l.any (· == uri))

/-- remove_editors_n_s_data.rs:54-84: whether an attribute is retained. -/
def staysBy (more : Option (List Str)) : NsAttr → Bool
  | .decl _ uri => !isEditor more uri
  | .named p _ _ => !isEditor more p.ns.uri

/-- remove_editors_n_s_data.rs:41-88, `element`. -/
def editorHook (more : Option (List Str)) : Hook NsAttr Err
  | .elem n as _ =>
    if isEditor more n.pre.ns.uri then .ok none
    else .ok (some (as.filter (staysBy more)))
  | n => .ok (some (own n))

/-- remove_editors_n_s_data.rs: the job has no switch. -/
def removeEditors (more : Option (List Str)) (doc : List (Node NsAttr)) : Except Err (List (Node NsAttr)) :=
  start true (editorHook more) doc

end Verif.Removal
