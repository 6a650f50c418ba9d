/-!
# Model: prefixing ids and class names

`crates/oxvg_optimiser/src/jobs/prefix_ids.rs`, with `visit_id`, `visit_class` and `visit_url` of
`crates/oxvg_collections/src/content_type.rs`. A document is the list of its elements in document order; an element is
the ids, classes and addresses that those three functions visit in its attributes, and those of its style sheets. All
other content is left out, because the job does not touch it. Percent-encoding is not interpreted.
-/

namespace Verif.PrefixIds

/-- prefix_ids.rs:22-31, `PrefixGenerator`. -/
inductive Generator where
  | given (s : List Char)
  | off
  | standard

/-- prefix_ids.rs:64-80, the options. -/
structure Options where
  delim : List Char
  generator : Generator
  ids : Bool
  classes : Bool

/-- prefix_ids.rs:83-92. -/
def Options.standard : Options := ⟨"__".toList, .standard, true, true⟩

/-- What `visit_id`, `visit_class` and `visit_url` visit (content_type.rs:80-92). -/
inductive Kind where
  | id | cls | url
deriving DecidableEq

structure Ref where
  kind : Kind
  text : List Char
deriving DecidableEq

/-- An element: whether it is `style` and has no child nodes; the contents of its style sheets; for each attribute what it
contains. -/
structure El where
  isStyle : Bool
  isEmpty : Bool
  css : List Ref
  attrs : List (List Ref)
deriving DecidableEq

/-- prefix_ids.rs:316: `replace(['.', ' '], "_")`. -/
def underscores (l : List Char) : List Char := l.map fun c => if c = '.' ∨ c = ' ' then '_' else c

/-- prefix_ids.rs:324-328, `get_basename`; a path is the list of its components. -/
def basename (path : List (List Char)) : Option (List Char) := path.head?

def pathPrefix (delim : List Char) : Option (List Char) → List Char
  | some name => underscores name ++ delim
  | none => delim

def standardPrefix (delim : List Char) : Option (List (List Char)) → List Char
  | some path => pathPrefix delim (basename path)
  | none => "prefix".toList ++ delim

/-- prefix_ids.rs:309-321, `generate`. -/
def generate (o : Options) (path : Option (List (List Char))) : List Char :=
  match o.generator with
  | .given s => s ++ o.delim
  | .off => []
  | .standard => standardPrefix o.delim path

/-- prefix_ids.rs:220-230, `prefix_id`. -/
def prefixId (p x : List Char) : List Char := if p.isPrefixOf x then x else p ++ x

/-- prefix_ids.rs:232-246, `prefix_reference`. -/
def prefixReference (p url : List Char) : List Char :=
  match url with
  | '#' :: r => if p.isPrefixOf r then url else '#' :: (p ++ r)
  | _ => url

/-- prefix_ids.rs:131-147: one thing visited in an attribute. -/
def inAttribute (o : Options) (p : List Char) (r : Ref) : Ref :=
  match r.kind with
  | .id => if o.ids then { r with text := prefixId p r.text } else r
  | .cls => if o.classes then { r with text := prefixId p r.text } else r
  | .url => { r with text := prefixReference p r.text }

/-- prefix_ids.rs:152-190, `CssVisitor`: one thing visited in a style sheet. -/
def inSheet (o : Options) (p : List Char) (r : Ref) : Ref :=
  match r.kind with
  | .id => if o.ids then { r with text := prefixId p r.text } else r
  | .cls => if o.classes then { r with text := prefixId p r.text } else r
  | .url => if o.ids then { r with text := prefixReference p r.text } else r

/-- prefix_ids.rs:116-150, `element`. -/
def element (o : Options) (p : List Char) (e : El) : El :=
  if e.isStyle && e.isEmpty then e
  else { e with
    css := if e.isStyle then e.css.map (inSheet o p) else e.css
    attrs := e.attrs.map fun a => a.map (inAttribute o p) }

/-- prefix_ids.rs:102-114 and the walk over all elements. -/
def job (o : Options) (path : Option (List (List Char))) (d : List El) : List El :=
  if !o.ids && !o.classes then d else d.map (element o (generate o path))

end Verif.PrefixIds
