import Verif.Jsx.Table

/-!
# Model: documents as JSX

`crates/oxvg_jsx/src/swc.rs` (the conversion of the document), `crates/oxvg_jsx/src/utils/
attr_to_jsx_str.rs`.

Names are `String`s, contents are lists of characters.  The printing of attribute values and of
style sheets (lightningcss) is not modelled: a document holds the printed values.  Printing never
fails here (`BuildError::PrinterError` is not modelled).  The letters and digits of
`char::is_alphanumeric` are modelled for ASCII only.
-/

namespace Verif.Jsx

/-- The name of an attribute of the document: the prefix as written, the prefix of the attribute
it stands for (`unaliased`, attribute.rs:2765-2774), its local name, and whether the element the
attribute is on knows it (`parse_attr_id`, attribute.rs:2830-2850; otherwise it is
`AttrId::Unknown`). -/
structure Name where
  pre : Option String
  std : Option String
  loc : String
  isKnown : Bool
  deriving DecidableEq, Repr

/-- Why an attribute is left out, `BuildError` in error.rs. -/
inductive Drop
  | unknownPrefix
  | unsupportedXmlns
  | invalidName
  deriving DecidableEq, Repr

/-- attr_to_jsx_str.rs:16-221, the arms for known attributes. -/
def arm (n : Name) : Option String :=
  if n.isKnown then (known.find? (fun r => r.1 == n.std && r.2.1 == n.loc)).map (·.2.2) else none

/-- attr_to_jsx_str.rs:237-296, the arms for names without a prefix. -/
def armHtml (loc : String) : Option String := (html.find? (fun r => r.1 == loc)).map (·.2)

/-- attr_to_jsx_str.rs:10-301, `attr_to_jsx_str`. -/
def attrName (n : Name) : Except Drop String :=
  if n.pre ≠ n.std then .error .unknownPrefix
  else
    match arm n with
    | some p => .ok p
    | none =>
      if n.isKnown = false ∧ n.std = some "xmlns" then
        if n.loc = "xlink" then .ok "xmlnsXlink" else .error .unsupportedXmlns
      else if n.pre ≠ none then .error .unknownPrefix
      else
        match armHtml n.loc with
        | some p => .ok p
        | none =>
          if n.loc.toList.all Char.isAlphanum then .ok n.loc else .error .invalidName

/-- The value of an attribute of the document, content_type.rs: booleans, numbers (also integers
and lengths in pixels), styles with their ordinary and their important declarations, and
everything else as it is printed. -/
inductive Val
  | bool (b : Bool)
  | undef
  | num (q : Int × Nat)
  | style (normal important : List (String × String))
  | other (s : String)
  deriving DecidableEq, Repr

/-- A node of the document; a style node holds its printed style sheet. -/
inductive Doc
  | element (pre : Option String) (loc : String) (attrs : List (Name × Val)) (kids : List Doc)
  | text (v : Option (List Char))
  | pi (v : Option (List Char))
  | comment
  | style (css : List Char)

/-- The values of JSX attributes that are used: strings, and expressions (booleans, numbers,
strings, objects, identifiers, `x || e`, and expressions of the configuration). -/
inductive AVal
  | str (s : String)
  | bool (b : Bool)
  | num (q : Int × Nat)
  | strExpr (s : String)
  | object (props : List (String × String))
  | ident (x : String)
  | either (x : String) (e : AVal)
  | user (e : String)
  deriving DecidableEq, Repr

/-- `JSXAttrOrSpread`. -/
inductive JAttr
  | attr (name : String) (val : Option AVal)
  | spread (x : String)
  deriving DecidableEq, Repr

/-- The test of a conditional expression: `x === undefined` or `x`. -/
inductive Test
  | undef (x : String)
  | truthy (x : String)
  deriving DecidableEq, Repr

/-- `JSXElementChild`, with the expressions that are used. -/
inductive Jsx
  | elem (name : String) (attrs : List JAttr) (selfClosing : Bool) (closing : Option String)
      (kids : List Jsx)
  | frag (kids : List Jsx)
  | text (s : List Char)
  | empty
  | ident (x : String)
  | cond (test : Test) (cons alt : Jsx)
  | null

/-- swc.rs:238-313, `attr_value_to_svg`.  The names of the properties are the ones of the
declarations (their change of case is not modelled). -/
def attrValue : Val → AVal
  | .bool b => .bool b
  | .undef => .strExpr "undefined"
  | .num q => .num q
  | .style normal _ => .object normal
  | .other s => .str s

/-- swc.rs:148-196 and 227-236, `attr_to_jsx` and the dropping of attributes. -/
def attrsJsx (as : List (Name × Val)) : List JAttr :=
  as.filterMap fun a =>
    match attrName a.1 with
    | .ok n => some (.attr n (some (attrValue a.2)))
    | .error _ => none

/-- swc.rs:141-143, `remove_attribute!(element, XMLNS)` on `svg`. -/
def withoutXmlns (loc : String) (as : List (Name × Val)) : List (Name × Val) :=
  if loc == "svg" then as.filter (fun a => !(a.1.std == none && a.1.loc == "xmlns")) else as

/-- `str::trim` for ASCII white space. -/
def white (c : Char) : Bool := c == ' ' || c == '\t' || c == '\n' || c == '\r'

/-- `str::trim`. -/
def trim (s : List Char) : List Char :=
  ((s.dropWhile white).reverse.dropWhile white).reverse

mutual
/-- swc.rs:42-124, `to_jsx` for nodes inside of the document, with `element_to_jsx` (132-225). -/
def toJsx : Doc → Jsx
  | .element pre loc attrs kids =>
    if pre ≠ none then .empty
    else
      .elem loc (attrsJsx (withoutXmlns loc attrs)) kids.isEmpty
        (if kids.isEmpty then none else some loc) (toJsxs kids)
  | .style css => .text css
  | .text v => match v with | some s => .text (trim s) | none => .empty
  | .pi v => match v with | some s => .text (trim s) | none => .empty
  | .comment => .empty
/-- The children. -/
def toJsxs : List Doc → List Jsx
  | [] => []
  | d :: ds => toJsx d :: toJsxs ds
end

/-- The nodes of a document `to_jsx` looks at, swc.rs:50-52: elements and texts (the node type of
a style node is `Style`). -/
def Doc.shown : Doc → Bool
  | .element .. => true
  | .text _ => true
  | _ => false

/-- swc.rs:48-66, `to_jsx` for the document. -/
def docJsx (kids : List Doc) : Jsx :=
  match toJsxs (kids.filter Doc.shown) with
  | [j] => j
  | js => .frag js

end Verif.Jsx
