/-!
# Model: style attributes into presentation attributes

`crates/oxvg_optimiser/src/jobs/convert_style_to_attrs.rs` and the table of properties in `crates/oxvg_collections/src/attribute.rs`. Values are
left open; that an attribute is written with the value of the property is not modelled.
-/

namespace Verif.StyleAttr

variable {V : Type}

/-- A declaration. `vendor`: the property has a vendor prefix. `parsed`: the value is known to the parser (and, for `transform`, has an equivalent
as an attribute); otherwise the property is `Unparsed`. -/
structure Decl (V : Type) where
  prop : String
  vendor : Bool
  parsed : Bool
  value : V

/-- The declarations of a `style` attribute. -/
structure Block (V : Type) where
  normal : List (Decl V)
  important : List (Decl V)

/-- attribute.rs (collections):2682-2732, the properties that have an attribute. -/
def table : List String :=
  ["clip-path", "clip-rule", "color", "color-interpolation", "color-interpolation-filters", "color-rendering", "cursor", "display", "fill",
    "fill-opacity", "fill-rule", "filter", "font", "font-family", "font-size", "font-stretch", "font-style", "font-weight", "image-rendering",
    "letter-spacing", "marker-end", "marker-mid", "marker-start", "marker", "mask", "opacity", "overflow", "shape-rendering", "stroke",
    "stroke-dasharray", "stroke-dashoffset", "stroke-linecap", "stroke-linejoin", "stroke-miterlimit", "stroke-opacity", "stroke-width",
    "text-decoration", "text-rendering", "transform", "transform-origin", "unicode-bidi", "visibility", "word-spacing"]

/-- attribute.rs (collections):2614-2641, `try_from`, as it is used in convert_style_to_attrs.rs:85-88: unknown and unparsed properties are not
taken. -/
def toAttr (d : Decl V) : Option (String × V) := if d.parsed && !d.vendor && table.contains d.prop then some (d.prop, d.value) else none

/-- convert_style_to_attrs.rs:89-97: a new attribute takes the place of one with the same name, or comes last. -/
def insert (new : List (String × V)) (a : String × V) : List (String × V) := match new with
  | [] => [a]
  | b :: new => if b.1 = a.1 then a :: new else b :: insert new a

/-- convert_style_to_attrs.rs:84-99, 101-103: what stays of the declarations, and the attributes so far. -/
def collect : List (Decl V) → List (String × V) → List (Decl V) × List (String × V)
  | [], new => ([], new)
  | d :: ds, new => match toAttr d with
    | none => (d :: (collect ds new).1, (collect ds new).2)
    | some a => collect ds (insert new a)

/-- What an attribute is. `other`: a `style` attribute that was not parsed, or anything else without an own name. -/
inductive Item (V : Type) where
  | style (b : Block V)
  | attr (name : String) (v : V)
  | other (v : V)

/-- The `style` attribute that is found (convert_style_to_attrs.rs:74-76). -/
def findStyle : List (Item V) → Option (Block V)
  | [] => none
  | .style b :: _ => some b
  | _ :: as => findStyle as

/-- The `style` attribute with other declarations, or removed (convert_style_to_attrs.rs:110-114). -/
def putStyle (b : Block V) : List (Item V) → List (Item V)
  | [] => []
  | .style _ :: as => if b.normal.isEmpty && b.important.isEmpty then as else .style b :: as
  | a :: as => a :: putStyle b as

/-- attribute.rs (ast), `set_named_item`: in the place of an attribute with this name, or last. -/
def setAttr (as : List (Item V)) (a : String × V) : List (Item V) := match as with
  | [] => [.attr a.1 a.2]
  | .attr n v :: as => if n = a.1 then .attr a.1 a.2 :: as else .attr n v :: setAttr as a
  | b :: as => b :: setAttr as a

/-- convert_style_to_attrs.rs:69-121, `element`; `mini` is `minify_style::style`. -/
def element (keepImportant : Bool) (mini : Block V → Block V) (as : List (Item V)) : List (Item V) := match findStyle as with
  | none => as
  | some b =>
    let b := mini b
    let r := collect b.normal []
    let i := if keepImportant then (b.important, r.2) else collect b.important r.2
    i.2.foldl setAttr (putStyle ⟨r.1, i.1⟩ as)

/-- A document; `leaf` is anything but an element. -/
inductive Node (V L : Type) where
  | leaf (l : L)
  | elem (name : String) (attrs : List (Item V)) (kids : List (Node V L))

variable {L : Type}

mutual
/-- visitor.rs:312-349, with this job. -/
def run (k : Bool) (mini : Block V → Block V) : Node V L → Node V L
  | .leaf l => .leaf l
  | .elem n as ks => .elem n (element k mini as) (runAll k mini ks)
def runAll (k : Bool) (mini : Block V → Block V) : List (Node V L) → List (Node V L)
  | [] => []
  | n :: ns => run k mini n :: runAll k mini ns
end

end Verif.StyleAttr
