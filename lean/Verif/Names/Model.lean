/-!
# Model: namespaces, prefixes, attribute names and attributes

`crates/oxvg_collections/src/name.rs`, `crates/oxvg_collections/src/attribute.rs`,
`crates/oxvg_collections/src/element.rs`.

Strings are byte lists (Rust compares `str` bytewise).
-/

namespace Verif.Names

/-- Bytes of a string. -/
abbrev Str := List Nat

/-- Bytes of an ASCII literal. -/
def lit (s : String) : Str := s.toList.map Char.toNat

/-- name.rs:304-329, the prefixes generated by `define_prefix!`. -/
inductive StdNs
  | svg | html | xml | xmlns | xlink | mathml
  deriving DecidableEq, Repr

/-- All of them in the order of the macro call. -/
def StdNs.all : List StdNs := [.svg, .html, .xml, .xmlns, .xlink, .mathml]

/-- name.rs:304-329, `uri`. -/
def StdNs.uri : StdNs → Str
  | .svg => lit "http://www.w3.org/2000/svg"
  | .html => lit "http://www.w3.org/1999/xhtml"
  | .xml => lit "http://www.w3.org/XML/1998/namespace"
  | .xmlns => lit "http://www.w3.org/2000/xmlns/"
  | .xlink => lit "http://www.w3.org/1999/xlink"
  | .mathml => lit "http://www.w3.org/1998/Math/MathML"

/-- name.rs:304-329, `name` (`name_else!` 19-22). -/
def StdNs.name : StdNs → Option Str
  | .svg => none
  | .html => some (lit "html")
  | .xml => some (lit "xml")
  | .xmlns => some (lit "xmlns")
  | .xlink => some (lit "xlink")
  | .mathml => some (lit "mathml")

/-- name.rs:117-128, `NS`. -/
inductive NS
  | std (s : StdNs)
  | unknown (uri : Str)
  deriving DecidableEq, Repr

/-- name.rs:236-243, `NS::new`. -/
def NS.new (uri : Str) : NS :=
  match StdNs.all.find? (fun s => s.uri == uri) with
  | some s => .std s
  | none => .unknown uri

/-- name.rs:245-251, `NS::uri`. -/
def NS.uri : NS → Str
  | .std s => s.uri
  | .unknown u => u

/-- name.rs:78-116, `Prefix`. -/
inductive Prefix
  | std (s : StdNs)
  | unknown (prefix' : Option Str) (ns : NS)
  | aliased (inner : Prefix) (alias : Option Str)
  deriving DecidableEq, Repr

/-- name.rs:155-168, `Prefix::new`. The macro expands to the arms `(uri, name)` for each standard
prefix, then `(uri, _)` for each, then `("", None)`, then everything else. -/
def Prefix.new (ns : Str) (prefix' : Option Str) : Prefix :=
  match StdNs.all.find? (fun s => s.uri == ns && s.name == prefix') with
  | some s => .std s
  | none =>
    match StdNs.all.find? (fun s => s.uri == ns) with
    | some s => .aliased (.std s) prefix'
    | none => if ns == [] && prefix' == none then .std .svg else .unknown prefix' (NS.new ns)

/-- name.rs:177-183, `Prefix::value`. -/
def Prefix.value : Prefix → Option Str
  | .std s => s.name
  | .unknown p _ => p
  | .aliased _ a => a

/-- name.rs:186-192, `Prefix::ns`. -/
def Prefix.ns : Prefix → NS
  | .std s => .std s
  | .unknown _ ns => ns
  | .aliased p _ => p.ns

/-- name.rs:195-202, `Prefix::is_ns`. -/
def Prefix.isNs : Prefix → NS → Bool
  | .std s, .std t => s == t
  | .unknown _ ns, .unknown uri => ns.uri == uri
  | .aliased p _, ns => p.isNs ns
  | _, _ => false

/-- name.rs:345-349, `PartialEq for Prefix`. -/
def Prefix.eq (p q : Prefix) : Bool := p.isNs q.ns

/-- name.rs:208-210, `Prefix::is_empty`. -/
def Prefix.isEmpty (p : Prefix) : Bool := p.value.isNone

/-- name.rs:213-218, `Prefix::is_aliased`. -/
def Prefix.isAliased : Prefix → Bool
  | .aliased .. => true
  | _ => false

/-- name.rs:222-231, `Prefix::unaliased` (one level; the debug assertion is `Prefix.WF`). -/
def Prefix.unaliased : Prefix → Prefix
  | .aliased p _ => p
  | p => p

/-- The prefixes the constructor `Prefix::new` makes: an alias stands for a standard prefix, an unknown
prefix for a non-standard namespace (`Verif.Names.new_wf`). -/
def Prefix.WF : Prefix → Prop
  | .std _ => True
  | .unknown _ (.unknown u) => ∀ s : StdNs, s.uri ≠ u
  | .unknown _ (.std _) => False
  | .aliased (.std _) _ => True
  | .aliased _ _ => False

/-- The generated variants of `AttrId` are left abstract: a type `K` with the qualified name of every
variant (attribute.rs:195-221, `_qual_name`). Different variants may carry the same name
(attribute.rs:548-549), e.g. the `type` attribute of different elements. -/
structure Table (K : Type) where
  pre : K → StdNs
  loc : K → Str

/-- attribute.rs:247-261, `AttrId`. -/
inductive AttrId (K : Type)
  | known (k : K)
  | aliased (p : Prefix) (id : AttrId K)
  | unknown (p : Prefix) (loc : Str)
  deriving DecidableEq, Repr

variable {K V : Type}

/-- attribute.rs:332-338, `AttrId::prefix`. -/
def AttrId.prefix' (T : Table K) : AttrId K → Prefix
  | .known k => .std (T.pre k)
  | .aliased p _ => p
  | .unknown p _ => p

/-- attribute.rs:350-356, `AttrId::local_name`. -/
def AttrId.loc (T : Table K) : AttrId K → Str
  | .known k => T.loc k
  | .aliased _ i => i.loc T
  | .unknown _ l => l

/-- attribute.rs:2764-2775, `AttrId::unaliased`. -/
def AttrId.unaliased : AttrId K → AttrId K
  | .aliased _ i => i
  | i => i

/-- attribute.rs:509-519, `PartialEq for AttrId`; `QualName` equality is derived: prefix and local name
(name.rs:265). The arms for a doubly aliased id are `unreachable!()` in the code and excluded by
`AttrId.WF`; they are `false` here. -/
def AttrId.eq [DecidableEq K] (a b : AttrId K) : Bool :=
  match a.unaliased, b.unaliased with
  | .known k, .known l => k == l
  | .unknown p l, .unknown q m => p.eq q && l == m
  | _, _ => false

/-- attribute.rs:525-531, `Ord for AttrId`, with `Ord for Prefix` name.rs:351-355 (by `value`). The
derived order on `Option` puts `None` first. -/
def AttrId.cmp (T : Table K) (a b : AttrId K) : Ordering :=
  (compare (a.prefix' T).value (b.prefix' T).value).then (compare (a.loc T) (b.loc T))

/-- Ids that `parse_attr_id` makes (`parseAttrId_wf`): an alias stands for a known attribute of the same
namespace. -/
def AttrId.WF (T : Table K) : AttrId K → Prop
  | .known _ => True
  | .aliased p (.known k) => p.WF ∧ p.ns = .std (T.pre k)
  | .aliased _ _ => False
  | .unknown p _ => p.WF

/-- attribute.rs:306-334, `Attr`; the typed values are an abstract type `V`. -/
inductive Attr (K V : Type)
  | typed (k : K) (v : V)
  | aliased (p : Prefix) (a : Attr K V)
  | unparsed (id : AttrId K) (v : V)
  | cssUnknown (id : AttrId K) (v : V)
  deriving DecidableEq, Repr

/-- attribute.rs:424-431, `Attr::name`. -/
def Attr.name : Attr K V → AttrId K
  | .typed k _ => .known k
  | .aliased _ a => a.name
  | .unparsed i _ => i
  | .cssUnknown i _ => i

/-- attribute.rs:436-438, `Attr::local_name`. -/
def Attr.loc (T : Table K) (a : Attr K V) : Str := a.name.loc T

/-- attribute.rs:443-449, `Attr::prefix`. -/
def Attr.prefix' (T : Table K) : Attr K V → Prefix
  | .aliased p _ => p
  | .unparsed i _ => i.prefix' T
  | a => a.name.prefix' T

/-- attribute.rs:454-466, `Attr::value`. -/
def Attr.value : Attr K V → V
  | .typed _ v => v
  | .aliased _ a => a.value
  | .unparsed _ v => v
  | .cssUnknown _ v => v

/-- attribute.rs:400-421, `Attr::new`. The typed value is the result of a parser that may fail
(`parse k s`); raw text is kept otherwise (`raw s`). -/
def Attr.new {S : Type} (parse : K → S → Option V) (raw : S → V) : AttrId K → S → Attr K V
  | .known k, s => match parse k s with
    | some v => .typed k v
    | none => .unparsed (.known k) (raw s)
  | .aliased p i, s => .aliased p (Attr.new parse raw i s)
  | .unknown p l, s => .unparsed (.unknown p l) (raw s)

/-- Attributes that `Attr::new` makes from well-formed ids (`attrNew_wf`), and CSS ones with a
well-formed id. -/
def Attr.WF (T : Table K) : Attr K V → Prop
  | .typed _ _ => True
  | .aliased p (.typed k _) => p.WF ∧ p.ns = .std (T.pre k)
  | .aliased p (.unparsed (.known k) _) => p.WF ∧ p.ns = .std (T.pre k)
  | .aliased _ _ => False
  | .unparsed i _ => i.WF T
  | .cssUnknown i _ => i.WF T

/-- attribute.rs:2830-2857, `AttributeGroup::parse_attr_id` with `attrs` the attributes of the groups,
and element.rs:321-342 `ElementId::parse_attr_id` with `attrs` the element's expected attributes
followed by those of its groups (both look for the first match and wrap it alike). -/
def parseAttrId (T : Table K) (attrs : List K) (p : Prefix) (l : Str) : AttrId K :=
  match attrs.find? (fun k => (Prefix.std (T.pre k)).eq p && T.loc k == l) with
  | some k => if p.isAliased then .aliased p (.known k) else .known k
  | none => .unknown p l

end Verif.Names
