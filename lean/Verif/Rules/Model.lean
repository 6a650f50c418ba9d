import Verif.Names.Model

/-!
# Model: the lint rules on single elements

`crates/oxvg_lint/src/rules/{no_deprecated,no_invalid_attributes,no_unknown_attributes,no_unknown_elements,no_xlink}.rs`, with
the reader of attributes (`crates/oxvg_ast/src/parse/roxmltree.rs`) as far as names, values and ranges go. The tables of the
elements and attributes and the parsers of values are parameters. Severities are in `Verif.Check`; the texts for help are
not modelled.
-/

namespace Verif.Rules

open Verif.Names

/-- A range of bytes. -/
abbrev Range := Nat × Nat

/-- oxvg_ast node.rs, `Ranges`. -/
structure Ranges where
  range : Range
  name : Range
  value : Range

/-- The tables of oxvg_collections (element.rs and attribute.rs, generated by macros) for elements `E`, attributes `K` and
values `V`. -/
structure Vocab (E K V : Type) where
  /-- The names of the attributes. -/
  names : Table K
  /-- `_attr_id::all`. -/
  all : List K
  /-- The names of the elements. -/
  elems : List (Str × E)
  /-- `ElementInfo::Legacy`. -/
  legacy : E → Bool
  /-- `AttributeInfo::DeprecatedSafe`. -/
  safe : K → Bool
  /-- `AttributeInfo::DeprecatedUnsafe`. -/
  notSafe : K → Bool
  /-- `expected_attributes`. -/
  expected : E → List K
  /-- `expected_attribute_groups` meets `attribute_group`. -/
  grouped : E → K → Bool
  /-- The same for an element that is not known (element.rs:263-266). -/
  groupedUnknown : K → Bool
  /-- `permitted_categories` holds all categories. -/
  permitsAll : E → Bool
  /-- The rest of `is_permitted_child` for two known elements. -/
  permits : E → E → Bool
  /-- `parse_string` for the type of the attribute. -/
  parse : K → Str → Option V
  /-- `Attr::Path`, `Attr::D`, `Attr::Points`. -/
  isPath : K → Bool
  /-- The content of a path that could not be parsed. -/
  rest : V → Option Str
  /-- `Attr::XMLNS`. -/
  xmlns : K
  /-- `Attr::XLinkShow`, `Attr::XLinkTitle`, `Attr::XLinkHref`. -/
  xlinkShow : K
  xlinkTitle : K
  xlinkHref : K
  /-- Whether a value of `xlink:show` is `replace` (`some true`) or `new` (`some false`). -/
  replaces : V → Option Bool
  /-- The value of an attribute that is kept as text. -/
  raw : Str → V

variable {E K V : Type}

/-- element.rs:97-113, `ElementId`. -/
inductive ElemId (E : Type)
  | known (e : E)
  | aliased (p : Prefix) (id : ElemId E)
  | unknown (p : Prefix) (loc : Str)

/-- element.rs:157-167, `ElementId::new`. -/
def ElemId.new (W : Vocab E K V) (p : Prefix) (loc : Str) : ElemId E :=
  match (if p.unaliased = .std .svg then W.elems.lookup loc else none) with
  | none => .unknown p loc
  | some e => if p.isAliased then .aliased p (.known e) else .known e

/-- element.rs:170-176, `ElementId::prefix`. -/
def ElemId.prefix' : ElemId E → Prefix
  | .known _ => .std .svg
  | .aliased p _ => p
  | .unknown p _ => p

/-- element.rs:248-254, `expected_attributes`. -/
def ElemId.expected (W : Vocab E K V) : ElemId E → List K
  | .known e => W.expected e
  | .aliased _ i => i.expected W
  | .unknown _ _ => []

/-- element.rs:257-267, `expected_attribute_groups` and whether they meet the groups of an attribute. -/
def ElemId.grouped (W : Vocab E K V) : ElemId E → K → Bool
  | .known e => W.grouped e
  | .aliased _ i => i.grouped W
  | .unknown _ _ => W.groupedUnknown

/-- element.rs:270-275, `ElementId::info`, as far as `Legacy` goes. -/
def ElemId.legacy (W : Vocab E K V) : ElemId E → Bool
  | .known e => W.legacy e
  | _ => false

/-- element.rs:347-356, `ElementId::unaliased`. -/
def ElemId.unaliased : ElemId E → ElemId E
  | .aliased _ i => i
  | i => i

/-- element.rs:221-235, `is_permitted_child`; elements that are not known permit all and have no category. -/
def ElemId.permits (W : Vocab E K V) (parent child : ElemId E) : Bool :=
  match parent.unaliased with
  | .known p =>
    W.permitsAll p ||
      match child.unaliased with
      | .known c => W.permits p c
      | _ => false
  | _ => true

/-- An attribute of the source as roxmltree gives it. -/
structure Src where
  ns : Option Str
  loc : Str
  value : Str
  ranges : Ranges

/-- roxmltree.rs:330-345, `parse_attr`; `pre` is the prefix that belongs to the namespace in the map of namespaces. -/
def readAttr (W : Vocab E K V) (pre : Option Str → Prefix) (e : ElemId E) (a : Src) : Attr K V :=
  Attr.new W.parse W.raw (parseAttrId W.names (e.expected W ++ W.all.filter (e.grouped W)) (pre a.ns) a.loc) a.value

/-- roxmltree.rs:384-399: the attribute of a declaration. -/
def xmlnsAttr (W : Vocab E K V) : Option Str × Str → Attr K V
  | (some p, u) => .unparsed (.unknown (.std .xmlns) p) (W.raw u)
  | (none, u) => .typed W.xmlns (W.raw u)

/-- What the rules get (rules/mod.rs:87-94, `RuleData`). -/
structure Data (E K V : Type) where
  parent : Option (ElemId E)
  element : ElemId E
  attrs : List (Attr K V)
  start : Nat
  ranges : List (AttrId K × Ranges)

/-- roxmltree.rs:225-243: a declaration comes first, the ranges are kept by name. -/
def readElem (W : Vocab E K V) (pre : Option Str → Prefix) (parent : Option (ElemId E)) (p : Prefix) (loc : Str) (start : Nat)
    (decls : List (Option Str × Str)) (as : List Src) : Data E K V :=
  let e := ElemId.new W p loc
  { parent := parent, element := e, start := start
    attrs := decls.map (xmlnsAttr W) ++ as.map (readAttr W pre e)
    ranges := as.foldl (fun m a => ((readAttr W pre e a).name, a.ranges) :: m) [] }

/-- `HashMap::get`; what was inserted last comes first. -/
def getRanges [DecidableEq K] (m : List (AttrId K × Ranges)) (i : AttrId K) : Option Ranges :=
  (m.find? fun e => e.1.eq i).map Prod.snd

/-- error.rs, `Problem`. -/
inductive Problem (E K : Type)
  | unknownAttr (a : AttrId K)
  | unknownElem (e : ElemId E)
  | oldElem (e : ElemId E)
  | oldAttr (a : AttrId K) (safe : Bool)
  | showReplace | showNew | title | href
  | xlink (a : AttrId K)
  | invalid (a : AttrId K)

/-- error.rs, `Error`. -/
structure Report (E K : Type) where
  problem : Problem E K
  range : Option Range

/-- attribute.rs:376-381, `AttrId::info`. -/
def infoOld (W : Vocab E K V) : AttrId K → Bool × Bool
  | .known k => (W.safe k, W.notSafe k)
  | _ => (false, false)

/-- no_deprecated.rs:8-47. -/
def noDeprecated [DecidableEq K] (W : Vocab E K V) (d : Data E K V) : List (Report E K) :=
  (if d.element.legacy W then [⟨.oldElem d.element, some (d.start, d.start)⟩] else []) ++
    d.attrs.filterMap fun a =>
      let i := infoOld W a.name
      if !(i.1 || i.2) then none
      else some ⟨.oldAttr a.name i.1, (getRanges d.ranges a.name).map (·.name)⟩

/-- attribute.rs:367-373 and element.rs: the check of no_unknown_attributes.rs:31-34. -/
def isExpected [DecidableEq K] (W : Vocab E K V) (e : ElemId E) (a : Attr K V) : Bool :=
  ((e.expected W).any fun k => (AttrId.known k).eq a.name) ||
    (match a.name.unaliased with | .known k => e.grouped W k | _ => false) ||
    (a.prefix' W.names).eq (.std .xmlns)

/-- no_unknown_attributes.rs:11-50. -/
def noUnknownAttrs [DecidableEq K] (W : Vocab E K V) (d : Data E K V) : List (Report E K) :=
  match d.element with
  | .unknown _ _ => []
  | e => d.attrs.filterMap fun a =>
      if isExpected W e a then none else some ⟨.unknownAttr a.name, (getRanges d.ranges a.name).map (·.range)⟩

/-- no_unknown_elements.rs:10-40. -/
def noUnknownElems (W : Vocab E K V) (d : Data E K V) : List (Report E K) :=
  match d.parent with
  | none => []
  | some parent =>
    if d.element.prefix'.unaliased ≠ .std .svg then []
    else if parent.permits W d.element then []
    else [⟨.unknownElem d.element, some (d.start, d.start)⟩]

/-- attribute.rs:2737-2746, `Attr::unaliased`. -/
def unaliased : Attr K V → Attr K V
  | .aliased _ a => a
  | a => a

/-- The `match` of no_xlink.rs:22-38. -/
def xlinkProblem [DecidableEq K] (W : Vocab E K V) (a : Attr K V) : Option (Problem E K) :=
  let other := if (a.name.prefix' W.names).unaliased = .std .xlink then some (Problem.xlink a.name) else none
  match unaliased a with
  | .typed k v =>
    if k = W.xlinkShow then
      match W.replaces v with
      | some true => some .showReplace
      | some false => some .showNew
      | none => other
    else if k = W.xlinkTitle then some .title
    else if k = W.xlinkHref then some .href
    else other
  | _ => other

/-- no_xlink.rs:11-48. -/
def noXlink [DecidableEq K] (W : Vocab E K V) (d : Data E K V) : List (Report E K) :=
  d.attrs.filterMap fun a => (xlinkProblem W a).map fun p => ⟨p, (getRanges d.ranges a.name).map (·.range)⟩

/-- The `match` of no_invalid_attributes.rs:23-50; the outer `none` is an underflow (a panic with checks for overflow, else
a range that starts behind the source, where showing the report panics). -/
def invalidReport [DecidableEq K] (W : Vocab E K V) (m : List (AttrId K × Ranges)) : Attr K V → Option (Option (Report E K))
  | .unparsed i _ =>
    match i with
    | .unknown _ _ => some none
    | i => some (some ⟨.invalid i, (getRanges m i).map (·.value)⟩)
  | .typed k v =>
    if W.isPath k then
      match W.rest v with
      | none => some none
      | some r =>
        match getRanges m (.known k) with
        | none => some (some ⟨.invalid (.known k), none⟩)
        | some rs =>
          if rs.value.2 < r.length then none
          else some (some ⟨.invalid (.known k), some (rs.value.2 - r.length, rs.value.2)⟩)
    else some none
  | _ => some none

/-- no_invalid_attributes.rs:11-52. -/
def noInvalid [DecidableEq K] (W : Vocab E K V) (d : Data E K V) : Option (List (Report E K)) :=
  (d.attrs.mapM (invalidReport W d.ranges)).map fun l => l.filterMap id

end Verif.Rules
