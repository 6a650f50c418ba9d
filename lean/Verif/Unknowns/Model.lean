import Verif.Tree.Model
import Verif.Cascade.Model
import Verif.Unknowns.Tables

/-!
# Model: removing what is unknown and what is said anyway

`crates/oxvg_optimiser/src/jobs/remove_unknowns_and_defaults.rs`.

Attributes carry the id they got when they were parsed (element.rs, collections:321-343). Ids under an alias of the SVG
prefix are not modelled. Selectors see an element and its ancestors, not its siblings. The regular expression for
processing instructions is a parameter.
-/

namespace Verif.Unknowns

open Verif.Tree Verif.Names
open Verif.Cascade (Block Rule Level Computed Mode withAll takeOver get)

/-- attribute.rs:247-261, `AttrId`. -/
inductive AId where
  | known (k : Key)
  | other (pre : Prefix) (loc : Str)
  deriving DecidableEq

/-- attribute.rs:263-330, `Attr`: the `style` attribute has a block of declarations. -/
inductive Attr where
  | plain (id : AId) (val : Val)
  | style (b : Block Key Val)

/-- An element with its attributes. -/
abbrev E := EName × List Attr

/-- element.rs:157-167, `ElementId::new`; `none` is `ElementId::Unknown`. -/
def elementOf (n : EName) : Option El :=
  if n.pre.unaliased = .std .svg then El.all.find? (fun e => lit e.name == n.loc) else none

/-- element.rs:221-233, `is_permitted_child`, with 194-218 for unknown elements. No element has all categories. -/
def permitsChild (parent child : Option El) : Bool :=
  match parent with
  | none => true
  | some p => match p.permittedCategories with
    | none => true
    | some cs => match child with
      | none => false
      | some c => cs.any (· ∈ c.categories) || decide (c ∈ p.permittedElements)

/-- element.rs:257-266, `expected_attribute_groups`. -/
def groupsOf : Option El → List Group
  | none => [.XLink, .Core]
  | some e => .Presentation :: .Core :: e.groups

/-- element.rs:248-254, `expected_attributes`. -/
def expectedOf : Option El → List Key
  | none => []
  | some e => e.expected

/-- element.rs:236-245, `is_permitted_attribute`. No element has all groups; unknown attributes have none. -/
def permitsAttr (e : Option El) : AId → Bool
  | .known k => (groupsOf e).any (· ∈ k.groups) || decide (k ∈ expectedOf e)
  | .other _ _ => false

/-- remove_unknowns_and_defaults.rs:52-79. -/
structure Options where
  unknownContent : Bool
  unknownAttrs : Bool
  defaultAttrs : Bool
  markup : Bool
  overrides : Bool
  keepData : Bool
  keepAria : Bool
  keepRole : Bool

/-- remove_unknowns_and_defaults.rs:207, the prefixes that are kept. -/
def keptPrefix (p : Prefix) : Bool :=
  match p.unaliased with
  | .std .xml | .std .xlink | .std .xmlns => true
  | _ => match p with
    | .unknown .. => true
    | _ => false

/-- `str::starts_with`. -/
def startsWith (p s : Str) : Bool := p.isPrefixOf s

/-- remove_unknowns_and_defaults.rs:229-237, the value that is inherited. -/
def inheritedValue (inh : Computed Key Val) (k : Key) : Option (Val × Mode) :=
  if k.typed then get Key.inheritable inh k else none

/-- remove_unknowns_and_defaults.rs:255-263, a value that is the same and always so. -/
def sameStatic (v : Val) : Option (Val × Mode) → Bool
  | some (w, .static) => w == v
  | _ => false

/-- remove_unknowns_and_defaults.rs:201-269, whether an attribute is kept. The `style` attribute is in the group `Core` and
has no default. -/
def keeps (o : Options) (e : Option El) (hasId : Bool) (inh : Computed Key Val) : Attr → Bool
  | .style _ => true
  | .plain (.other p l) _ =>
    if keptPrefix p then true
    else if o.keepData && startsWith (lit "data-") l then true
    else if startsWith (lit "aria-") l then o.keepAria
    else !(o.unknownAttrs && !permitsAttr e (.other p l))
  | .plain (.known k) v =>
    if k.prefixed then true
    else if k.aria then o.keepAria
    else if k = .Role then o.keepRole
    else if o.unknownAttrs && decide (k ≠ .XMLNS) && !permitsAttr e (.known k) then false
    else if o.defaultAttrs && !hasId && (inheritedValue inh k).isNone && decide (k.standard = some v) then false
    else if o.overrides && !hasId && decide (Group.Presentation ∈ k.groups) && !k.alone && sameStatic v (inheritedValue inh k)
      then false
    else true

/-- `has_attribute!(element, Id)`. -/
def isId : Attr → Bool
  | .plain (.known .Id) _ => true
  | _ => false

/-- remove_unknowns_and_defaults.rs:193-270, `remove_unknown_and_default_attrs`. -/
def pruned (o : Options) (n : EName) (inh : Computed Key Val) (as : List Attr) : List Attr :=
  as.filter (keeps o (elementOf n) (as.any isId) inh)

/-- remove_unknowns_and_defaults.rs:169-191, `remove_unknown_content`: whether the element is removed. -/
def removes (o : Options) (anc : List E) (n : EName) : Bool :=
  o.unknownContent && ((elementOf n).isNone || match anc with
    | [] => false
    | p :: _ => !permitsChild (elementOf p.1) (elementOf n))

/-- style.rs:321-334, the presentation attributes of an element. -/
def presented : Attr → Option (Key × Val)
  | .plain (.known k) v => if Group.Presentation ∈ k.groups then some (k, v) else none
  | _ => none

/-- The block of a `style` attribute. -/
def blockOf : Attr → Option (Block Key Val)
  | .style b => some b
  | _ => none

/-- style.rs:321-345, `with_attribute` and `with_inline_style`. -/
def look : List E → Level Key Val
  | [] => ⟨[], none⟩
  | e :: _ => ⟨e.2.filterMap presented, e.2.findSome? blockOf⟩

/-- The ancestors of an element, each with its own ancestors. -/
def tails : List E → List (List E)
  | [] => []
  | e :: l => (e :: l) :: tails l

/-- What the job is run with: its options, what the selector engine says, the rules of the style sheets
(`query_has_stylesheet_result`), and what the regular expression leaves of a processing instruction. -/
structure Run (Sel C : Type) where
  options : Options
  test : List Sel → List E → Option Bool
  rules : List (Rule Key Val Sel C)
  standalone : Str → Str

variable {Sel C : Type}

/-- style.rs:189-252, `with_inherited`: the document node has no styles. -/
def inheritedOf (r : Run Sel C) : List E → Option (Computed Key Val)
  | [] => some .empty
  | p :: ps => (withAll r.test look r.rules (p :: ps) (tails ps)).map (takeOver .empty)

mutual
/-- visitor.rs:312-349 with remove_unknowns_and_defaults.rs:109-166: the hooks `element` and `processing_instruction`. An
element that was removed has no parent, and its children are visited. `none` is an error. -/
def visit (r : Run Sel C) (foreign : Bool) (anc : List E) : Node Attr → Option (List (Node Attr))
  | .elem n as ks =>
    if foreign || n.is "foreignObject" then
      (visitAll r true ((n, as) :: anc) ks).map fun ks' => [.elem n as ks']
    else if !n.pre.isEmpty then
      (visitAll r false ((n, as) :: anc) ks).map fun ks' => [.elem n as ks']
    else if removes r.options anc n then
      (visitAll r false [(n, pruned r.options n .empty as)] ks).map fun _ => []
    else match inheritedOf r anc with
      | none => none
      | some inh =>
        (visitAll r false ((n, pruned r.options n inh as) :: anc) ks).map fun ks' =>
          [.elem n (pruned r.options n inh as) ks']
  | .pi t d => some [.pi t (if r.options.markup then d.map r.standalone else d)]
  | .text s => some [.text s]
  | .css s => some [.css s]
  | .comment s => some [.comment s]
/-- visitor.rs:355-377, `visit_children`. -/
def visitAll (r : Run Sel C) (foreign : Bool) (anc : List E) : List (Node Attr) → Option (List (Node Attr))
  | [] => some []
  | n :: ns => match visit r foreign anc n, visitAll r foreign anc ns with
    | some a, some b => some (a ++ b)
    | _, _ => none
end

/-- The job on a document. -/
def job (r : Run Sel C) (doc : List (Node Attr)) : Option (List (Node Attr)) := visitAll r false [] doc

end Verif.Unknowns
