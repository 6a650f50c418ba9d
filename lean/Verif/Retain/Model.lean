import Verif.Viewport.Model
import Verif.Unknowns.Model
import Verif.Retain.Tables

/-!
# Model: jobs that remove attributes which say nothing

`crates/oxvg_optimiser/src/jobs/remove_empty_attrs.rs`, `remove_deprecated_attrs.rs`,
`remove_non_inheritable_group_attrs.rs`.

Attributes are those of `Verif.Unknowns`; a value that `ContentType::is_empty` calls empty (content_type.rs:194-240) has no
parts. Ids under an alias of a prefix are not modelled.
-/

namespace Verif.Retain

open Verif.Tree Verif.Names
open Verif.Unknowns (Key Val Attr AId E El Group elementOf)
open Verif.Viewport (editAll)

/-- content_type.rs:194-240, `is_empty`. -/
def isEmpty : Attr → Bool
  | .style b => b.declarations.isEmpty && b.important.isEmpty
  | .plain _ v => decide (v = .parts [])

/-- remove_empty_attrs.rs:52-60, whether an attribute is kept. Unknown attributes are in no group; `style` is not in this
one. -/
def keepsFilled : Attr → Bool
  | .plain (.known k) v => decide (.ConditionalProcessing ∈ k.groups) || !isEmpty (.plain (.known k) v)
  | a => !isEmpty a

/-- remove_empty_attrs.rs:32-63. The job does not fail. -/
def removeEmptyAttrs (on : Bool) (doc : List (Node Attr)) : List (Node Attr) :=
  if on then editAll (fun _ _ as => as.filter keepsFilled) true doc else doc

/-- remove_non_inheritable_group_attrs.rs:60-72, whether an attribute of a group is kept. The rows that are marked are
`Key.alone`, the rows of a type `Inheritable` are `Key.typed`. -/
def keepsOnGroup : Attr → Bool
  | .plain (.known k) _ =>
    if k = .VectorEffect then false else decide (.Presentation ∉ k.groups) || k.alone || k.typed
  | _ => true

/-- remove_non_inheritable_group_attrs.rs:52-75, `element`. -/
def groupHook (n : EName) (as : List Attr) : List Attr :=
  if elementOf n = some .G then as.filter keepsOnGroup else as

/-- remove_non_inheritable_group_attrs.rs:37-76. The job does not fail. -/
def removeGroupAttrs (on : Bool) (doc : List (Node Attr)) : List (Node Attr) :=
  if on then editAll (fun _ => groupHook) true doc else doc

/-- The namespace in an attribute selector: not given, any, or one with its prefix and URI (parcel_selectors,
`NamespaceConstraint`). -/
inductive Space where
  | absent
  | any
  | bound (pre uri : Str)

/-- The parts of a selector (parcel_selectors, `Component`): `[a]`, `[a=…]` for a name in lower case, `[ns|a=…]` and all
others of these, `:not(…)`, and whatever has nothing to do with attributes. What is asked of a value is a function. -/
inductive Comp where
  | present (name : Str)
  | valued (name : Str) (ask : Val → Bool)
  | other (ns : Space) (name : Str) (ask : Val → Bool)
  | without (cs : List Comp)
  | rest (i : Nat)

/-- `to_ascii_lowercase`. -/
def lower (s : Str) : Str := s.map fun c => if 65 ≤ c ∧ c ≤ 90 then c + 32 else c

/-- remove_deprecated_attrs.rs:42-55, the name that is collected from a part of a selector. -/
def collected : Comp → Option (Option Str × Str)
  | .present name => some (none, lower name)
  | .valued name _ => some (none, name)
  | .other .absent name _ => some (none, name)
  | .other .any name _ => some (none, name)
  | .other (.bound p _) name _ => some (some p, name)
  | .without _ => none
  | .rest _ => none

/-- remove_deprecated_attrs.rs:62-68, `AttrStylesheet::extract`, for the selectors of all rules. -/
def extract (sheet : List (List Comp)) : List (Option Str × Str) := sheet.flatMap (·.filterMap collected)

/-- remove_deprecated_attrs.rs:70-75, `contains_qual`. -/
def containsQual (names : List (Option Str × Str)) (k : Key) : Bool :=
  names.any fun x => decide (x.1 = k.pre.map lit) && decide (x.2 = lit k.loc)

/-- Whether an attribute has this id. -/
def isKey (k : Key) : Attr → Bool
  | .plain (.known l) _ => decide (l = k)
  | _ => false

/-- remove_deprecated_attrs.rs:149-162, `process_attributes`: whether an attribute is kept. Unknown attributes have no info,
and `style` is not deprecated. -/
def keepsCurrent (removeAny : Bool) (names : List (Option Str × Str)) : Attr → Bool
  | .plain (.known k) _ =>
    if containsQual names k then true else !(k.outdated || (removeAny && k.discouraged))
  | _ => true

/-- remove_deprecated_attrs.rs:120-144, `element`. attribute.rs (ast):212-216, `remove_named_item` removes the first one. -/
def deprecatedHook (removeAny : Bool) (names : List (Option Str × Str)) (as : List Attr) : List Attr :=
  let as' := if as.any (isKey .XmlLang) && as.any (isKey .Lang) && !containsQual names .XmlLang
    then as.eraseP (isKey .XmlLang) else as
  as'.filter (keepsCurrent removeAny names)

/-- remove_deprecated_attrs.rs:108-145, with the selectors of the style sheets (`query_has_stylesheet_result`). The job does
not fail. -/
def removeDeprecatedAttrs (removeAny : Bool) (sheet : List (List Comp)) (doc : List (Node Attr)) : List (Node Attr) :=
  editAll (fun _ _ => deprecatedHook removeAny (extract sheet)) true doc

end Verif.Retain
