import Verif.CleanAttrs.Model
import Verif.Names.Model

/-!
# Model: the jobs `addAttributesToSVGElement` and `addClassesToSVGElement`

`crates/oxvg_optimiser/src/jobs/add_attributes_to_s_v_g_element.rs`, `add_classes_to_s_v_g_element.rs`, and how names of attributes are looked up:
`crates/oxvg_ast/src/element.rs`, `crates/oxvg_ast/src/attribute.rs`, `crates/oxvg_collections/src/name.rs`. A panic is `none`.
-/

namespace Verif.RootAttrs

open Verif.Names (Str lit)
open Verif.CleanAttrs (splitWhitespace)

/-- name.rs:302-305. -/
def svgUri : Str := lit "http://www.w3.org/2000/svg"

/-- name.rs:314-317. -/
def xmlnsUri : Str := lit "http://www.w3.org/2000/xmlns/"

/-- An attribute: the prefix as written, the namespace, the local name, the value. The namespace of attributes without a prefix is the default namespace of
the element (roxmltree.rs:338-343). -/
structure Attr where
  pre : Option Str
  ns : Str
  loc : Str
  value : Str
  deriving DecidableEq

/-- The name as it is written (name.rs:288-295). -/
def Attr.written (a : Attr) : Str :=
  match a.pre with
  | some p => p ++ 58 :: a.loc
  | none => a.loc

/-- element.rs:129-160, `find_xmlns`, for a root element. -/
def findXmlns (as : List Attr) (pre : Option Str) : Str :=
  match as.find? fun a => match pre with
      | none => a.pre == none && a.loc == lit "xmlns"
      | some p => a.ns == xmlnsUri && a.loc == p with
  | some a => a.value
  | none => svgUri

/-- `str::split(':')`. -/
def splitColon : Str → List Str
  | [] => [[]]
  | c :: s =>
    if c = 58 then [] :: splitColon s
    else match splitColon s with
      | [] => [[c]]
      | w :: ws => (c :: w) :: ws

/-- name.rs:152-166, `Prefix::new`, as far as the namespace is concerned. -/
def nsOf (uri : Str) (pre : Option Str) : Str := if uri = [] ∧ pre = none then svgUri else uri

/-- element.rs:168-186, `parse_attr_id`, with the value. -/
def parse (as : List Attr) (name value : Str) : Option Attr :=
  match splitColon name with
  | [l] => some ⟨none, nsOf (findXmlns as none) none, l, value⟩
  | [p, l] => some ⟨some p, nsOf (findXmlns as (some p)) (some p), l, value⟩
  | _ => none

/-- attribute.rs (collections):509-519 and name.rs:335-339: names are the same if namespace and local name are. -/
def same (a b : Attr) : Bool := a.ns == b.ns && a.loc == b.loc

/-- add_attributes_to_s_v_g_element.rs:79-88; `set_named_item` (attribute.rs:222-233) finds no attribute to replace. -/
def addAll : List (Str × Str) → List Attr → Option (List Attr)
  | [], as => some as
  | (n, v) :: cfg, as =>
    match parse as n v with
    | none => none
    | some a => if as.any (same a) then addAll cfg as else addAll cfg (as ++ [a])

/-- A document; the name of an element is whether it is `svg`. -/
inductive Node (V : Type) where
  | leaf (v : V)
  | elem (svg : Bool) (name : V) (attrs : List Attr) (kids : List (Node V))

variable {V : Type}

mutual
/-- visitor.rs:312-349 with add_attributes_to_s_v_g_element.rs:70-90; `root`: `is_root` (element.rs:317-322). -/
def visit (f : List Attr → Option (List Attr)) (root : Bool) : Node V → Option (Node V)
  | .leaf v => some (.leaf v)
  | .elem s n as ks => do
    let bs ← if root && s then f as else some as
    let ls ← visitAll f false ks
    pure (.elem s n bs ls)
/-- visitor.rs:355-377. -/
def visitAll (f : List Attr → Option (List Attr)) (root : Bool) : List (Node V) → Option (List (Node V))
  | [] => some []
  | k :: ks => do
    let l ← visit f root k
    let ls ← visitAll f root ks
    pure (l :: ls)
end

/-- addAttributesToSVGElement. -/
def run (cfg : List (Str × Str)) (doc : List (Node V)) : Option (List (Node V)) := visitAll (addAll cfg) true doc

/-- The attribute `class` of the root element: none, one with another prefix (`Attr::Aliased`), or the classes. -/
inductive Class where
  | missing
  | aliased (l : List Str)
  | classes (l : List Str)

/-- add_classes_to_s_v_g_element.rs:75-83. -/
structure Options where
  classNames : Option (List Str)
  className : Option Str

/-- A list holds the elements of a set, in any order, each once. -/
structure Lists (l : List Str) (P : Str → Prop) : Prop where
  once : l.Nodup
  all : ∀ c, c ∈ l ↔ P c

/-- add_classes_to_s_v_g_element.rs:88-130, `element`, for the root element; the order of a `HashSet` is any. `none`: panic (attribute.rs:99-112,
`get_attribute_mut!`). -/
inductive AddClasses (o : Options) : Class → Option Class → Prop
  | missing : AddClasses o .missing (some .missing)
  | aliased (l : List Str) : AddClasses o (.aliased l) none
  | names {names l m : List Str} : o.classNames = some names → Lists m (fun c => c ∈ l ∨ c ∈ names) → AddClasses o (.classes l) (some (.classes m))
  | name {name : Str} {l : List Str} : o.classNames = none → o.className = some name → AddClasses o (.classes l) (some (.classes (splitWhitespace name)))
  | neither {l : List Str} : o.classNames = none → o.className = none → AddClasses o (.classes l) (some (.classes l))

end Verif.RootAttrs
