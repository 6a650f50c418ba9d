import Verif.Retain.Model
import Verif.Unknowns.Spec

/-!
# What attributes are for

Properties (`Verif.Unknowns.styleOf`), the language, conditions, animations, namespaces and selectors.
-/

namespace Verif.Retain

open Verif.Tree Verif.Names
open Verif.Unknowns (Key Val Attr AId E El Item property)

/-! ## Documents after an edit -/

/-- Elements before and after, with their ancestors, are related by `P`; other nodes are the same. -/
def Along (P : List E → List E → Prop) : Item → Item → Prop
  | .elem c, .elem c' => P c c'
  | .leaf a n, .leaf a' n' => a'.map (·.1) = a.map (·.1) ∧ n' = n
  | _, _ => False

/-- What an attribute is called. -/
def idOf : Attr → Option AId
  | .style _ => none
  | .plain i _ => some i

/-- No element has two attributes of the same name. -/
def Wellformed (doc : List (Node Attr)) : Prop :=
  ∀ e cs, .elem (e :: cs) ∈ Unknowns.content doc → (e.2.map idOf).Nodup

/-- The value of the first attribute with this id. -/
def valueOf (k : Key) (as : List Attr) : Option Val :=
  as.findSome? fun
    | .plain (.known l) v => if l = k then some v else none
    | _ => none

/-- Attributes that are properties and whose value is empty are invalid: they are as if they were not there. -/
def Invalid (a : Attr) : Prop := ∃ k, property a = some (k, .parts [])

instance (a : Attr) : Decidable (Invalid a) :=
  match h : property a with
  | some (k, .parts []) => isTrue ⟨k, h⟩
  | some (_, .parts (_ :: _)) => isFalse fun ⟨_, h'⟩ => by rw [h] at h'; simp at h'
  | some (_, .inherit) => isFalse fun ⟨_, h'⟩ => by rw [h] at h'; simp at h'
  | none => isFalse fun ⟨_, h'⟩ => by rw [h] at h'; simp at h'

/-- An element without the properties that are invalid. -/
def valid (e : E) : E := (e.1, e.2.filter fun a => ¬ Invalid a)

/-- The value of a property on the first of these elements; invalid attributes do not count. -/
def shown {Sel C : Type} (r : Unknowns.Run Sel C) (fonts : Val → List (Key × Val)) (holds : C → Bool) (c : List E)
    (k : Key) : Val :=
  Unknowns.styleOf r fonts holds (c.map valid) k

/-- The name of an element, its classes and its id; empty ones do not count. -/
def label (e : E) : EName × List (Key × Val) :=
  (e.1, e.2.filterMap fun
    | .plain (.known .Class) v => if v = .parts [] then none else some (.Class, v)
    | .plain (.known .Id) v => if v = .parts [] then none else some (.Id, v)
    | _ => none)

/-! ## Languages, conditions, namespaces and animations -/

/-- SVG 2, 5.10.4: the language of the first of these elements is what it or the nearest of the others says, `xml:lang`
before `lang`. -/
def language : List E → Option Val
  | [] => none
  | e :: cs => ((valueOf .XmlLang e.2).or (valueOf .Lang e.2)).or (language cs)

/-- SVG 2, 5.7: an element is not shown if one of its conditions is not met, and an empty list is not met. -/
def passes (met : Key → Val → Bool) (e : E) : Prop :=
  ∀ k ∈ [Key.RequiredFeatures, .RequiredExtensions, .SystemLanguage], ∀ v, valueOf k e.2 = some v → met k v = true

/-- Namespaces in XML, 6.2: what stands for names without a prefix on the first of these elements; empty for none. -/
def defaultNamespace : List E → Option Val
  | [] => none
  | e :: cs => (valueOf .XMLNS e.2).or (defaultNamespace cs)

/-- SVG Animations, 2.12: what a `set` or `animate` element does: it goes through a list of values, or through those
of `from`, `to` and `by`. -/
inductive Course where
  | listed (v : Val)
  | given (start' stop' step' : Option Val)

def course (e : E) : Course :=
  match valueOf .ValuesAnimate e.2 with
  | some v => .listed v
  | none => .given (valueOf .From e.2) (valueOf .To e.2) (valueOf .By e.2)

/-! ## Selectors -/

/-- The namespace of an attribute (empty for none), its local name and its value. `style` is left out. -/
def named : Attr → Option (Str × Str × Val)
  | .style _ => none
  | .plain (.known k) v => some (match k.pre with
    | some "xml" => lit "http://www.w3.org/XML/1998/namespace"
    | some "xlink" => lit "http://www.w3.org/1999/xlink"
    | _ => [], lit k.loc, v)
  | .plain (.other p l) v => some (if p.value = none then [] else p.ns.uri, l, v)

mutual
/-- Selectors 4, 6 and 4.3: whether a part of a selector is met by an element with these attributes. `rest` says so for
what has nothing to do with attributes. -/
def met (rest : Nat → Bool) (as : List Attr) : Comp → Bool
  | .present name => (as.filterMap named).any fun x => x.1 == [] && x.2.1 == name
  | .valued name ask => (as.filterMap named).any fun x => x.1 == [] && x.2.1 == name && ask x.2.2
  | .other .absent name ask => (as.filterMap named).any fun x => x.1 == [] && x.2.1 == name && ask x.2.2
  | .other .any name ask => (as.filterMap named).any fun x => x.2.1 == name && ask x.2.2
  | .other (.bound _ uri) name ask => (as.filterMap named).any fun x => x.1 == uri && x.2.1 == name && ask x.2.2
  | .without cs => !metAll rest as cs
  | .rest i => rest i
def metAll (rest : Nat → Bool) (as : List Attr) : List Comp → Bool
  | [] => true
  | c :: cs => met rest as c && metAll rest as cs
end

/-- A part of a selector that is understood: names are in lower case if only their presence is asked for, the
prefix `xml` is used for XML and nothing else, names that exist with the prefix `xml` are not asked for with any prefix, and
`:not` is not about attributes. -/
def Comp.Plain : Comp → Prop
  | .present name => ∀ c ∈ name, ¬ (65 ≤ c ∧ c ≤ 90)
  | .valued _ _ => True
  | .other .absent _ _ => True
  | .other .any name _ => name ∉ [lit "base", lit "lang", lit "space"]
  | .other (.bound p uri) _ _ => (p = lit "xml" ↔ uri = lit "http://www.w3.org/XML/1998/namespace") ∧ uri ≠ []
  | .without cs => ∀ c ∈ cs, ∃ i, c = .rest i
  | .rest _ => True

end Verif.Retain
