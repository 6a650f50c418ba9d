import Verif.Sink.Model

/-! # Specification: what the names of a document stand for (Namespaces in XML 1.0) -/

namespace Verif.Sink

open Verif.Names

def svgUri : Str := lit "http://www.w3.org/2000/svg"
def xmlUri : Str := lit "http://www.w3.org/XML/1998/namespace"
def xmlnsUri : Str := lit "http://www.w3.org/2000/xmlns/"

/-- The namespace an element is meant to be in: a name without any is taken for one of SVG. -/
def meaning (n : Name) : Str := if n.pre = none ∧ n.uri = [] then svgUri else n.uri

/-- The namespaces that prefixes stand for at some place. -/
abbrev Scope := Option Str → Option Str

/-- Outside of the document only `xml` stands for something. -/
def top : Scope := fun p => if p = some (lit "xml") then some xmlUri else none

/-- What an attribute declares for a prefix. -/
def Attr.declares (p : Option Str) : Attr → Option Str
  | .decl q u => if q = p then some u else none
  | .own _ _ => none

/-- The namespaces in an element with the attributes. -/
def within (as : List Attr) (sc : Scope) : Scope := fun p => match as.findSome? (Attr.declares p) with
  | some u => some u
  | none => sc p

/-- No prefix is declared twice, and `xmlns` is not declared. -/
def Legal (as : List Attr) : Prop :=
  (as.Pairwise fun a b => ∀ p u v, ¬ (a = .decl p u ∧ b = .decl p v)) ∧ ∀ u, Attr.decl (some (lit "xmlns")) u ∉ as

/-- The name of an attribute that is no declaration, as it is written. -/
def Attr.written : Attr → Option (Option Str × Str)
  | .decl _ _ => none
  | .own p l => some (p.value, l)

mutual
/-- All elements and attributes are written with their names and, by the declarations around them, are in their namespaces. -/
def Kept (sc : Scope) : Elem → Out → Prop
  | .mk n as ks, .mk p l os outs => Legal os ∧ p.value = n.pre ∧ l = n.loc ∧ within os sc n.pre = some (meaning n) ∧
    os.filterMap Attr.written = as.map (fun a => (a.pre, a.loc)) ∧ (∀ a ∈ as, a.pre ≠ none → within os sc a.pre = some a.uri) ∧
    KeptAll (within os sc) ks outs
def KeptAll (sc : Scope) : List Elem → List Out → Prop
  | [], [] => True
  | e :: es, o :: os => Kept sc e o ∧ KeptAll sc es os
  | _, _ => False
end

mutual
/-- The names of all elements. -/
def elemNames : Elem → List Name
  | .mk n _ ks => n :: elemNamesAll ks
def elemNamesAll : List Elem → List Name
  | [] => []
  | k :: ks => elemNames k ++ elemNamesAll ks
end

mutual
/-- The names of all attributes. -/
def attrNames : Elem → List Name
  | .mk _ as ks => as ++ attrNamesAll ks
def attrNamesAll : List Elem → List Name
  | [] => []
  | k :: ks => attrNames k ++ attrNamesAll ks
end

/-- A name with its prefix bound as the recommendation allows, other than `xml`. -/
def Fair (n : Name) : Prop :=
  (n.pre ≠ none → n.uri ≠ []) ∧ n.pre ≠ some (lit "xmlns") ∧ n.pre ≠ some (lit "xml") ∧ n.uri ≠ xmlnsUri

/-- A document of which the prefixes are bound, without the prefix `xml`; attributes without a prefix are in no namespace. -/
def Bound (e : Elem) : Prop :=
  (∀ n ∈ elemNames e, Fair n) ∧ ∀ a ∈ attrNames e, Fair a ∧ (a.pre = none → a.uri = [])

def Elem.name : Elem → Name
  | .mk n _ _ => n

end Verif.Sink
