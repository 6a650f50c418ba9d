import Verif.Merge.Model

/-!
# The style sheets of a document
-/

namespace Verif.Merge

open Verif.Tree

variable {Q R B : Type}

mutual
/-- A rule within a media rule or behind the beginning, with the queries it is within, innermost first. -/
def Rule.within (qs : List Q) : Rule Q R → List (List Q × R)
  | .media q rs => withinAll (q :: qs) rs
  | .head _ => []
  | .other r => [(qs, r)]
def withinAll (qs : List Q) : List (Rule Q R) → List (List Q × R)
  | [] => []
  | r :: rs => r.within qs ++ withinAll qs rs
end

/-- CSS Cascade, 2 and CSS Namespaces, 3: what counts of a style sheet. Rules such as `@import` count before all others only. -/
def counting (qs : List Q) : List (Rule Q R) → List (List Q × R)
  | .head r :: rs => (qs, r) :: counting qs rs
  | rs => withinAll qs rs

/-- SVG 2, 6.2: the type of a style sheet is CSS if it is missing or empty or says so, in upper or lower case. -/
def IsCss (as : List (Attr Q B)) : Prop :=
  ∀ s, typeOf as = some s → s = [] ∨ s.map Char.toLower = "text/css".toList

/-- What counts of the text of a style element that `recover` reads as CSS does: what cannot be read is left out. -/
def contentOf (recover : List Char → List (Rule Q R)) : Node Q R B → List (Rule Q R)
  | .css rs => rs
  | .text s => recover s
  | _ => []

/-- What counts of a style element. A media query that cannot be read never holds. -/
def sheetOf (recover : List Char → List (Rule Q R)) (as : List (Attr Q B)) (ks : List (Node Q R B)) : List (List Q × R) :=
  match mediaOf as with
  | none => counting [] (ks.flatMap (contentOf recover))
  | some (some q) => counting [q] (ks.flatMap (contentOf recover))
  | some none => []

open Classical in
mutual
/-- The rules that count in a document, in order, with the queries under which they do. -/
noncomputable def rules (recover : List Char → List (Rule Q R)) : Node Q R B → List (List Q × R)
  | .elem n as ks => (if n.is "style" = true ∧ IsCss as then sheetOf recover as ks else []) ++ rulesAll recover ks
  | _ => []
noncomputable def rulesAll (recover : List Char → List (Rule Q R)) : List (Node Q R B) → List (List Q × R)
  | [] => []
  | n :: ns => rules recover n ++ rulesAll recover ns
end

mutual
/-- The nodes of a document, each with the elements around it, innermost first. -/
def nodes (anc : List (EName × List (Attr Q B))) : Node Q R B → List (List (EName × List (Attr Q B)) × Node Q R B)
  | .elem n as ks => (anc, .elem n as ks) :: nodesAll ((n, as) :: anc) ks
  | n => [(anc, n)]
def nodesAll (anc : List (EName × List (Attr Q B))) : List (Node Q R B) → List (List (EName × List (Attr Q B)) × Node Q R B)
  | [] => []
  | n :: ns => nodes anc n ++ nodesAll anc ns
end

end Verif.Merge
