import Verif.Xlink.Model

/-!
# What the attributes of XLink mean to a reader

A reader takes `href` before `xlink:href`, `target` before `xlink:show`, and a `title` element before `xlink:title` (SVG 2, sections 16.1.6 and 5.8.3).
-/

namespace Verif.Xlink

open Verif.Tree
open Verif.Names (Str lit StdNs)

/-- The value of an attribute of XLink. -/
def xlinkOf (k : XK) (as : List Attr) : Option Str := as.findSome? fun a => match a with
  | .xlink j _ v => if j = k then some v else none
  | _ => none

def hrefOf (as : List Attr) : Option Str := as.findSome? fun a => match a with
  | .href v => some v
  | _ => none

def targetOf (as : List Attr) : Option Str := as.findSome? fun a => match a with
  | .target v => some v
  | _ => none

/-- What an element links to. -/
def link (as : List Attr) : Option Str := (hrefOf as).or (xlinkOf .href as)

/-- Where a link opens. -/
def opens (as : List Attr) : Str := (targetOf as).getD (if xlinkOf .shows as = some (lit "new") then lit "_blank" else lit "_self")

/-- The text of a node. -/
def wordsOf : Node Attr → List Char
  | .text s => s
  | _ => []

/-- The tooltip of an element: the text of its first `title`, or its `xlink:title`. -/
def tip (as : List Attr) (ks : List (Node Attr)) : Option (List Char) :=
  match ks.find? isTitle with
  | some t => some (t.kids.flatMap wordsOf)
  | none => (xlinkOf .title as).map (·.map Char.ofNat)

/-- The attributes the element may have that have nothing to do with XLink. -/
def isKnown : Attr → Bool
  | .known .. => true
  | _ => false

/-- A declaration of another namespace, or an attribute that is not known. -/
def isForeign : Attr → Bool
  | .decl _ u => u ≠ StdNs.uri .xlink
  | .unknown .. => true
  | _ => false

/-- A declaration of the namespace of XLink. -/
def isXDecl : Attr → Bool
  | .decl _ u => u = StdNs.uri .xlink
  | _ => false

def isX (k : XK) : Attr → Bool
  | .xlink j _ _ => j = k
  | _ => false

/-- What parsing ensures: no attribute twice, and `href` and `target` are no other attributes. -/
structure Wf (as : List Attr) : Prop where
  once : ∀ k, (as.filter (isX k)).length ≤ 1
  href : ∀ v, .known none (lit "href") v ∉ as
  target : ∀ v, .known none (lit "target") v ∉ as

/-- No attribute that is not known is called `href` or `target`. -/
def Clear (as : List Attr) : Prop := ∀ v, .unknown none (lit "href") v ∉ as ∧ .unknown none (lit "target") v ∉ as

mutual
/-- The nodes of both trees match: they are equal but for the attributes and nodes put before the children of elements, which are as `Q` says. -/
def Match (Q : EName → List Attr → List (Node Attr) → List Attr → List (Node Attr) → Prop) : Node Attr → Node Attr → Prop
  | .elem n as ks, m => ∃ as' new rest, m = .elem n as' (new ++ rest) ∧ Q n as ks as' new ∧ MatchAll Q ks rest
  | .text s, m => m = .text s
  | .css s, m => m = .css s
  | .comment s, m => m = .comment s
  | .pi t d, m => m = .pi t d
def MatchAll (Q : EName → List Attr → List (Node Attr) → List Attr → List (Node Attr) → Prop) : List (Node Attr) → List (Node Attr) → Prop
  | [], ms => ms = []
  | n :: ns, ms => ∃ m ms', ms = m :: ms' ∧ Match Q n m ∧ MatchAll Q ns ms'
end

mutual
/-- Every element satisfies `P`. -/
def Every (P : EName → List Attr → List (Node Attr) → Prop) : Node Attr → Prop
  | .elem n as ks => P n as ks ∧ EveryAll P ks
  | _ => True
def EveryAll (P : EName → List Attr → List (Node Attr) → Prop) : List (Node Attr) → Prop
  | [] => True
  | n :: ns => Every P n ∧ EveryAll P ns
end

/-- Whether an attribute of XLink stays. -/
def Stays (legacy : Bool) (n : EName) (as : List Attr) (ks : List (Node Attr)) : XK → Prop
  | .shows => ∃ v, xlinkOf .shows as = some v ∧ targetOf as = none ∧ v ≠ lit "new"
  | .title => (xlinkOf .title as).isSome ∧ ∃ k ∈ ks, isTitle k = true
  | .href => (xlinkOf .href as).isSome ∧ ((hrefOf as).isSome ∨ legacy = false ∧ isLegacy n = true)
  | _ => False

/-- A `target` beside an `xlink:show` with another prefix and a value that has no meaning. -/
def Bad (as : List Attr) : Prop := (targetOf as).isSome ∧
  ∃ p v, .xlink .shows p v ∈ as ∧ p ≠ lit "xlink" ∧ v ∉ ["new", "replace", "embed", "other", "none"].map lit

mutual
/-- Every attribute of XLink has a prefix that the element or one of its ancestors declares for XLink. -/
def Bound (scope : List (List Attr)) : Node Attr → Prop
  | .elem _ as ks => (∀ k p v, .xlink k p v ∈ as → ∃ bs ∈ as :: scope, .decl p (StdNs.uri .xlink) ∈ bs) ∧ BoundAll (as :: scope) ks
  | _ => True
def BoundAll (scope : List (List Attr)) : List (Node Attr) → Prop
  | [] => True
  | n :: ns => Bound scope n ∧ BoundAll scope ns
end

end Verif.Xlink
