import Verif.Collapse.Model

/-!
# What a document with groups draws

Without stylesheets. The picture is a list of the things that are drawn, from back to front, each with everything that its place in
the document says about it: the transforms that apply, the inherited properties, and the effects around it.
-/

namespace Verif.Collapse

open Verif.Tree Verif.Names Verif.Empty

variable {T V : Type}

/-- What is drawn: an element that is not a group, with its own attributes, the values of the inherited properties, the transforms
from the outside to the inside and its content; a text; or something drawn through an effect with a value, in a system of
coordinates where this matters. -/
inductive Pic (T V : Type) where
  | item (n : EName) (own : List (Attr T V)) (env : String → Option V) (t : List T) (kids : List (Pic T V))
  | text (s : List Char) (env : String → Option V)
  | effect (name : String) (v : Val T V) (t : Option (List T)) (kids : List (Pic T V))

/-- The value of the first attribute of a name. -/
def look : List (Attr T V) → AName → Option (Val T V)
  | [], _ => none
  | a :: as, n => if a.name = n then some a.val else look as n

/-- SVG 2, 8.5: the transforms of an element. -/
def ownXf (as : List (Attr T V)) : List T :=
  match look as (plainName "transform") with
  | some (.xf (some l)) => l
  | _ => []

/-- What the semantics of SVG is told: which properties are inherited, what a style declares, which values of `display` hide an
element, and which attributes have no effect on the picture. -/
structure Lang (V : Type) where
  inherited : String → Bool
  style : V → String → Option V
  hidden : V → Bool
  inert : AName → Bool

/-- What the style attribute declares for a property. -/
def declared (L : Lang V) (as : List (Attr T V)) (p : String) : Option V :=
  match look as (plainName "style") with
  | some (.plain s) => L.style s p
  | _ => none

/-- CSS 2.1, 6.2 and SVG 2, 6.6: the value of an inherited property of an element with these attributes whose parent has these
values. A style goes before an attribute. -/
def inherit (L : Lang V) (as : List (Attr T V)) (env : String → Option V) : String → Option V := fun p =>
  if L.inherited p then
    match declared L as p with
    | some v => some v
    | none =>
      match look as (plainName p) with
      | some (.inh (some v)) => some v
      | _ => env p
  else env p

/-- Attributes whose meaning is in the transforms, the inherited properties and the effects. -/
def isPlaced (L : Lang V) (n : AName) : Bool :=
  L.inert n || n == plainName "transform" || n == plainName "style" || (n.pre == "" && L.inherited n.loc) ||
    n == plainName "display" || n == plainName "opacity" || n == plainName "mask" || n == plainName "clip-path" ||
    n == plainName "filter"

/-- All other attributes. -/
def ownAttrs (L : Lang V) (as : List (Attr T V)) : List (Attr T V) := as.filter fun a => !isPlaced L a.name

/-- Whether `display` hides an element. -/
def isHidden (L : Lang V) (as : List (Attr T V)) : Bool :=
  match look as (plainName "display") with
  | some (.inh (some v)) => L.hidden v
  | _ => false

/-- What is drawn through an effect, if there is something. -/
def through (as : List (Attr T V)) (name : String) (t : Option (List T)) (l : List (Pic T V)) : List (Pic T V) :=
  match look as (plainName name) with
  | some v => if l.isEmpty then [] else [.effect name v t l]
  | none => l

/-- SVG 2, 3.6: an element is filtered, clipped, masked and made transparent, in this order. -/
def effects (L : Lang V) (as : List (Attr T V)) (t : List T) (core : List (Pic T V)) : List (Pic T V) :=
  if isHidden L as then []
  else through as "opacity" none (through as "mask" (some t) (through as "clip-path" (some t) (through as "filter" (some t) core)))

/-- SVG 2, 8.2: the content of these elements is drawn in the system of coordinates of what refers to them. -/
def isFresh (n : EName) : Bool :=
  among ["clipPath", "marker", "mask", "pattern", "symbol", "linearGradient", "radialGradient", "filter"] n

/-- Whether texts within an element show, given whether they show around it. -/
def textShows (n : EName) (b : Bool) : Bool :=
  if n.is "svg" then false
  else if among ["g", "a", "switch", "defs", "symbol", "marker", "mask", "clipPath", "pattern"] n then b
  else true

mutual
/-- What a node draws. -/
def pics (L : Lang V) (shows : Bool) (env : String → Option V) (t : List T) : Node (Attr T V) → List (Pic T V)
  | .elem n as ks =>
    let t' := (if isFresh n then [] else t) ++ ownXf as
    let env' := inherit L as env
    let k := picsAll L (textShows n shows) env' t' ks
    effects L as t' (if n.is "g" then k else [.item n (ownAttrs L as) env' t' k])
  | .text s => if shows then [.text s env] else []
  | .css s => if shows then [.text s env] else []
  | .comment _ => []
  | .pi _ _ => []
def picsAll (L : Lang V) (shows : Bool) (env : String → Option V) (t : List T) : List (Node (Attr T V)) → List (Pic T V)
  | [] => []
  | n :: ns => pics L shows env t n ++ picsAll L shows env t ns
end

/-- What a document draws. -/
def picture (L : Lang V) (doc : List (Node (Attr T V))) : List (Pic T V) := picsAll L false (fun _ => none) [] doc

/-! ## Documents for which groups may be collapsed -/

/-- The two effects of a group that may be given to its only child. -/
def loose (n : AName) : Prop := n = plainName "opacity" ∨ n = plainName "display"

/-- Attributes are named once, and have values of their types. -/
structure Typed (L : Lang V) (as : List (Attr T V)) : Prop where
  names : (as.map (·.name)).Nodup
  xf : ∀ a ∈ as, a.name = plainName "transform" → ∃ l, a.val = .xf (some l)
  inh : ∀ a ∈ as, a.name.pre = "" → L.inherited a.name.loc = true → ∃ o, a.val = .inh o
  loose : ∀ a ∈ as, loose a.name → ∃ v, a.val = .inh (some v)
  inert : ∀ a ∈ as, L.inert a.name = true → ∃ v, a.val = .plain v

/-- The attributes of a group are a transform, inherited properties, effects and attributes without an effect. -/
def GroupAttr (L : Lang V) (n : AName) : Prop :=
  n = plainName "transform" ∨ (n.pre = "" ∧ L.inherited n.loc = true) ∨ loose n ∨ n = plainName "mask" ∨
    n = plainName "clip-path" ∨ n = plainName "filter" ∨ L.inert n = true

mutual
/-- A tree is fit to be collapsed: no animations, no element transparent or with `display` within another, groups with known
attributes, not within texts, and with nothing in them that has its own system of coordinates. `taken` are the effects around the
tree, `inG` tells whether it is in a group. -/
def Fit (L : Lang V) (shows inG : Bool) (taken : AName → Prop) : Node (Attr T V) → Prop
  | .elem n as ks =>
    isAnimation n = false ∧ Typed L as ∧ (∀ a ∈ as, loose a.name → ¬ taken a.name) ∧
      (n.is "g" = true → shows = false ∧ ∀ a ∈ as, GroupAttr L a.name) ∧ (inG = true → isFresh n = false) ∧
      FitAll L (textShows n shows) (n.is "g") (fun m => taken m ∨ ∃ a ∈ as, a.name = m) ks
  | .text _ => True
  | .css _ => True
  | .comment _ => True
  | .pi _ _ => True
def FitAll (L : Lang V) (shows inG : Bool) (taken : AName → Prop) : List (Node (Attr T V)) → Prop
  | [] => True
  | n :: ns => Fit L shows inG taken n ∧ FitAll L shows inG taken ns
end

/-- The names are told apart: special names are neither inherited properties nor without an effect. -/
structure Lang.Sane (L : Lang V) : Prop where
  inherited : ∀ s ∈ ["transform", "style", "display", "opacity", "mask", "clip-path", "filter"], L.inherited s = false
  inert : ∀ s ∈ ["transform", "style", "display", "opacity", "mask", "clip-path", "filter"], L.inert (plainName s) = false
  apart : ∀ n : AName, L.inert n = true → ¬ (n.pre = "" ∧ L.inherited n.loc = true)

end Verif.Collapse
