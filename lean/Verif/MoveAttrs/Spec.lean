import Verif.MoveAttrs.Model

/-!
# Vocabulary: what an element looks like

A specified value acts on the inherited one: an absolute value forgets it, `inherit` and text that is no
value keep it, a relative value (`2em`) makes something of it. A declaration in the `style` attribute wins
over a presentation attribute.
-/

namespace Verif.MoveAttrs

open Verif.Tree Verif.Names

variable {K V X N C : Type} [DecidableEq K] [DecidableEq V] [DecidableEq X] [DecidableEq N]

/-- The declaration of a property in the `style` attribute (the last one counts). -/
def declared (k : K) (as : List (GAttr K V X N)) : Option V := as.findSome? fun a => match a with
  | .style ds _ => (ds.reverse.find? fun d => d.1 == k).map (·.2)
  | _ => none

/-- The presentation attribute of a property. -/
def attributed (k : K) (as : List (GAttr K V X N)) : Option V := as.findSome? fun a => match a with
  | .pres k' v => if k' = k then some v else none
  | _ => none

/-- The transform in the `style` attribute. -/
def declaredT (as : List (GAttr K V X N)) : Option (List X) := as.findSome? fun a => match a with
  | .style _ t => t
  | _ => none

/-- The `transform` attribute. -/
def attributedT (as : List (GAttr K V X N)) : Option (TVal X) := as.findSome? fun a => match a with
  | .transform t => some t
  | _ => none

/-- The attributes other than presentation attributes and `transform`. -/
def rest (as : List (GAttr K V X N)) : List (GAttr K V X N) := as.filter fun a => match a with
  | .pres _ _ => false
  | .transform _ => false
  | _ => true

/-- What an element is given by its ancestors: the values of the inherited properties, the functions of
all their transforms in order, and the parent's own transform (for `transform="inherit"`). -/
structure Ctx (K X C : Type) where
  vals : K → C
  total : List X
  own : List X

/-- The own transform of an element. -/
def ownT (parent : List X) (as : List (GAttr K V X N)) : List X :=
  match declaredT as with
  | some l => l
  | none => match attributedT as with
    | some (.defined l) => l
    | some .inherit => parent
    | some (.unparsed _) => []
    | none => []

/-- The value of a property on an element. -/
def computed (act : K → V → C → C) (as : List (GAttr K V X N)) (k : K) (inherited : C) : C :=
  match declared k as with
  | some v => act k v inherited
  | none => match attributed k as with
    | some v => act k v inherited
    | none => inherited

/-- What an element gives to its children. -/
def Ctx.enter (act : K → V → C → C) (c : Ctx K X C) (as : List (GAttr K V X N)) : Ctx K X C where
  vals := fun k => computed act as k (c.vals k)
  total := c.total ++ ownT c.own as
  own := ownT c.own as

/-- What the ancestors (nearest first) give. -/
def ctxOf (act : K → V → C → C) (c : Ctx K X C) : List (Node (GAttr K V X N)) → Ctx K X C
  | [] => c
  | .elem _ as _ :: anc => (ctxOf act c anc).enter act as
  | _ :: anc => ctxOf act c anc

/-- What is seen of an element that is not a group: name, other attributes, values, transforms. -/
structure Seen (K V X N C : Type) where
  name : EName
  rest : List (GAttr K V X N)
  vals : K → C
  total : List X

/-- What is seen of the node at the end of the lineage. -/
def look (act : K → V → C → C) (c : Ctx K X C) : List (Node (GAttr K V X N)) → Option (Seen K V X N C)
  | .elem n as ks :: anc =>
    if n.is "g" then none
    else some ⟨n, rest as, (ctxOf act c (.elem n as ks :: anc)).vals, (ctxOf act c (.elem n as ks :: anc)).total⟩
  | _ => none

/-- What is seen of the document: all elements that are not groups, in order. -/
def seen (act : K → V → C → C) (c : Ctx K X C) (doc : List (Node (GAttr K V X N))) : List (Seen K V X N C) :=
  (lines doc).filterMap (look act c)

end Verif.MoveAttrs
