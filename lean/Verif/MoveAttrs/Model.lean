import Verif.Tree.Lemmas

/-!
# Model: moving attributes from the children to the group and from the group to the children

`crates/oxvg_optimiser/src/jobs/move_elems_attrs_to_group.rs`,
`crates/oxvg_optimiser/src/jobs/move_group_attrs_to_elems.rs`.

Attributes are reduced to what these jobs look at. `K` are the presentation attributes that are inherited
(`AttributeInfo::Inheritable`), `V` their values (parsed or not), `X` the functions of a transform list,
`N` the other attributes.
-/

namespace Verif.MoveAttrs

open Verif.Tree Verif.Names

/-- The value of a `transform` attribute: `Inheritable::Defined`, `Inheritable::Inherited`, or text that
could not be parsed (`Attr::Unparsed`). -/
inductive TVal (X : Type) where
  | defined (l : List X)
  | inherit
  | unparsed (s : List Char)
  deriving DecidableEq, Repr

/-- An attribute. A `style` attribute is the list of its declarations for inherited properties, and its
transform if there is one. -/
inductive GAttr (K V X N : Type) where
  | pres (k : K) (v : V)
  | transform (t : TVal X)
  | style (decls : List (K × V)) (t : Option (List X))
  | ident
  | other (n : N)
  deriving DecidableEq, Repr

/-- The name of an attribute (`AttrId`). -/
inductive GId (K N : Type) where
  | pres (k : K)
  | transform
  | style
  | ident
  | other (n : N)
  deriving DecidableEq, Repr

variable {K V X N : Type} [DecidableEq K] [DecidableEq V] [DecidableEq X] [DecidableEq N]

/-- attribute.rs (collections), `Attr::name`. -/
def GAttr.id : GAttr K V X N → GId K N
  | .pres k _ => .pres k
  | .transform _ => .transform
  | .style _ _ => .style
  | .ident => .ident
  | .other n => .other n

/-- attribute.rs (ast), `Attributes::get_named_item` (modelled in full in `Verif.Attrs`). -/
def getNamed (i : GId K N) (as : List (GAttr K V X N)) : Option (GAttr K V X N) := as.find? fun a => a.id == i

/-- attribute.rs (ast), `Attributes::remove_named_item`. -/
def removeNamed (i : GId K N) (as : List (GAttr K V X N)) : List (GAttr K V X N) := as.eraseP fun a => a.id == i

/-- attribute.rs (ast), `Attributes::set_named_item`: replaces in place or appends. -/
def setNamed (b : GAttr K V X N) : List (GAttr K V X N) → List (GAttr K V X N)
  | [] => [b]
  | a :: as => if a.id == b.id then b :: as else a :: setNamed b as

/-- What the jobs ask about names: elements with a `d` attribute among their expected attributes, and the
attributes `filter`, `clip-path`, `mask`. -/
structure Env (N : Type) where
  pathLike : EName → Bool
  passThrough : N → Bool

/-- move_elems_attrs_to_group.rs:114-117, the filter on the attributes of the first child. -/
def movable : GAttr K V X N → Bool
  | .pres _ _ => true
  | .transform _ => true
  | _ => false

/-- The attributes of a child element. -/
def elemAttrs : Node (GAttr K V X N) → Option (List (GAttr K V X N))
  | .elem _ as _ => some as
  | _ => none

/-- element.rs, `children_iter`: the attributes of the element children. -/
def childAttrs (ks : List (Node (GAttr K V X N))) : List (List (GAttr K V X N)) := ks.filterMap elemAttrs

/-- move_elems_attrs_to_group.rs:104-127, `get_common_attributes`. The map is kept in the order of the
first child's attributes instead of the order of names. -/
def common (ks : List (Node (GAttr K V X N))) : List (GAttr K V X N) :=
  match childAttrs ks with
  | [] => []
  | first :: rest => (first.filter movable).filter fun a =>
      (first :: rest).all fun as => getNamed a.id as == some a

/-- Whether the child is an element with a `d` attribute. -/
def isPathChild (E : Env N) : Node (GAttr K V X N) → Bool
  | .elem n _ _ => E.pathLike n
  | _ => true

/-- `has_attribute!(element, Filter | ClipPath | Mask)`. -/
def hasPassThrough (E : Env N) (as : List (GAttr K V X N)) : Bool := as.any fun a => match a with
  | .other n => E.passThrough n
  | _ => false

/-- Whether the attribute is `transform`. -/
def isTransform : GAttr K V X N → Bool
  | .transform _ => true
  | _ => false

/-- move_elems_attrs_to_group.rs:69-82. -/
def moved (E : Env N) (as : List (GAttr K V X N)) (ks : List (Node (GAttr K V X N))) : List (GAttr K V X N) :=
  if ks.all (isPathChild E) || hasPassThrough E as then (common ks).filter (!isTransform ·) else common ks

/-- The children lose the attributes of these names. -/
def loseAll (ms : List (GAttr K V X N)) (as : List (GAttr K V X N)) : List (GAttr K V X N) :=
  ms.foldl (fun as m => removeNamed m.id as) as

/-- move_elems_attrs_to_group.rs:84-88, on one child. -/
def strip (ms : List (GAttr K V X N)) : Node (GAttr K V X N) → Node (GAttr K V X N)
  | .elem n as ks => .elem n (loseAll ms as) ks
  | n => n

/-- move_elems_attrs_to_group.rs:94-100: the transform of the children is appended to that of the group. -/
def extendTransform (l : List X) (as : List (GAttr K V X N)) : List (GAttr K V X N) :=
  match getNamed .transform as with
  | some (.transform (.defined g)) => setNamed (.transform (.defined (g ++ l))) as
  | _ => setNamed (.transform (.defined l)) as

/-- move_elems_attrs_to_group.rs:89-101, the body of the loop. -/
def give (as : List (GAttr K V X N)) : GAttr K V X N → List (GAttr K V X N)
  | .transform (.defined l) => extendTransform l as
  | m => setNamed m as

/-- move_elems_attrs_to_group.rs:55-103, `exit_element`. -/
def exitElement (E : Env N) (n : EName) (as : List (GAttr K V X N)) (ks : List (Node (GAttr K V X N))) :
    Node (GAttr K V X N) :=
  if !n.is "g" then .elem n as ks
  else if (childAttrs ks).length < 2 then .elem n as ks
  else .elem n ((moved E as ks).foldl give as) (ks.map (strip (moved E as ks)))

mutual
/-- visitor.rs:312-377 with `exit_element` above. -/
def toGroup (E : Env N) : Node (GAttr K V X N) → Node (GAttr K V X N)
  | .elem n as ks => exitElement E n as (toGroupAll E ks)
  | .text s => .text s
  | .css s => .css s
  | .comment s => .comment s
  | .pi t d => .pi t d
def toGroupAll (E : Env N) : List (Node (GAttr K V X N)) → List (Node (GAttr K V X N))
  | [] => []
  | n :: ns => toGroup E n :: toGroupAll E ns
end

/-- move_elems_attrs_to_group.rs:38-53, `prepare`; whether there is a stylesheet (visitor.rs:404-420) is
an argument. -/
def moveElemsAttrs (E : Env N) (on stylesheet : Bool) (doc : List (Node (GAttr K V X N))) :
    List (Node (GAttr K V X N)) :=
  if on && !stylesheet then toGroupAll E doc else doc

/-! ## From the group to the children -/

/-- move_group_attrs_to_elems.rs:81-88, the elements that may not be given a transform. `Id` is
`GAttr.ident`. -/
def blocks (E : Env N) : Node (GAttr K V X N) → Bool
  | .elem n as _ => !(n.is "g" || n.is "text" || E.pathLike n) || (getNamed .ident as).isSome
  | _ => false

/-- move_group_attrs_to_elems.rs:96-104, on one child. -/
def pushDown (l : List X) : Node (GAttr K V X N) → Node (GAttr K V X N)
  | .elem n as ks => .elem n (match getNamed .transform as with
      | some (.transform (.defined c)) => setNamed (.transform (.defined (l ++ c))) as
      | _ => setNamed (.transform (.defined l)) as) ks
  | n => n

/-- move_group_attrs_to_elems.rs:89-104: what becomes of the group and its children, by the value of the
removed attribute. -/
def spread (n : EName) (as : List (GAttr K V X N)) (ks : List (Node (GAttr K V X N))) : Node (GAttr K V X N) :=
  match getNamed .transform as with
  | some (.transform (.defined l)) => .elem n (removeNamed .transform as) (ks.map (pushDown l))
  | some (.transform .inherit) => .elem n (setNamed (.transform .inherit) (removeNamed .transform as)) ks
  | some (.transform (.unparsed _)) => .elem n (removeNamed .transform as) ks
  | _ => .elem n as ks

/-- move_group_attrs_to_elems.rs:53-107, `element`. `refers` stands for the test on the values of the
attributes other than `id` (69-80: an id or a local URL is referenced), `white` for white space. -/
def enterElement (E : Env N) (white : Char → Bool) (refers : GAttr K V X N → Bool) (n : EName)
    (as : List (GAttr K V X N)) (ks : List (Node (GAttr K V X N))) : Node (GAttr K V X N) :=
  if !n.is "g" then .elem n as ks
  else if isEmpty white ks then .elem n as ks
  else if (getNamed .transform as).isNone then .elem n as ks
  else if as.any (fun a => a.id != .ident && refers a) then .elem n as ks
  else if ks.any (blocks E) then .elem n as ks
  else spread n as ks

/-- visitor.rs:312-377 with `element` above: the hook edits the element and its children, then the
children are visited. The recursion is on a bound for the depth (`depth`), because the children have been
edited. -/
def toElems (E : Env N) (white : Char → Bool) (refers : GAttr K V X N → Bool) : Nat → Node (GAttr K V X N) →
    Node (GAttr K V X N)
  | 0, n => n
  | fuel + 1, .elem n as ks => match enterElement E white refers n as ks with
    | .elem n' as' ks' => .elem n' as' (ks'.map (toElems E white refers fuel))
    | m => m
  | _ + 1, n => n

mutual
/-- The depth of a node, enough fuel for `toElems`. -/
def depth : Node (GAttr K V X N) → Nat
  | .elem _ _ ks => depthAll ks + 1
  | .text _ => 1
  | .css _ => 1
  | .comment _ => 1
  | .pi _ _ => 1
def depthAll : List (Node (GAttr K V X N)) → Nat
  | [] => 0
  | n :: ns => max (depth n) (depthAll ns)
end

/-- move_group_attrs_to_elems.rs:40-51, `prepare`, and the visit of the document. -/
def moveGroupAttrs (E : Env N) (white : Char → Bool) (refers : GAttr K V X N → Bool) (on : Bool)
    (doc : List (Node (GAttr K V X N))) : List (Node (GAttr K V X N)) :=
  if on then doc.map (fun n => toElems E white refers (depth n) n) else doc

end Verif.MoveAttrs
