import Verif.Empty.Model

/-!
# Model: collapsing groups

`crates/oxvg_optimiser/src/jobs/collapse_groups.rs`.

Simplified: attributes are named by a prefix and a local name. `T` are single transform functions, `V` all other values.
-/

namespace Verif.Collapse

open Verif.Tree Verif.Names Verif.Empty

variable {T V : Type} [DecidableEq T] [DecidableEq V]

/-- collections/name.rs, `QualName` of an attribute. -/
structure AName where
  pre : String
  loc : String
  deriving DecidableEq, Repr

/-- The attribute of this name without a prefix. -/
def plainName (s : String) : AName := ⟨"", s⟩

/-- collections/attribute.rs:2231-2602 and attribute/inheritable.rs:11-16: the value of a `transform`, of another attribute
of the type `Inheritable` (`none` is the keyword `inherit`), and any other value, also one that could not be parsed. -/
inductive Val (T V : Type) where
  | xf (o : Option (List T))
  | inh (o : Option V)
  | plain (v : V)
  deriving DecidableEq, Repr

/-- collections/attribute.rs, `Attr`. -/
structure Attr (T V : Type) where
  name : AName
  val : Val T V
  deriving DecidableEq, Repr

/-- ast/attribute.rs:171-177, `get_named_item_mut`. -/
def get (as : List (Attr T V)) (n : AName) : Option (Attr T V) := as.find? (·.name == n)

/-- ast/attribute.rs:49-59, `has_attribute!`. -/
def has (as : List (Attr T V)) (s : String) : Bool := as.any (·.name == plainName s)

/-- Writing through the reference of `get_named_item_mut`: the first attribute of the name gets the value. -/
def put (as : List (Attr T V)) (n : AName) (v : Val T V) : List (Attr T V) :=
  match as with
  | [] => []
  | a :: as => if a.name = n then ⟨n, v⟩ :: as else a :: put as n v

/-- ast/attribute.rs:212-216, `remove_named_item`. -/
def drop (as : List (Attr T V)) (n : AName) : List (Attr T V) := as.eraseP (·.name == n)

/-- What can go wrong: borrowing attributes that are being changed (`RefCell`). -/
inductive Panic where
  | borrowed
  deriving DecidableEq, Repr

/-- collections/element.rs:465, 483, 498, 520, 1259, 1534, 1759: the elements of the category `Animation`. -/
def isAnimation (n : EName) : Bool :=
  among ["animate", "animateColor", "animateMotion", "animateTransform", "hatch", "mpath", "set"] n

/-- ast/element.rs:79-84, `Element::new`. -/
def isElem : Node (Attr T V) → Bool
  | .elem _ _ _ => true
  | _ => false

mutual
/-- Whether an element of a tree has a property. ast/element.rs:829-849, `breadth_first`, comes to every element below
(C06); the order does not matter to `any`. -/
def anyElem (p : EName → List (Attr T V) → Bool) : Node (Attr T V) → Bool
  | .elem n as ks => p n as || anyElems p ks
  | .text _ => false
  | .css _ => false
  | .comment _ => false
  | .pi _ _ => false
def anyElems (p : EName → List (Attr T V) → Bool) : List (Node (Attr T V)) → Bool
  | [] => false
  | n :: ns => anyElem p n || anyElems p ns
end

/-- collapse_groups.rs:183-190: an animation of the attribute. `word` is the value of `attributeName`. -/
def animates (word : String → V) (loc : String) (n : EName) (as : List (Attr T V)) : Bool :=
  isAnimation n && (get as (plainName "attributeName")).any (fun a => a.val == .plain (word loc))

/-- collapse_groups.rs:195-200, `is_group_identifiable`. -/
def identifiable (g c : List (Attr T V)) : Bool := has c "id" && (!has g "class" || !has c "class")

/-- collapse_groups.rs:202-209, `is_position_visually_unstable`. -/
def unstable (g : List (Attr T V)) (n : EName) (c : List (Attr T V)) : Bool :=
  (has g "clip-path" || has g "mask") || (n.is "g" && has c "transform")

/-- collapse_groups.rs:211-215, `is_node_with_filter`. `styleFilter` tells whether a style declares a filter. -/
def withFilter (styleFilter : V → Bool) (g : List (Attr T V)) : Bool :=
  has g "filter" || (get g (plainName "style")).any fun a => match a.val with
    | .plain v => styleFilter v
    | _ => false

/-- How the loop over the attributes ends. -/
inductive Stop where
  | done
  | early
  deriving DecidableEq, Repr

/-- collapse_groups.rs:116-149: the loop over the attributes of the group. The result is the attributes of the group with
their new values, those of the child, and the names to be removed; `early` is the `return` of line 121. -/
def loop (animated : List (Attr T V) → String → Bool) (childAnim : Bool) : List (Attr T V) → List (Attr T V) → List AName →
    Except Panic (List (Attr T V) × List (Attr T V) × List AName × Stop)
  | [], c, rm => .ok ([], c, rm, .done)
  | a :: as, c, rm =>
    -- 117-122: `has_animated_attr` borrows the attributes of the child, if the child is an animation
    if (get c a.name).isSome && childAnim then .error .borrowed
    else if animated c a.name.loc then .ok (a :: as, c, rm, .early)
    else
      let next (a' : Attr T V) (c' : List (Attr T V)) :=
        match loop animated childAnim as c' (rm ++ [a.name]) with
        | .ok (g, r) => .ok (a' :: g, r)
        | .error e => .error e
      match get c a.name with
      | none => next a (c ++ [a])
      | some b =>
        match a.val, b.val with
        | .xf (some l), .xf (some m) => next ⟨a.name, .xf (some [])⟩ (put c a.name (.xf (some (l ++ m))))
        | .xf (some _), _ => next a c
        | _, .xf none => next a (put c a.name a.val)
        | _, .inh none => next a (put c a.name a.val)
        | _, .xf (some _) => next a c
        | _, .inh (some _) => next a c
        | v, .plain w => if v = .plain w then next a c else .ok (a :: as, c, rm, .done)

/-- collapse_groups.rs:87-154, `move_attributes_to_child`, for the only child element of a group. -/
def moveAttrs (word : String → V) (styleFilter : V → Bool) (g : List (Attr T V)) (n : EName) (c : List (Attr T V))
    (ks : List (Node (Attr T V))) : Except Panic (List (Attr T V) × List (Attr T V)) :=
  if g.isEmpty then .ok (g, c)
  else if identifiable g c then .ok (g, c)
  else if unstable g n c then .ok (g, c)
  else if withFilter styleFilter g then .ok (g, c)
  else
    -- 181-193, `has_animated_attr`
    match loop (fun c loc => anyElem (animates word loc) (.elem n c ks)) (isAnimation n) g c [] with
    | .error e => .error e
    | .ok (g', c', _, .early) => .ok (g', c')
    | .ok (g', c', rm, .done) => .ok (rm.foldl drop g', c')

/-- The only element among the children, if there is only one. -/
def only (ks : List (Node (Attr T V))) : Option (EName × List (Attr T V) × List (Node (Attr T V))) :=
  match ks.filter isElem with
  | [.elem n as k] => some (n, as, k)
  | _ => none

/-- The attributes of the only element among the children are replaced. -/
def setOnly (as : List (Attr T V)) (ks : List (Node (Attr T V))) : List (Node (Attr T V)) :=
  ks.map fun k => match k with
    | .elem n _ k => .elem n as k
    | k => k

/-- collapse_groups.rs:57-77, `exit_element` with 156-179, `flatten_when_all_attributes_moved`: what takes the place of
an element whose children have been visited. `parent` is the name of the parent, if it is an element. -/
def exit (word : String → V) (styleFilter : V → Bool) (parent : Option EName) (n : EName) (as : List (Attr T V))
    (ks : List (Node (Attr T V))) : Except Panic (List (Node (Attr T V))) :=
  match parent with
  | none => .ok [.elem n as ks]
  | some p =>
    if p.is "switch" then .ok [.elem n as ks]
    else if !n.is "g" || !ks.any isElem then .ok [.elem n as ks]
    else
      let flatten (as : List (Attr T V)) (ks : List (Node (Attr T V))) :=
        if !as.isEmpty then [.elem n as ks]
        else if anyElems (fun m _ => isAnimation m) ks then [.elem n as ks]
        else ks
      match only ks with
      | none => .ok (flatten as ks)
      | some (m, c, k) =>
        match moveAttrs word styleFilter as m c k with
        | .error e => .error e
        | .ok (as', c') => .ok (flatten as' (setOnly c' ks))

mutual
/-- visitor.rs:312-349, `Visitor::visit` for a job with only `exit_element`. -/
def run (word : String → V) (styleFilter : V → Bool) (parent : Option EName) :
    Node (Attr T V) → Except Panic (List (Node (Attr T V)))
  | .elem n as ks =>
    match runAll word styleFilter (some n) ks with
    | .error e => .error e
    | .ok ks' => exit word styleFilter parent n as ks'
  | .text s => .ok [.text s]
  | .css s => .ok [.css s]
  | .comment s => .ok [.comment s]
  | .pi t d => .ok [.pi t d]
/-- visitor.rs:355-377, `Visitor::visit_children`. -/
def runAll (word : String → V) (styleFilter : V → Bool) (parent : Option EName) :
    List (Node (Attr T V)) → Except Panic (List (Node (Attr T V)))
  | [] => .ok []
  | n :: ns =>
    match run word styleFilter parent n with
    | .error e => .error e
    | .ok a =>
      match runAll word styleFilter parent ns with
      | .error e => .error e
      | .ok b => .ok (a ++ b)
end

/-- collapse_groups.rs:45-55. -/
def collapseGroups (word : String → V) (styleFilter : V → Bool) (on : Bool) (doc : List (Node (Attr T V))) :
    Except Panic (List (Node (Attr T V))) := if on then runAll word styleFilter none doc else .ok doc

end Verif.Collapse
