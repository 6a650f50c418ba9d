import Verif.Unpainted.Model
import Verif.Empty.Model

/-!
# Model: removing elements that are hidden

`crates/oxvg_optimiser/src/jobs/remove_hidden_elems.rs`.

Attributes are those of `Verif.Unknowns`. The computed styles (`Verif.Cascade`) are a parameter that depends on the document, whose
style sheets are read anew by each pass, and on an element with its ancestors. The nodes that the code collects are marked in the
tree.
-/

namespace Verif.Hidden

open Verif.Tree Verif.Names
open Verif.Unknowns (Key Val Attr AId E)
open Verif.Cascade (Mode)

/-- remove_hidden_elems.rs:50-96, with the defaults filled in (`unwrap_or(true)`). -/
structure Options where
  isHidden : Bool
  displayNone : Bool
  opacityZero : Bool
  circleR : Bool
  ellipseRx : Bool
  ellipseRy : Bool
  rectWidth : Bool
  rectHeight : Bool
  patternWidth : Bool
  patternHeight : Bool
  imageWidth : Bool
  imageHeight : Bool
  pathD : Bool
  polylinePoints : Bool
  polygonPoints : Bool

/-- Why the job may stop. -/
inductive Err where
  | panic
  | styles
  deriving DecidableEq

/-- The styles of an element by name, or an error. -/
abbrev Styles := List E → Option (Key → Option (Val × Mode))

/-- What is read from values: the text of ids and links, the number of commands of a path, the ids that an attribute refers to
(content_type.rs:243-362, `visit_url` with a `#`, and `visit_id`), whether a character is white space, and whether a link begins
with `javascript:`. -/
structure Reading where
  text : Val → List Char
  commands : Val → Nat
  refs : Attr → List (List Char)
  white : Char → Bool
  javascript : Val → Bool

/-- remove_hidden_elems.rs:98-106, what `Data` remembers about an element: that it is in `non_rendered_nodes` or `all_defs`, and
the ids under which it is in `references_by_id`. -/
structure Mark where
  non : Bool
  defs : Bool
  uses : List (List Char)

/-- A node that is not an element. -/
inductive Leaf where
  | text (s : List Char)
  | css (s : List Char)
  | comment (s : List Char)
  | pi (target : Str) (data : Option Str)

def Leaf.node : Leaf → Node Attr
  | .text s => .text s
  | .css s => .css s
  | .comment s => .comment s
  | .pi t d => .pi t d

/-- A document with marks. -/
inductive Marked where
  | elem (name : EName) (attrs : List Attr) (mark : Mark) (kids : List Marked)
  | leaf (l : Leaf)

/-- Nothing is remembered. -/
def Mark.blank : Mark := ⟨false, false, []⟩

mutual
/-- A tree without marks. -/
def marked : Node Attr → Marked
  | .elem n as ks => .elem n as Mark.blank (markedAll ks)
  | .text s => .leaf (.text s)
  | .css s => .leaf (.css s)
  | .comment s => .leaf (.comment s)
  | .pi t d => .leaf (.pi t d)
def markedAll : List (Node Attr) → List Marked
  | [] => []
  | n :: ns => marked n :: markedAll ns
end

mutual
/-- The tree itself. -/
def plain : Marked → Node Attr
  | .elem n as _ ks => .elem n as (plainAll ks)
  | .leaf l => l.node
def plainAll : List Marked → List (Node Attr)
  | [] => []
  | n :: ns => plain n :: plainAll ns
end

/-- Whether a child counts as an element. -/
def Marked.isElem : Marked → Bool
  | .elem .. => true
  | .leaf _ => false

/-- element.rs (ast):540-542, `child_element_count`. -/
def elements (l : List Marked) : Nat := (l.filter Marked.isElem).length

/-- node.rs:449-455: a text of white space. -/
def Leaf.blank (white : Char → Bool) : Leaf → Bool
  | .text s => isBlank white s
  | _ => false

/-- node.rs:449-455, `is_empty`, given the children. -/
def isEmpty (white : Char → Bool) (ks : List Marked) : Bool := ks.all fun
  | .leaf l => l.blank white
  | _ => false

/-- `get_attribute!`. -/
def attr (k : Key) (as : List Attr) : Option Val := as.findSome? fun
  | .plain (.known l) v => if l = k then some v else none
  | _ => none

/-- The id of an element. -/
def idsOf (rd : Reading) (as : List Attr) : List (List Char) := (attr .Id as).toList.map rd.text

/-- What a hook does with an element: the mark it gets, whether it is removed, whether that happens at once and not by
`remove_element`, whether its children are skipped, the ids it uses and the ids it refers to. -/
structure Verdict where
  mark : Mark
  gone : Bool := false
  direct : Bool := false
  skip : Bool := false
  uses : List (List Char) := []
  seen : List (List Char) := []

/-- What is collected: the keys of `references_by_id`, `removed_def_ids` and `all_references`. -/
structure Log where
  uses : List (List Char)
  removed : List (List Char)
  seen : List (List Char)

def Log.empty : Log := ⟨[], [], []⟩
def Log.add (a b : Log) : Log := ⟨a.uses ++ b.uses, a.removed ++ b.removed, a.seen ++ b.seen⟩

/-- A hook: the ancestors, the element, its mark and its children. -/
abbrev Decide := List E → EName → List Attr → Mark → List Marked → Except Err Verdict

mutual
/-- visitor.rs:312-349 with remove_hidden_elems.rs:166-181, `remove_element`. `inDefs` is whether the parent is a `defs`, `count` its
number of elements at that time. Gives what stays, whether the parent is removed, and what is collected. An element that is removed
has no ancestors any more when its children are visited; if its parent is removed it is still there. -/
def sweep (rd : Reading) (d : Decide) (anc : List E) (inDefs : Bool) (count : Nat) : Marked → Except Err (List Marked × Bool × Log)
  | .leaf n => .ok ([.leaf n], false, Log.empty)
  | .elem n as m ks =>
    match d anc n as m ks with
    | .error e => .error e
    | .ok v =>
      let viaDefs := v.gone && !v.direct && inDefs
      let parentGone := viaDefs && decide (count = 1)
      let ids := if viaDefs then idsOf rd as else []
      let anc' := if v.gone then (if parentGone then (n, as) :: anc.take 1 else [(n, as)]) else (n, as) :: anc
      if v.skip then .ok (if v.gone then [] else [.elem n as v.mark ks], parentGone, ⟨v.uses, ids, v.seen⟩)
      else match sweepAll rd d anc' (n.is "defs") 0 ks with
        | .error e => .error e
        | .ok (ks', here, log) =>
          .ok (if v.gone || here then [] else [.elem n as v.mark ks'], parentGone,
            Log.add ⟨v.uses, ids, v.seen⟩ log)
/-- visitor.rs:355-377, `visit_children`. `done` is how many of the elements before are left. -/
def sweepAll (rd : Reading) (d : Decide) (anc : List E) (inDefs : Bool) (done : Nat) : List Marked → Except Err (List Marked × Bool × Log)
  | [] => .ok ([], false, Log.empty)
  | m :: ms =>
    match sweep rd d anc inDefs (done + elements (m :: ms)) m with
    | .error e => .error e
    | .ok (a, g, l) =>
      match sweepAll rd d anc inDefs (done + elements a) ms with
      | .error e => .error e
      | .ok (b, h, l') => .ok (a ++ b, g || h, Log.add l l')
end

/-! ## The first pass -/

/-- The flag `NonRendering` (`Empty.nonRendering`); the flags of a name with another prefix are empty. -/
def nonRendering (n : EName) : Bool := n.pre == .std .svg && Empty.among Empty.nonRendering n

/-- `&value[1..]`: the first character must be there and be one byte long. -/
def behind : List Char → Except Err (List Char)
  | [] => .error .panic
  | c :: r => if c.val < 128 then .ok r else .error .panic

/-- remove_hidden_elems.rs:183-209, the ids that a `use` refers to. -/
def links (rd : Reading) : List Attr → Except Err (List (List Char))
  | [] => .ok []
  | .plain (.known k) v :: as =>
    if k = .Href ∨ k = .XLinkHref then
      match behind (rd.text v), links rd as with
      | .ok i, .ok is => .ok (i :: is)
      | .error e, _ => .error e
      | _, .error e => .error e
    else links rd as
  | _ :: as => links rd as

/-- A value that always holds. -/
def holds (s : Key → Option (Val × Mode)) (k : Key) (v : Val) : Bool := s k == some (v, .static)

/-- remove_hidden_elems.rs:125-162, `Data::element`. -/
def dataHook (o : Options) (rd : Reading) (st : Styles) : Decide := fun anc n as m _ =>
  if nonRendering n then .ok { mark := { m with non := true }, skip := true }
  else match (if n.is "use" then links rd as else .ok []) with
    | .error e => .error e
    | .ok us => match st ((n, as) :: anc) with
      | none => .error .styles
      | some s =>
        let mk : Mark := { m with defs := n.is "defs", uses := us }
        if o.opacityZero && holds s .Opacity (.parts [.num 0]) then
          if n.is "path" then .ok { mark := { mk with non := true }, skip := true, uses := us }
          else .ok { mark := mk, gone := true, uses := us }
        else .ok { mark := mk, uses := us }

/-! ## The second pass -/

mutual
/-- `breadth_first().any(…)` over the elements within one. The order does not matter. -/
def below (p : List Attr → Bool) : List Marked → Bool
  | [] => false
  | m :: ms => within p m || below p ms
def within (p : List Attr → Bool) : Marked → Bool
  | .leaf _ => false
  | .elem _ as _ ks => p as || below p ks
end

/-- The attribute `visibility` is `visible` or `inherit`. -/
def showsUp (as : List Attr) : Bool :=
  attr .Visibility as == some (.parts [.word "visible"]) || attr .Visibility as == some .inherit

/-- The element is used. -/
def isUsed (rd : Reading) (uses : List (List Char)) (as : List Attr) : Bool := (idsOf rd as).any (· ∈ uses)

/-- remove_hidden_elems.rs:345-356 and 358-364, `is_hidden` before references are looked at. -/
def styleHides (o : Options) (s : Key → Option (Val × Mode)) (n : EName) (ks : List Marked) : Bool :=
  (o.isHidden && holds s .Visibility (.parts [.word "hidden"]) && !below showsUp ks) ||
  (o.displayNone && (s .Display).any (fun d => d.1 == .parts [.word "none"]) && !n.is "marker")

/-- remove_hidden_elems.rs:338-385, `is_hidden_style`: the result, and whether children are skipped. -/
def hiddenStyle (o : Options) (rd : Reading) (uses : List (List Char)) (s : Key → Option (Val × Mode)) (n : EName) (as : List Attr)
    (ks : List Marked) : Bool × Bool :=
  if styleHides o s n ks then
    if isUsed rd uses as then (false, true) else (!below (isUsed rd uses) ks, false)
  else (false, false)

/-- lightningcss, `Length::to_px() == Some(0.0)` for a length that is not a percentage. -/
def zeroPx : Val → Bool
  | .parts [.num q] | .parts [.px q] => decide (q = 0)
  | .parts [.dim q u] => decide (q = 0) && ["in", "cm", "mm", "q", "pt", "pc"].contains u
  | _ => false

/-- An attribute that is zero. -/
def zero (k : Key) (as : List Attr) : Bool := (attr k as).any zeroPx

/-- remove_hidden_elems.rs:387-399, the part of `is_hidden_ellipse` for circles, which removes them at once. -/
def hiddenCircle (o : Options) (rd : Reading) (n : EName) (as : List Attr) (ks : List Marked) : Bool :=
  n.is "circle" && isEmpty rd.white ks && o.circleR && zero .RGeometry as

/-- remove_hidden_elems.rs:401-425, the part of `is_hidden_ellipse` for ellipses. -/
def hiddenEllipse (o : Options) (n : EName) (as : List Attr) : Bool :=
  n.is "ellipse" && ((o.ellipseRx && zero .RX as) || (o.ellipseRy && zero .RY as))

/-- remove_hidden_elems.rs:427-446, `is_hidden_rect`. -/
def hiddenRect (o : Options) (rd : Reading) (n : EName) (as : List Attr) (ks : List Marked) : Bool :=
  n.is "rect" && isEmpty rd.white ks && ((o.rectWidth && zero .WidthRect as) || (o.rectHeight && zero .HeightRect as))

/-- remove_hidden_elems.rs:448-467, `is_hidden_pattern`. -/
def hiddenPattern (o : Options) (n : EName) (as : List Attr) : Bool :=
  n.is "pattern" && ((o.patternWidth && zero .WidthPattern as) || (o.patternHeight && zero .HeightPattern as))

/-- remove_hidden_elems.rs:469-488, `is_hidden_image`. -/
def hiddenImage (o : Options) (n : EName) (as : List Attr) : Bool :=
  n.is "image" && ((o.imageWidth && zero .WidthImage as) || (o.imageHeight && zero .HeightImage as))

/-- remove_hidden_elems.rs:490-506, `is_hidden_path`. -/
def hiddenPath (o : Options) (rd : Reading) (s : Key → Option (Val × Mode)) (n : EName) (as : List Attr) : Bool :=
  o.pathD && n.is "path" && match attr .D as with
    | none => true
    | some d => rd.commands d == 0 || (rd.commands d == 1 && (s .MarkerStart).isNone && (s .MarkerEnd).isNone)

/-- remove_hidden_elems.rs:508-525, `is_hidden_poly`. -/
def hiddenPoly (o : Options) (n : EName) (as : List Attr) : Bool :=
  (o.polylinePoints && n.is "polyline" && (attr .Points as).isNone) ||
  (o.polygonPoints && n.is "polygon" && (attr .Points as).isNone)

/-- The attribute is not `id`. -/
def notId : Attr → Bool
  | .plain (.known k) _ => k != .Id
  | _ => true

/-- remove_hidden_elems.rs:248-286, `State::element`. -/
def stateHook (o : Options) (rd : Reading) (st : Styles) (uses : List (List Char)) : Decide := fun anc n as m ks =>
  match st ((n, as) :: anc) with
  | none => .error .styles
  | some s =>
    let h := hiddenStyle o rd uses s n as ks
    let circle := !h.1 && hiddenCircle o rd n as ks
    let gone := h.1 || circle || hiddenEllipse o n as || hiddenRect o rd n as ks || hiddenPattern o n as || hiddenImage o n as ||
      hiddenPath o rd s n as || hiddenPoly o n as
    .ok { mark := m, gone := gone, direct := circle, skip := h.2,
          seen := if gone then [] else (as.filter notId).flatMap rd.refs }

/-! ## The end -/

mutual
/-- remove_hidden_elems.rs:324-336, `can_remove_non_rendering_node`. -/
def canRemove (rd : Reading) (seen : List (List Char)) : Marked → Bool
  | .leaf _ => true
  | .elem _ as _ ks => !isUsed rd seen as && canRemoveAll rd seen ks
def canRemoveAll (rd : Reading) (seen : List (List Char)) : List Marked → Bool
  | [] => true
  | m :: ms => canRemove rd seen m && canRemoveAll rd seen ms
end

/-- remove_hidden_elems.rs:293-312: whether an element is removed as a use of something removed, or as a node that is not rendered.
The subtrees of nodes that are not rendered have no marks, so the order does not matter. -/
def cleared (rd : Reading) (removed seen : List (List Char)) (deoptimized : Bool) (n : EName) (as : List Attr) (m : Mark)
    (ks : List Marked) : Bool :=
  m.uses.any (· ∈ removed) || (!deoptimized && m.non && canRemove rd seen (.elem n as m ks))

mutual
/-- The tree without these elements. -/
def clear (rd : Reading) (removed seen : List (List Char)) (deoptimized : Bool) : Marked → List Marked
  | .leaf n => [.leaf n]
  | .elem n as m ks =>
    if cleared rd removed seen deoptimized n as m ks then [] else [.elem n as m (clearAll rd removed seen deoptimized ks)]
def clearAll (rd : Reading) (removed seen : List (List Char)) (deoptimized : Bool) : List Marked → List Marked
  | [] => []
  | m :: ms => clear rd removed seen deoptimized m ++ clearAll rd removed seen deoptimized ms
end

mutual
/-- remove_hidden_elems.rs:314-319: when a `defs` is removed for being empty. `all_defs` is a hash set with a random order, so `order`
says when the element at a path is looked at. -/
def goneAt (white : Char → Bool) (order : List Nat → Nat) (path : List Nat) : Marked → Option Nat
  | .leaf _ => none
  | .elem _ _ m ks => if m.defs && vacant white order (order path) path 0 ks then some (order path) else none
/-- Whether there are no children but white space and elements that were removed before. -/
def vacant (white : Char → Bool) (order : List Nat → Nat) (now : Nat) (path : List Nat) (i : Nat) : List Marked → Bool
  | [] => true
  | .leaf l :: ms => l.blank white && vacant white order now path (i + 1) ms
  | .elem n as mk ks :: ms => (goneAt white order (i :: path) (.elem n as mk ks)).any (decide <| · < now) &&
      vacant white order now path (i + 1) ms
end

mutual
/-- The tree without them. -/
def strip (white : Char → Bool) (order : List Nat → Nat) (path : List Nat) : Marked → List (Node Attr)
  | .leaf l => [l.node]
  | .elem n as m ks =>
    if (goneAt white order path (.elem n as m ks)).isSome then [] else [.elem n as (stripAll white order path 0 ks)]
def stripAll (white : Char → Bool) (order : List Nat → Nat) (path : List Nat) (i : Nat) : List Marked → List (Node Attr)
  | [] => []
  | m :: ms => strip white order (i :: path) m ++ stripAll white order path (i + 1) ms
end

/-- remove_hidden_elems.rs:212-323: the whole job. Scripts are looked for at the beginning, style sheets before each pass. -/
def job (o : Options) (rd : Reading) (st : List (Node Attr) → Styles) (order : List Nat → Nat) (doc : List (Node Attr)) :
    Except Err (List (Node Attr)) :=
  match sweepAll rd (dataHook o rd (st doc)) [] false 0 (markedAll doc) with
  | .error e => .error e
  | .ok (ms, _, l) =>
    match sweepAll rd (stateHook o rd (st (plainAll ms)) l.uses) [] false 0 ms with
    | .error e => .error e
    | .ok (ms', _, l') =>
      let deoptimized := Unpainted.hasScript rd.javascript doc || Unpainted.hasSheet (plainAll ms)
      .ok (stripAll rd.white order [] 0 (clearAll rd (l.removed ++ l'.removed) l'.seen deoptimized ms'))

end Verif.Hidden
