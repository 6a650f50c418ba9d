import Verif.Names.Model

/-!
# Model: the job `convertOneStopGradients`

`crates/oxvg_optimiser/src/jobs/convert_one_stop_gradients.rs`. A panic is `none`. The job visits the document and changes it at once; here the walk
follows the document as it was, and the state holds the document as it is. The two have the same elements ahead of the walk: only elements that have been
visited are detached. An `svg` element within a gradient is the exception, and is not modelled.
-/

namespace Verif.Gradients

open Verif.Names (Str)

/-- The kinds of elements that matter (`is_element!`). -/
inductive Kind where
  | gradient
  | stop
  | defs
  | svg
  | other
  deriving DecidableEq

/-- `SVGPaint`, of attributes with paint and of `fill` and `stroke` in style attributes; a url has a fallback. -/
inductive Paint (C V : Type) where
  | color (c : C)
  | url (u : Str) (fallback : Option V)
  | rest (v : V)
  deriving DecidableEq

/-- An element: `id`, `href`, `xlink:href`, the paints, whether it declares the prefix `xlink`, what `get_color` (199-219) finds for a stop, and the rest. -/
structure Elem (C V : Type) where
  id : Option Str
  href : Option Str
  xlink : Option Str
  paints : List (Paint C V)
  decl : Bool
  color : Option C
  rest : V
  deriving DecidableEq

/-- A document; the number of an element is its `AllocationID`. A leaf is any other node, with the paints in it if it is a style sheet. -/
inductive Node (C V : Type) where
  | leaf (v : V) (sheet : List (Paint C V))
  | elem (h : Nat) (k : Kind) (e : Elem C V) (kids : List (Node C V))

variable {C V : Type}

/-- `children_iter` of element.rs, for a node. -/
def isElem : Node C V → Bool
  | .leaf .. => false
  | .elem .. => true

/-- The children of a node. -/
def kids : Node C V → List (Node C V)
  | .leaf .. => []
  | .elem _ _ _ ks => ks

/-- The `id` of a node. -/
def idOf : Node C V → Option Str
  | .leaf .. => none
  | .elem _ _ e _ => e.id

/-- All elements, in document order. -/
def elems : List (Node C V) → List (Node C V)
  | [] => []
  | .leaf _ _ :: ns => elems ns
  | .elem h k e ks :: ns => .elem h k e ks :: (elems ks ++ elems ns)

/-- The elements at one depth. -/
def atDepth : Nat → List (Node C V) → List (Node C V)
  | 0, l => l.filter isElem
  | n + 1, l => atDepth n (l.flatMap kids)

/-- element.rs:706, `breadth_first`: depth after depth. -/
def breadthFirst (doc : List (Node C V)) : List (Node C V) := (List.range (elems doc).length).flatMap fun n => atDepth n doc

/-- convert_one_stop_gradients.rs:231-241 and 255-269: urls are compared as text. -/
def repaint (i : Str) (c : C) : Paint C V → Paint C V
  | .url u f => if u = 35 :: i then .color c else .url u f
  | p => p

/-- convert_one_stop_gradients.rs:221-243 and 271-285, `update_color_references` and `update_style_references`; style sheets stay. -/
def update (i : Str) (c : C) : List (Node C V) → List (Node C V)
  | [] => []
  | .leaf v s :: ns => .leaf v s :: update i c ns
  | .elem h k e ks :: ns => .elem h k { e with paints := e.paints.map (repaint i c) } (update i c ks) :: update i c ns

/-- node.rs:593, `remove`, for all elements with `p`. -/
def detach (p : Nat → Bool) : List (Node C V) → List (Node C V)
  | [] => []
  | .leaf v s :: ns => .leaf v s :: detach p ns
  | .elem h k e ks :: ns => if p h then detach p ns else .elem h k e (detach p ks) :: detach p ns

/-- convert_one_stop_gradients.rs:181-186: the declaration is removed from one element. -/
def undeclare (g : Nat) : List (Node C V) → List (Node C V)
  | [] => []
  | .leaf v s :: ns => .leaf v s :: undeclare g ns
  | .elem h k e ks :: ns => .elem h k (if h = g then { e with decl := false } else e) (undeclare g ks) :: undeclare g ns

/-- convert_one_stop_gradients.rs:52-60. -/
structure State (C V : Type) where
  doc : List (Node C V)
  detached : List (Nat × Bool)
  defs : List Nat
  affected : List Nat
  count : Nat

/-- Whether a node is a stop. -/
def isStop : Node C V → Bool
  | .elem _ .stop _ _ => true
  | _ => false

/-- What `get_color` finds for a node. -/
def colorOf : Node C V → Option C
  | .leaf .. => none
  | .elem _ _ e _ => e.color

/-- convert_one_stop_gradients.rs:103-124: the children of the effective node. -/
def effective (doc : List (Node C V)) (e : Elem C V) (ks : List (Node C V)) : Option (List (Node C V)) :=
  match ks.filter isStop with
  | _ :: _ => some ks
  | [] =>
    match e.xlink.or e.href with
    | some (35 :: i) => ((breadthFirst doc).find? fun n => decide (idOf n = some i)).map kids
    | _ => some ks

/-- convert_one_stop_gradients.rs:89-162, `element`; `parent`: the number of the parent if it is `defs`. -/
def enter (parent : Option Nat) (h : Nat) (k : Kind) (e : Elem C V) (ks : List (Node C V)) (s : State C V) : State C V :=
  let s := if e.xlink.isSome then { s with count := s.count + 1 } else s
  match k with
  | .defs => { s with defs := h :: s.defs }
  | .gradient =>
    match effective s.doc e ks with
    | none => { s with detached := (h, e.xlink.isSome) :: s.detached }
    | some ks' =>
      match ks'.filter isStop with
      | [stop] =>
        let s := match parent with
          | some p => { s with affected := p :: s.affected }
          | none => s
        let s := { s with detached := (h, e.xlink.isSome) :: s.detached }
        match e.id, colorOf stop with
        | some i, some c => { s with doc := update i c s.doc }
        | _, _ => s
      | _ => s
  | _ => s

/-- Whether an element of this number is in the document and has no elements as children. -/
def hollow (doc : List (Node C V)) (g : Nat) : Bool :=
  (elems doc).any fun n => match n with
    | .leaf .. => false
    | .elem h _ _ ks => decide (h = g) && !ks.any isElem

/-- convert_one_stop_gradients.rs:188-193, for the elements in the order of the map. -/
def cleanDefs (affected : List Nat) : List Nat → List (Node C V) → List (Node C V)
  | [], doc => doc
  | g :: gs, doc => cleanDefs affected gs (if hollow doc g && affected.contains g then detach (fun h => decide (h = g)) doc else doc)

/-- convert_one_stop_gradients.rs:164-196, `exit_element`, for `svg`; the order of the map of `defs` is `ord`. Counting below zero is a panic. -/
def leave (ord : List Nat → List Nat) (h : Nat) (s : State C V) : Option (State C V) :=
  let gone := (s.detached.filter Prod.snd).length
  if gone ≤ s.count then
    let s := { s with count := s.count - gone, doc := detach (fun g => (s.detached.map Prod.fst).contains g) s.doc }
    let s := if s.count = 0 then { s with doc := undeclare h s.doc } else s
    some { s with doc := cleanDefs s.affected (ord s.defs) s.doc }
  else none

/-- visitor.rs:312-377: the walk. -/
def walk (ord : List Nat → List Nat) (parent : Option Nat) : List (Node C V) → State C V → Option (State C V)
  | [], s => some s
  | .leaf _ _ :: ns, s => walk ord parent ns s
  | .elem h k e ks :: ns, s => do
    let s ← walk ord (if k = .defs then some h else none) ks (enter parent h k e ks s)
    let s ← if k = .svg then leave ord h s else some s
    walk ord parent ns s

/-- convert_one_stop_gradients.rs:64-74. -/
def run (ord : List Nat → List Nat) (on : Bool) (doc : List (Node C V)) : Option (List (Node C V)) :=
  if on then (walk ord none doc ⟨doc, [], [], [], 0⟩).map State.doc else some doc

end Verif.Gradients
