import Verif.Viewport.Model
import Verif.Tree.Spec

/-!
# What viewports do to a picture

SVG 2, chapter 8 (coordinate systems and viewports), 5.5 (`symbol`), 5.6 (`use`) and 14.3 (`pattern`). Lengths are numbers of CSS pixels.
-/

namespace Verif.Viewport

open Verif.Tree Verif.Names
open Verif.Collapse (AName plainName)

/-- A point. -/
abbrev Pt := ℚ × ℚ

/-- A map of coordinates. -/
abbrev Map := Pt → Pt

/-- The value of the first attribute of a name. -/
def value : List Attr → AName → Option Val
  | [], _ => none
  | a :: as, n => if a.name = n then some a.val else value as n

/-- CSS Values 4, 6.2: how many of the unit make an inch. -/
def AbsUnit.perInch : AbsUnit → ℚ
  | .px => 96
  | .inch => 1
  | .cm => 127 / 50
  | .mm => 127 / 5
  | .q => 508 / 5
  | .pt => 72
  | .pc => 6

/-- The pixels of an absolute length: an inch has 96. -/
def AbsUnit.px' (v : ℚ) (u : AbsUnit) : ℚ := 96 * v / u.perInch

/-- A rectangle. -/
structure Rect where
  x : ℚ
  y : ℚ
  w : ℚ
  h : ℚ
  deriving DecidableEq

/-- What surrounds the content of an element: where user space is on the canvas, the size to which percentages refer, and the
viewports around it (the map of the space they are given in, and the rectangle), the innermost first. -/
structure Frame where
  map : Map
  base : Pt
  ports : List (Map × Rect)

/-- How far the content is moved in one direction, given the space that is left. -/
def Side.shift (space : ℚ) : Side → ℚ
  | .min => 0
  | .mid => space / 2
  | .max => space

/-- SVG 2, 8.6 `preserveAspectRatio`: the initial value is `xMidYMid meet`. -/
def Aspect.initial : Aspect := ⟨some (.mid, .mid), false⟩

/-- SVG 2, 8.2, computing the equivalent transform of an SVG viewport: the factors. -/
def Aspect.factors (a : Aspect) (b : Box) (e : Rect) : ℚ × ℚ :=
  match a.align with
  | none => (e.w / b.w, e.h / b.h)
  | some _ =>
    let s := if a.slice then max (e.w / b.w) (e.h / b.h) else min (e.w / b.w) (e.h / b.h)
    (s, s)

/-- SVG 2, 8.2: the map from the coordinates of the view box to the coordinates of the viewport. -/
def Aspect.fit (a : Aspect) (b : Box) (e : Rect) : Map := fun p =>
  let s := a.factors b e
  let m := match a.align with
    | none => (0, 0)
    | some (x, y) => (x.shift (e.w - b.w * s.1), y.shift (e.h - b.h * s.2))
  (s.1 * p.1 + (e.x - b.x * s.1 + m.1), s.2 * p.2 + (e.y - b.y * s.2 + m.2))

/-- What the drawing depends on outside of the attributes in question: the value of a length in a unit that depends on the context
and of a calculation, in a direction whose full length is given; the width and height declared by stylesheets and style
attributes; the map of a `transform` among the other attributes; the frame of the content of any other element; the place where the content of
symbols is drawn (the frame of a `use`, its width and its height); and the place where the content of patterns is drawn (the frame of
the element that is painted, its bounding box, and the attributes that the pattern takes from the patterns it refers to). -/
structure Env where
  rel : ℚ → Str → ℚ
  compute : Str → ℚ → ℚ
  css : EName → List Attr → Option Len × Option Len
  turn : EName → List Attr → Map
  inner : EName → List Attr → Frame → Option Frame
  use : Frame × Option Len × Option Len
  paint : Frame × Rect × List Attr

/-- SVG 2, 8.9: the value of a length in a direction whose full length is given. -/
def Env.used (E : Env) (full : ℚ) : Len → ℚ
  | .abs v u => u.px' v
  | .rel v u => E.rel v u
  | .percent p => p * full
  | .sum s => E.compute s full

/-- The attribute as a length. -/
def length (as : List Attr) (name : String) : Option Len :=
  match value as (plainName name) with
  | some (.len l) => some l
  | _ => none

/-- The first of two. -/
def first (a b : Option Len) : Option Len := match a with
  | some l => some l
  | none => b

/-- SVG 2, 8.2: a width or height. One that is not given, or negative, is the full length. -/
def Env.extent (E : Env) (full : ℚ) : Option Len → ℚ
  | none => full
  | some l => if 0 ≤ E.used full l then E.used full l else full

/-- A coordinate; one that is not given is zero. -/
def Env.coord (E : Env) (full : ℚ) : Option Len → ℚ
  | none => 0
  | some l => E.used full l

/-- SVG 2, 8.6: the view box. One with a negative width or height is in error and ignored. -/
def viewBox (as : List Attr) : Option Box :=
  match value as (plainName "viewBox") with
  | some (.box b) => if 0 ≤ b.w ∧ 0 ≤ b.h then some b else none
  | _ => none

/-- SVG 2, 8.7: `preserveAspectRatio`. -/
def aspect (as : List Attr) : Aspect :=
  match value as (plainName "preserveAspectRatio") with
  | some (.aspect a) => a
  | _ => .initial

/-- The attributes apart from `viewBox`, `width` and `height`. -/
def others (as : List Attr) : List Attr :=
  as.filter fun a => ¬ (a.name = plainName "viewBox" ∨ a.name = plainName "width" ∨ a.name = plainName "height")

/-- SVG 2, 8.2 and 8.6: the frame of the content of a viewport given as a rectangle in the space of a frame. Without a view box
the space of the content begins in `corner`. Nothing is drawn in a viewport without width or height, nor through a
view box without width or height. -/
def open' (f : Frame) (turn : Map) (e : Rect) (corner : Pt) (b : Option Box) (a : Aspect) : Option Frame :=
  if e.w = 0 ∨ e.h = 0 then none
  else match b with
    | none => some ⟨fun p => f.map (turn (corner.1 + p.1, corner.2 + p.2)), (e.w, e.h), (f.map ∘ turn, e) :: f.ports⟩
    | some b =>
      if b.w = 0 ∨ b.h = 0 then none
      else some ⟨fun p => f.map (turn (a.fit b e p)), (b.w, b.h), (f.map ∘ turn, e) :: f.ports⟩

/-- SVG 2, 8.2: the rectangle of an `svg` element. The outermost one has no position. -/
def Env.svgRect (E : Env) (top : Bool) (n : EName) (as : List Attr) (f : Frame) : Rect :=
  ⟨if top then 0 else E.coord f.base.1 (length as "x"), if top then 0 else E.coord f.base.2 (length as "y"),
    E.extent f.base.1 (first (E.css n (others as)).1 (length as "width")),
    E.extent f.base.2 (first (E.css n (others as)).2 (length as "height"))⟩

/-- SVG 2, 5.5 and 5.6: the rectangle of the instance of a `symbol`; the size given by the `use` goes first. -/
def Env.symbolRect (E : Env) (n : EName) (as : List Attr) : Rect :=
  let f := E.use.1
  ⟨E.coord f.base.1 (length as "x"), E.coord f.base.2 (length as "y"),
    E.extent f.base.1 (first E.use.2.1 (first (E.css n (others as)).1 (length as "width"))),
    E.extent f.base.2 (first E.use.2.2 (first (E.css n (others as)).2 (length as "height")))⟩

/-- The attributes of a pattern with those of the patterns it refers to. -/
def Env.resolved (E : Env) (as : List Attr) : List Attr := as ++ E.paint.2.2

/-- Whether an attribute for units is `objectBoundingBox`. -/
def relative (as : List Attr) (name : String) (initial : Bool) : Bool :=
  match value as (plainName name) with
  | some (.raw s) => if s = lit "objectBoundingBox" then true else if s = lit "userSpaceOnUse" then false else initial
  | _ => initial

/-- SVG 2, 14.3: a number or percentage as a part of the bounding box, other lengths as they are. -/
def Env.part (E : Env) (full : ℚ) : Len → ℚ
  | .abs v .px => v * full
  | l => E.used full l

/-- SVG 2, 14.3: the rectangle of the tile. -/
def Env.tile (E : Env) (as : List Attr) : Rect :=
  let f := E.paint.1
  let b := E.paint.2.1
  let as := E.resolved as
  let num (l : Option Len) (part : Len → ℚ) : ℚ := match l with
    | none => 0
    | some l => part l
  if relative as "patternUnits" true then
    ⟨b.x + num (length as "x") (E.part b.w), b.y + num (length as "y") (E.part b.h),
      num (length as "width") (E.part b.w), num (length as "height") (E.part b.h)⟩
  else
    ⟨num (length as "x") (E.used f.base.1), num (length as "y") (E.used f.base.2),
      num (length as "width") (E.used f.base.1), num (length as "height") (E.used f.base.2)⟩

/-- SVG 2, 14.3: the frame of the content of a pattern. A view box makes `patternContentUnits` irrelevant. A pattern is not a
viewport for percentages (SVG 2, 8.11). -/
def Env.patternFrame (E : Env) (n : EName) (as : List Attr) : Option Frame :=
  let f := E.paint.1
  let b := E.paint.2.1
  let e := E.tile as
  if e.w ≤ 0 ∨ e.h ≤ 0 then none
  else match viewBox (E.resolved as) with
    | some v => (open' f (E.turn n (others as)) e (0, 0) (some v) (aspect (E.resolved as))).map fun g => { g with base := f.base }
    | none =>
      if relative (E.resolved as) "patternContentUnits" false then
        some ⟨fun p => f.map (E.turn n (others as) (b.x + b.w * p.1, b.y + b.h * p.2)), f.base,
          (f.map ∘ E.turn n (others as), e) :: f.ports⟩
      else some ⟨fun p => f.map (E.turn n (others as) p), f.base, (f.map ∘ E.turn n (others as), e) :: f.ports⟩

/-- An SVG element of this name. -/
def Named (n : EName) (s : String) : Prop := n.pre.unaliased = .std .svg ∧ n.loc = lit s

instance (n : EName) (s : String) : Decidable (Named n s) := by unfold Named; infer_instance

/-- The frame of the content of an element that is drawn in a frame, if something is drawn. -/
def Env.content (E : Env) (top : Bool) (n : EName) (as : List Attr) (f : Option Frame) : Option Frame :=
  if Named n "svg" then
    f.bind fun f => open' f (E.turn n (others as)) (E.svgRect top n as f)
      ((E.svgRect top n as f).x, (E.svgRect top n as f).y) (viewBox as) (aspect as)
  else if Named n "symbol" then
    open' E.use.1 (E.turn n (others as)) (E.symbolRect n as) ((E.symbolRect n as).x, (E.symbolRect n as).y) (viewBox as)
      (aspect as)
  else if Named n "pattern" then E.patternFrame n as
  else f.bind (E.inner n as)

/-- One entry of a picture: a node without its children, where it is drawn, and where its content is drawn. -/
structure Entry where
  node : Node Attr
  place : Option Frame
  within : Option Frame

/-- The attributes of an element that do not only have their meaning in the frame of its content. -/
def shown (n : EName) (as : List Attr) : List Attr :=
  if Named n "svg" ∨ Named n "symbol" ∨ Named n "pattern" then others as else as

mutual
/-- What a node draws, in document order. -/
def Env.draw (E : Env) (top : Bool) (f : Option Frame) : Node Attr → List Entry
  | .elem n as ks =>
    ⟨.elem n (shown n as) [], f, E.content top n as f⟩ :: E.drawAll false (E.content top n as f) ks
  | .text s => [⟨.text s, f, none⟩]
  | .css s => [⟨.css s, f, none⟩]
  | .comment s => [⟨.comment s, f, none⟩]
  | .pi t d => [⟨.pi t d, f, none⟩]
/-- What a list of nodes draws. -/
def Env.drawAll (E : Env) (top : Bool) (f : Option Frame) : List (Node Attr) → List Entry
  | [] => []
  | n :: ns => E.draw top f n ++ E.drawAll top f ns
end

/-- The picture of a document that is shown on a canvas of some size. -/
def Env.picture (E : Env) (canvas : Pt) (doc : List (Node Attr)) : List Entry :=
  E.drawAll true (some ⟨id, canvas, []⟩) doc

/-- The names of the attributes of every element are distinct (XML 1.0, 3.1, "Unique Att Spec"). -/
def Distinct (doc : List (Node Attr)) : Prop :=
  ∀ n as ks, Occurs doc (.elem n as ks) → (as.map (·.name)).Nodup

/-- The element has a view box that begins in the origin and has the width and the height, in pixels, of its attributes. -/
def Fits (as : List Attr) : Prop :=
  ∃ w h vw uw vh uh, value as (plainName "viewBox") = some (.box ⟨0, 0, w, h⟩) ∧
    value as (plainName "width") = some (.len (.abs vw uw)) ∧ value as (plainName "height") = some (.len (.abs vh uh)) ∧
    uw.px' vw = w ∧ uh.px' vh = h

end Verif.Viewport
