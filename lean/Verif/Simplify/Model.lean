import Verif.Segment.Model

/-!
# Model: simplification of segments

`crates/oxvg_path/src/paths/segment/simplify.rs`, `paths/segment.rs` 160-167 (`close_segments`) and the part of
`optimize.rs` 127-137 between `from_svg` and `to_svg`.

Numbers are rational, arithmetic is exact. What the code computes with square roots or angles is a parameter
(`Geo`): the point at which two joined curves meet, everything about the geometry of arcs, and the replacement of curves
by arcs as a whole. Where a distance is compared with the tolerance the squares are compared.
-/

namespace Verif.Simplify

open Verif.Segment (Pt)

/-- geometry/arc.rs 14-32, `Arc`: its ellipse and angles (`A`) and the memoised end point. -/
structure Arc (A : Type) where
  core : A
  stop : Pt
deriving DecidableEq

/-- paths/segment.rs 16-23, `Data`. -/
inductive Data (A : Type) where
  | lineTo (p : Pt)
  | curveTo (a b p : Pt)
  | arcTo (a : Arc A)
deriving DecidableEq

/-- paths/segment.rs 38-42, `Segment`. -/
structure Segment (A : Type) where
  start : Pt
  data : List (Data A)
  closed : Bool
deriving DecidableEq

/-- paths/segment.rs 50-56, `Data::end_point`. -/
def Data.stop {A : Type} : Data A → Pt
  | .lineTo p => p
  | .curveTo _ _ p => p
  | .arcTo a => a.stop

/-- What joining two arcs gives (simplify.rs 292-343): one arc, or two half turns with the point between them. -/
inductive Joined (A : Type) where
  | one (a : A)
  | two (a : A) (mid : Pt) (b : A)

/-- The tolerance and what is not computed with rational numbers. -/
structure Geo (A : Type) where
  /-- geometry/mod.rs 31, `Tolerance::positional` -/
  tol : Rat
  /-- simplify.rs 211, `sweep_angle().abs() < PI` -/
  small : Arc A → Bool
  /-- geometry/arc.rs 698-707, `Arc::is_straight` -/
  straight : Arc A → Bool
  /-- geometry/arc.rs 510-560, `Arc::is_connected` -/
  connected : Arc A → Arc A → Bool
  /-- simplify.rs 295-342, but for the end point of the result -/
  joinArcs : Pt → Arc A → Arc A → Joined A
  /-- simplify.rs 254-269: where the first of two curves ends on the joined curve; the arguments are the start, the
  controls and end of the first and those of the second -/
  ratio : Pt → Pt → Pt → Pt → Pt → Pt → Pt → Rat
  /-- simplify.rs 95-197, `arc_curves` -/
  arcCurves : List (Segment A) → List (Segment A)

variable {A : Type} (g : Geo A)

/-- geometry/mod.rs 64-66, `Tolerance::square`. -/
def Geo.tol2 : Rat := g.tol * g.tol

/-- geometry/point.rs 581-584, `cross`, and geo-types `cross_prod`. -/
def cross (a b c : Pt) : Rat := (b.x - a.x) * (c.y - a.y) - (b.y - a.y) * (c.x - a.x)

/-- geometry/point.rs 514-516, `dot`. -/
def dot (a b : Pt) : Rat := a.x * b.x + a.y * b.y

/-- geometry/point.rs 600-602, `is_parallel`. -/
def isParallel (a b c : Pt) : Bool := decide ((cross a b c).abs < g.tol)

/-- geometry/point.rs 625-633, `is_continuous_parallel`. -/
def isContinuous (start mid stop : Pt) : Bool :=
  isParallel g start mid stop && decide (0 ≤ dot (start - mid) (mid - stop))

/-- geometry/point.rs 671-673, `lerp`. -/
def lerp (a b : Pt) (t : Rat) : Pt := a + (b - a).scale t

/-! ## `straight_curves` -/

/-- geometry/curve.rs 111-120, `quad_control`. -/
def quadControl (start a b p : Pt) : Option Pt :=
  if Pt.dist2 (start + (a - start).scale (3 / 2)) (p + (b - p).scale (3 / 2)) < g.tol2 then
    some (start + (a - start).scale (3 / 2))
  else none

/-- geometry/curve.rs 289-297, `Curve::is_straight`; the lengths are squared on both sides. -/
def isStraight (start a b p : Pt) : Bool :=
  if Pt.dist2 start p < g.tol2 then true
  else decide (cross start p a * cross start p a < g.tol2 * Pt.dist2 start p) &&
    decide (cross start p b * cross start p b < g.tol2 * Pt.dist2 start p)

/-- The variables of `straight_curves`, simplify.rs 45-46. -/
structure Chain where
  quad : Bool
  control : Option Pt
deriving DecidableEq

/-- geometry/curve.rs 222-234, `smooth_quadratic_bezier_unchecked_quad`, whether it is there. -/
def continues (start : Pt) (control : Option Pt) (quad : Pt) : Bool :=
  match control with
  | some cp => decide (Pt.dist2 quad (cp.reflect start) < g.tol2)
  | none => false

/-- simplify.rs 65-75, `is_optimal`. -/
def isOptimal (prevQuad : Bool) (start : Pt) (control : Option Pt) (quad : Option Pt) : Bool :=
  !prevQuad || match quad with
    | some q => !continues g start control q
    | none => true

/-- simplify.rs 54-91: one command; `first` says that it is the first of its segment. -/
def straightStep (first : Bool) (c : Chain) (start : Pt) : Data A → Data A × Chain
  | .curveTo a b p =>
    let quad := quadControl g start a b p
    if isOptimal g (!first && c.quad) start c.control quad && isStraight g start a b p then
      (.lineTo p, ⟨false, quad⟩)
    else (.curveTo a b p, ⟨quad.isSome, quad⟩)
  | .arcTo a => (if g.straight a then .lineTo a.stop else .arcTo a, ⟨false, none⟩)
  | .lineTo p => (.lineTo p, ⟨false, none⟩)

/-- The commands of one segment, with the cursor of paths/segment.rs 269-316. -/
def straightData (first : Bool) (c : Chain) (start : Pt) : List (Data A) → List (Data A) × Chain
  | [] => ([], c)
  | d :: ds =>
    let (d', c') := straightStep g first c start d
    let (ds', c'') := straightData false c' d.stop ds
    (d' :: ds', c'')

/-- simplify.rs 43-93, `straight_curves`. A segment without data takes the control point away (54-57). -/
def straightCurves (c : Chain) : List (Segment A) → List (Segment A)
  | [] => []
  | s :: l =>
    let c := if s.data.isEmpty then { c with control := none } else c
    let (data, c') := straightData g true c s.start s.data
    { s with data := data } :: straightCurves c' l

/-! ## `remove_noop_commands` -/

/-- simplify.rs 203-214, `is_zero`. -/
def isZero (start : Pt) : Data A → Bool
  | .lineTo p => decide (p.dist2 start < g.tol2)
  | .curveTo a b p => decide (a.dist2 start < g.tol2) && decide (b.dist2 start < g.tol2) &&
      decide (p.dist2 start < g.tol2)
  | .arcTo a => g.small a && decide (a.stop.dist2 start < g.tol2)

/-- simplify.rs 201-217, for one segment. -/
def removeNoopData (start : Pt) : List (Data A) → List (Data A)
  | [] => []
  | d :: ds => if isZero g start d then removeNoopData d.stop ds else d :: removeNoopData d.stop ds

/-- simplify.rs 222-225, the condition of `pop_if`. -/
def endsAt (start : Pt) : Data A → Bool
  | .lineTo p => decide (p.dist2 start < g.tol2)
  | _ => false

/-- `Vec::pop_if` (std). -/
def popIf {B : Type} (f : B → Bool) (l : List B) : List B :=
  match l.getLast? with
  | some z => if f z then l.dropLast else l
  | none => l

/-- simplify.rs 219-226, for the last segment. -/
def popClosing (s : Segment A) : Segment A :=
  if s.closed then { s with data := popIf (endsAt g s.start) s.data } else s

/-- simplify.rs 199-227, `remove_noop_commands`. -/
def removeNoop (l : List (Segment A)) : List (Segment A) :=
  let l := l.map fun s => { s with data := removeNoopData g s.start s.data }
  match l.getLast? with
  | some z => l.dropLast ++ [popClosing g z]
  | none => l

/-! ## `join_nodes` -/

/-- simplify.rs 271-273: the joined curve. -/
def mergedCurve (start a b' p' : Pt) (t : Rat) : Pt × Pt :=
  ((a - start.scale (1 - t)).scale (1 / t), (b' - p'.scale t).scale (1 / (1 - t)))

/-- geometry/curve.rs 427-443, `subdivide_t`: the controls and end of the left half and the controls of the right. -/
def subdivide (start a b p : Pt) (t : Rat) : (Pt × Pt × Pt) × (Pt × Pt) :=
  let p01 := lerp start a t
  let p12 := lerp a b t
  let p23 := lerp b p t
  let p012 := lerp p01 p12 t
  let p123 := lerp p12 p23 t
  ((p01, p012, lerp p012 p123 t), (p123, p23))

/-- simplify.rs 275-281: the joined curve runs near the meeting point and the controls beside it. -/
def fits (start : Pt) (b p a' : Pt) (m : Pt × Pt) (p' : Pt) (t : Rat) : Bool :=
  let ((_, leftEnd, split), (rightStart, _)) := subdivide start m.1 m.2 p' t
  decide (split.dist2 p < g.tol2) && decide (leftEnd.dist2 b < g.tol2) &&
    decide (rightStart.dist2 a' < g.tol2)

/-- simplify.rs 248-283: the curve that two curves are joined to. With `t` 0 or 1 the code divides by zero, and the
comparisons that follow fail. -/
def joinCurves (start a b p a' b' p' : Pt) : Option (Data A) :=
  let t := g.ratio start a b p a' b' p'
  let m := mergedCurve start a b' p' t
  if isContinuous g b p a' && !(decide (t = 0) || decide (t = 1)) && fits g start b p a' m p' t then
    some (.curveTo m.1 m.2 p')
  else none

/-- What becomes of two commands in a row (simplify.rs 240-350): the second stays on its own, they become one, or they
become two others. -/
inductive Pair (A : Type) where
  | keep
  | one (d : Data A)
  | two (d e : Data A)

/-- simplify.rs 292-343: two arcs; the end point is set to that of the second (312, 327, 338). -/
def joinArcs (start : Pt) (a b : Arc A) : Pair A :=
  if g.connected a b then
    match g.joinArcs start a b with
    | .one c => .one (.arcTo ⟨c, b.stop⟩)
    | .two c mid d => .two (.arcTo ⟨c, mid⟩) (.arcTo ⟨d, b.stop⟩)
  else .keep

/-- simplify.rs 247-291: two curves. -/
def joinedCurves (o : Option (Data A)) : Pair A :=
  match o with
  | some d => .one d
  | none => .keep

/-- simplify.rs 240-350, for the last command so far and the next one. -/
def joinPair (start : Pt) : Data A → Data A → Pair A
  | .lineTo p, .lineTo q => if isContinuous g start p q then .one (.lineTo q) else .keep
  | .curveTo a b p, .curveTo a' b' p' => joinedCurves (joinCurves g start a b p a' b' p')
  | .arcTo a, .arcTo b => joinArcs g start a b
  | _, _ => .keep

/-- simplify.rs 234-351: the loop. `prev` is `new_data.last_mut()` and `start` its first point; what is before it in
`new_data` does not change any more and is given out. -/
def joinFrom (start : Pt) (prev : Data A) : List (Data A) → List (Data A)
  | [] => [prev]
  | d :: ds => match joinPair g start prev d with
    | .keep => prev :: joinFrom prev.stop d ds
    | .one m => joinFrom start m ds
    | .two m n => m :: joinFrom m.stop n ds

/-- simplify.rs 232-352, one segment. -/
def joinData (start : Pt) : List (Data A) → List (Data A)
  | [] => []
  | d :: ds => joinFrom g start d ds

/-- simplify.rs 230-354, `join_nodes`. -/
def joinNodes (l : List (Segment A)) : List (Segment A) :=
  l.map fun s => { s with data := joinData g s.start s.data }

/-! ## The others -/

/-- `matches!(command, Data::LineTo(_))`. -/
def Data.isLine : Data A → Bool
  | .lineTo _ => true
  | _ => false

/-- simplify.rs 358-375, one segment that is closed. -/
def removeCloseLineOf (s : Segment A) : Segment A :=
  match s.data.getLast? with
  | some d =>
    if s.start.dist2 d.stop < g.tol2 then
      { s with data := popIf Data.isLine s.data, closed := d.isLine }
    else { s with closed := false }
  | none => { s with closed := false }

/-- simplify.rs 356-377, `remove_close_line`. -/
def removeCloseLine (l : List (Segment A)) : List (Segment A) :=
  l.map fun s => if s.closed then removeCloseLineOf g s else s

/-- simplify.rs 379-381, `remove_empty_segments`. -/
def removeEmpty (l : List (Segment A)) : List (Segment A) := l.filter fun s => !s.data.isEmpty

/-- paths/segment.rs 162-167, `close_segments`. -/
def closeSegments (l : List (Segment A)) : List (Segment A) :=
  l.map fun s => if s.closed then s else { s with data := s.data ++ [.lineTo s.start], closed := true }

/-- The options that `simplify` looks at (optimize.rs 11-82). -/
structure Passes where
  close : Bool
  join : Bool
  empty : Bool
  noop : Bool
  closeLine : Bool
  straight : Bool
  arcs : Bool
deriving DecidableEq

/-- `if options.contains(…)`. -/
def onlyIf {B : Type} (b : Bool) (f : B → B) (x : B) : B := if b then f x else x

/-- simplify.rs 14-41, `simplify`. -/
def simplify (o : Passes) (l : List (Segment A)) : List (Segment A) :=
  onlyIf o.empty removeEmpty <| onlyIf o.closeLine (removeCloseLine g) <| onlyIf o.join (joinNodes g) <|
    onlyIf o.noop (removeNoop g) <| onlyIf o.arcs g.arcCurves <|
      onlyIf o.straight (straightCurves g ⟨false, none⟩) l

/-- optimize.rs 127-137, `Path::optimize`, between `from_svg` and `to_svg`. -/
def optimize (o : Passes) (l : List (Segment A)) : List (Segment A) :=
  simplify g o (onlyIf o.close closeSegments l)

end Verif.Simplify
