/-!
# Model: path commands as segments

`crates/oxvg_path/src/paths/segment/convert.rs` 13-238 (`from_svg`), with `paths/svg/command.rs` (commands),
`paths/segment.rs` (segments) and what they use of `geometry/point.rs` and `geometry/curve.rs`.

Numbers are rational and arithmetic is exact: rounding of `f64` and its values that are no numbers are left out.
The argument arrays of a command are points and numbers. An `Arc` is kept as the arguments it is made from: its
conversion to centre and angles (`geometry/arc.rs` 366-438) is not part of this model.
-/

namespace Verif.Segment

/-- geometry/point.rs 10, `Point`. -/
structure Pt where
  x : Rat
  y : Rat
deriving DecidableEq

/-- geometry/point.rs 44-50, `Add`. -/
instance : Add Pt := ⟨fun a b => ⟨a.x + b.x, a.y + b.y⟩⟩

/-- geometry/point.rs, `Sub`. -/
instance : Sub Pt := ⟨fun a b => ⟨a.x - b.x, a.y - b.y⟩⟩

/-- geometry/point.rs, `Mul<f64>`. -/
def Pt.scale (a : Pt) (k : Rat) : Pt := ⟨a.x * k, a.y * k⟩

/-- geometry/point.rs 485-487, `reflect`. -/
def Pt.reflect (a base : Pt) : Pt := ⟨2 * base.x - a.x, 2 * base.y - a.y⟩

/-- geometry/point.rs 396-398 (`distance_squared`), 514-516 (`dot`). -/
def Pt.dist2 (a b : Pt) : Rat := (a.x - b.x) * (a.x - b.x) + (a.y - b.y) * (a.y - b.y)

/-- `Point::ZERO`. -/
def Pt.zero : Pt := ⟨0, 0⟩

/-- The arguments of an arc but for its end: radii, rotation and the two flags (only 0 and 1 are parsed). -/
structure Shape where
  r : Pt
  rot : Rat
  large : Bool
  sweep : Bool
deriving DecidableEq

/-- paths/svg/command.rs 14-57, `command::Data`. -/
inductive Cmd where
  | moveTo (p : Pt) | moveBy (p : Pt)
  | closePath
  | lineTo (p : Pt) | lineBy (p : Pt)
  | horizontalTo (x : Rat) | horizontalBy (x : Rat)
  | verticalTo (y : Rat) | verticalBy (y : Rat)
  | cubicTo (a b p : Pt) | cubicBy (a b p : Pt)
  | smoothTo (b p : Pt) | smoothBy (b p : Pt)
  | quadTo (c p : Pt) | quadBy (c p : Pt)
  | smoothQuadTo (p : Pt) | smoothQuadBy (p : Pt)
  | arcTo (s : Shape) (p : Pt) | arcBy (s : Shape) (p : Pt)
  | implicit (c : Cmd)
deriving DecidableEq

/-- geometry/arc.rs 14-32, `Arc`, as the arguments it is made from; `to` is its memoised end point. -/
structure Arc where
  s : Shape
  to : Pt
deriving DecidableEq

/-- paths/segment.rs 14-23, `Data`; the curve of geometry/curve.rs 6-13. -/
inductive Data where
  | lineTo (p : Pt)
  | curveTo (a b p : Pt)
  | arcTo (a : Arc)
deriving DecidableEq

/-- paths/segment.rs 36-42, `Segment`. -/
structure Segment where
  start : Pt
  data : List Data
  closed : Bool
deriving DecidableEq

/-- paths/segment.rs 50-56, `Data::end_point`. -/
def Data.endPoint : Data → Pt
  | .lineTo p => p
  | .curveTo _ _ p => p
  | .arcTo a => a.to

/-- geometry/curve.rs 87-91, `Curve::new_quad`. -/
def newQuad (c start stop : Pt) : Data :=
  .curveTo (start + (c - start).scale (2 / 3)) (stop + (c - stop).scale (2 / 3)) stop

/-- The variables that `Data::take` changes through its references. -/
structure Pos where
  start : Pt
  cursor : Pt
  control : Option Pt
  zEnd : Bool
deriving DecidableEq

/-- convert.rs 98-102, 111-115, 124-128, 137-141: the reflected control point. -/
def reflected (cursor : Pt) : Option Pt → Pt
  | some c => c.reflect cursor
  | none => cursor

/-- geometry/arc.rs 988-990, `is_arc_to_line`. -/
def isLine (s : Shape) (p cursor : Pt) : Bool :=
  decide (s.r.x.abs < 1 / 100000) || decide (s.r.y.abs < 1 / 100000) || decide (cursor = p)

/-- geometry/arc.rs 354-439 (`from_arc_to`) and convert.rs 149-164: an arc or a line to `p`. -/
def arcOrLine (s : Shape) (p cursor : Pt) : Data :=
  if isLine s p cursor then .lineTo p else .arcTo ⟨s, p⟩

/-- convert.rs 15-174, `Data::take`: the data, if any, and the variables afterwards. -/
def take : Cmd → Pos → Option Data × Pos
  | .moveBy a, v => (none, { v with control := none, cursor := v.cursor + a, start := v.cursor + a })
  | .moveTo a, v => (none, { v with control := none, cursor := a, start := a })
  | .lineBy a, v => (some (.lineTo (v.cursor + a)), { v with control := none, cursor := v.cursor + a })
  | .lineTo a, v => (some (.lineTo a), { v with control := none, cursor := a })
  | .horizontalBy a, v =>
    (some (.lineTo ⟨v.cursor.x + a, v.cursor.y⟩), { v with control := none, cursor := ⟨v.cursor.x + a, v.cursor.y⟩ })
  | .horizontalTo a, v => (some (.lineTo ⟨a, v.cursor.y⟩), { v with control := none, cursor := ⟨a, v.cursor.y⟩ })
  | .verticalBy a, v =>
    (some (.lineTo ⟨v.cursor.x, v.cursor.y + a⟩), { v with control := none, cursor := ⟨v.cursor.x, v.cursor.y + a⟩ })
  | .verticalTo a, v => (some (.lineTo ⟨v.cursor.x, a⟩), { v with control := none, cursor := ⟨v.cursor.x, a⟩ })
  | .cubicBy a b p, v =>
    (some (.curveTo (v.cursor + a) (v.cursor + b) (v.cursor + p)),
      { v with control := some (v.cursor + b), cursor := v.cursor + p })
  | .cubicTo a b p, v => (some (.curveTo a b p), { v with control := some b, cursor := p })
  | .quadBy c p, v =>
    (some (newQuad (v.cursor + c) v.cursor (v.cursor + p)),
      { v with control := some (v.cursor + c), cursor := v.cursor + p })
  | .quadTo c p, v => (some (newQuad c v.cursor p), { v with control := some c, cursor := p })
  | .smoothBy b p, v =>
    (some (.curveTo (reflected v.cursor v.control) (v.cursor + b) (v.cursor + p)),
      { v with control := some (v.cursor + b), cursor := v.cursor + p })
  | .smoothTo b p, v =>
    (some (.curveTo (reflected v.cursor v.control) b p), { v with control := some b, cursor := p })
  | .smoothQuadBy p, v =>
    (some (newQuad (reflected v.cursor v.control) v.cursor (v.cursor + p)),
      { v with control := some (reflected v.cursor v.control), cursor := v.cursor + p })
  | .smoothQuadTo p, v =>
    (some (newQuad (reflected v.cursor v.control) v.cursor p),
      { v with control := some (reflected v.cursor v.control), cursor := p })
  | .arcBy s p, v =>
    (some (arcOrLine s (p + v.cursor) v.cursor), { v with control := none, cursor := p + v.cursor })
  | .arcTo s p, v => (some (arcOrLine s p v.cursor), { v with control := none, cursor := p })
  | .closePath, v => (none, { v with control := none, zEnd := true })
  | .implicit c, v => take c v

/-- convert.rs 191-197: the data up to the first command that gives none, the variables afterwards and the commands
that are left. -/
def takeData : List Cmd → Pos → List Data × Pos × List Cmd
  | [], v => ([], v, [])
  | c :: cs, v => match take c v with
    | (none, v) => ([], v, cs)
    | (some d, v) => match takeData cs v with
      | (ds, v, cs) => (d :: ds, v, cs)

/-- The end of the last data (`result.data().last().unwrap().end_point()`). -/
def lastEnd (start : Pt) : List Data → Pt
  | [] => start
  | d :: ds => lastEnd d.endPoint ds

/-- convert.rs 198-210: the segment made of the data, and the cursor afterwards. `tol` is the positional
tolerance. -/
def finishSegment (tol : Rat) (start : Pt) (ds : List Data) (v : Pos) : Segment × Pos :=
  if ds.isEmpty then (⟨start, [], false⟩, v)
  else if v.zEnd then (⟨start, ds, true⟩, { v with cursor := start })
  else (⟨start, ds, decide (v.start.dist2 (lastEnd start ds) < tol * tol)⟩, v)

theorem takeData_length : ∀ (cs : List Cmd) (v : Pos), (takeData cs v).2.2.length ≤ cs.length - 1
  | [], v => by simp [takeData]
  | c :: cs, v => by
    have ih := takeData_length cs (take c v).2
    unfold takeData
    rcases h : take c v with ⟨_ | d, w⟩
    · simp
    · rw [h] at ih
      simp only [List.length_cons, Nat.add_sub_cancel]
      exact Nat.le_trans ih (Nat.sub_le _ _)

/-- convert.rs 225-228: the loop of `from_svg`. Each `Segment::take` (178-211) begins without control point. -/
def takeSegments (tol : Rat) : List Cmd → Pt → Pt → List Segment × Pt
  | [], start, _ => ([], start)
  | c :: cs, start, cursor =>
    let r := takeData (c :: cs) ⟨start, cursor, none, false⟩
    let s := finishSegment tol start r.1 r.2.1
    let rest := takeSegments tol r.2.2 s.2.start s.2.cursor
    (s.1 :: rest.1, rest.2)
termination_by cs => cs.length
decreasing_by
  have := takeData_length (c :: cs) ⟨start, cursor, none, false⟩
  simp only [List.length_cons] at this ⊢
  omega

/-- convert.rs 229-235: an empty result becomes one empty segment. -/
def orEmpty : List Segment × Pt → List Segment
  | ([], start) => [⟨start, [], false⟩]
  | (s :: l, _) => s :: l

/-- convert.rs 216-237, `Path::from_svg`; `none` is the panic of 222. -/
def fromSvg (tol : Rat) : List Cmd → Option (List Segment)
  | [] => some []
  | .moveTo p :: cs => some (orEmpty (takeSegments tol cs p p))
  | .moveBy p :: cs => some (orEmpty (takeSegments tol cs p p))
  | _ => none

end Verif.Segment
