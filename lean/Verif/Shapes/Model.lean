import Verif.Apply.Spec

/-!
# Model: turning shapes into paths

`crates/oxvg_optimiser/src/jobs/convert_shape_to_path.rs` and `convert_ellipse_to_circle.rs`.

Numbers are real and arithmetic is exact. A length is known in pixels or it is not (percentages, `em`, `calc`, …):
lightningcss decides that, and `Option ℝ` is its answer.
-/

namespace Verif.Shapes

open Real Verif.Transform Verif.Apply

noncomputable section

/-- convert_shape_to_path.rs:189-196, `lp_px`: the length in pixels, if it has one. -/
abbrev Len := Option ℝ

/-- uncategorised.rs:565-570, `Radius`. -/
inductive Rad where
  | len (l : Len)
  | auto

/-- convert_shape_to_path.rs:197-204, `r_px`. -/
def Rad.px : Rad → Option ℝ
  | .len l => l
  | .auto => none

/-- crates/oxvg_path/src/geometry.rs:89-105, `scale`, `descale` and `round` for `10.0_f64.powi(precision)`. -/
def roundTo (p : ℤ) (x : ℝ) : ℝ := roundAway (x * (10 : ℝ) ^ p) / (10 : ℝ) ^ p

def roundPt (p : ℤ) (q : Pt) : Pt := (roundTo p q.1, roundTo p q.2)

/-- An arc flag is 1.0 or 0.0 and is rounded like the other arguments; it is set if the result is not 0. -/
def roundFlag (p : ℤ) (b : Bool) : Bool := b && decide (0 ≤ p)

/-- The five leading arguments of an arc. -/
def roundArc (p : ℤ) (a : Arc) : Arc :=
  ⟨roundTo p a.rx, roundTo p a.ry, roundTo p a.rot, roundFlag p a.large, roundFlag p a.sweep⟩

/-- crates/oxvg_path/src/paths/svg/command.rs:197-207, `Data::round`: of an arc, the end is not rounded. -/
def roundOp (p : ℤ) : Op → Op
  | .moveTo q => .moveTo (roundPt p q)
  | .moveBy q => .moveBy (roundPt p q)
  | .lineTo q => .lineTo (roundPt p q)
  | .lineBy q => .lineBy (roundPt p q)
  | .hTo x => .hTo (roundTo p x)
  | .hBy x => .hBy (roundTo p x)
  | .vTo y => .vTo (roundTo p y)
  | .vBy y => .vBy (roundTo p y)
  | .cubicTo q1 q2 q => .cubicTo (roundPt p q1) (roundPt p q2) (roundPt p q)
  | .cubicBy q1 q2 q => .cubicBy (roundPt p q1) (roundPt p q2) (roundPt p q)
  | .smoothTo q2 q => .smoothTo (roundPt p q2) (roundPt p q)
  | .smoothBy q2 q => .smoothBy (roundPt p q2) (roundPt p q)
  | .quadTo q1 q => .quadTo (roundPt p q1) (roundPt p q)
  | .quadBy q1 q => .quadBy (roundPt p q1) (roundPt p q)
  | .tTo q => .tTo (roundPt p q)
  | .tBy q => .tBy (roundPt p q)
  | .arcTo a q => .arcTo (roundArc p a) q
  | .arcBy a q => .arcBy (roundArc p a) q
  | .close => .close

/-- convert_shape_to_path.rs:358-362 and 408-412: here every argument is rounded. -/
def roundAll (p : ℤ) : Op → Op
  | .arcTo a q => .arcTo (roundArc p a) (roundPt p q)
  | .arcBy a q => .arcBy (roundArc p a) (roundPt p q)
  | op => roundOp p op

/-- What becomes of an element. -/
inductive Result where
  | keep
  | removed
  | path (d : List Op)

/-- An attribute that is 0 if it is absent; `none` if it is present and not in pixels. -/
def orZero : Option Len → Option ℝ
  | none => some 0
  | some l => l

/-- The attributes of `<rect>`. -/
structure Rect where
  x : Option Len
  y : Option Len
  width : Option Len
  height : Option Len
  rx : Option Rad
  ry : Option Rad

/-- convert_shape_to_path.rs:205-255, `rect_to_path`. -/
def rectToPath (p : ℤ) (r : Rect) : Result :=
  if r.rx.isSome ∨ r.ry.isSome then .keep
  else
    match orZero r.x, orZero r.y, r.width.join, r.height.join with
    | some x, some y, some w, some h =>
      .path ([.moveTo (x, y), .hTo (x + w), .vTo (y + h), .hTo x, .close].map (roundOp p))
    | _, _, _, _ => .keep

/-- The attributes of `<line>`. -/
structure Line where
  x1 : Option Len
  y1 : Option Len
  x2 : Option Len
  y2 : Option Len

/-- convert_shape_to_path.rs:257-299, `line_to_path`. -/
def lineToPath (p : ℤ) (l : Line) : Result :=
  match orZero l.x1, orZero l.y1, orZero l.x2, orZero l.y2 with
  | some x1, some y1, some x2, some y2 => .path ([.moveTo (x1, y1), .lineTo (x2, y2)].map (roundOp p))
  | _, _, _, _ => .keep

/-- convert_shape_to_path.rs:301-326, `poly_to_path`. The attribute `points` is held as path data. -/
def polyToPath (p : ℤ) (closed : Bool) : Option (List Op) → Result
  | none => .removed
  | some data =>
    if data.length ≤ 1 then .removed
    else .path ((data ++ if closed then [Op.close] else []).map (roundOp p))

/-- The attributes of `<circle>`. -/
structure Circle where
  cx : Option Len
  cy : Option Len
  r : Option Len

/-- convert_shape_to_path.rs:328-370, `circle_to_path`. -/
def circleToPath (p : ℤ) (c : Circle) : Result :=
  match orZero c.cx, orZero c.cy, orZero c.r with
  | some cx, some cy, some r =>
    .path ([.moveTo (cx, cy - r), .arcTo ⟨r, r, 0, true, false⟩ (cx, cy + r), .arcTo ⟨r, r, 0, true, false⟩ (cx, cy - r),
      .close].map (roundAll p))
  | _, _, _ => .keep

/-- The attributes of `<ellipse>`. -/
structure Ellipse where
  cx : Option Len
  cy : Option Len
  rx : Option Rad
  ry : Option Rad

/-- convert_shape_to_path.rs:372-421, `ellipse_to_path`. -/
def ellipseToPath (p : ℤ) (c : Ellipse) : Result :=
  match orZero c.cx, orZero c.cy, orZero (c.rx.map Rad.px), orZero (c.ry.map Rad.px) with
  | some cx, some cy, some rx, some ry =>
    .path ([.moveTo (cx, cy - ry), .arcTo ⟨rx, ry, 0, true, false⟩ (cx, cy + ry),
      .arcTo ⟨rx, ry, 0, true, false⟩ (cx, cy - ry), .close].map (roundAll p))
  | _, _, _, _ => .keep

/-- The elements concerned. -/
inductive Name where
  | rect
  | line
  | polyline
  | polygon
  | circle
  | ellipse
  | path
  | other (s : String)
  deriving DecidableEq

/-- A shape. -/
inductive Shape where
  | rect (r : Rect)
  | line (l : Line)
  | polyline (points : Option (List Op))
  | polygon (points : Option (List Op))
  | circle (c : Circle)
  | ellipse (e : Ellipse)

def Shape.name : Shape → Name
  | .rect _ => .rect
  | .line _ => .line
  | .polyline _ => .polyline
  | .polygon _ => .polygon
  | .circle _ => .circle
  | .ellipse _ => .ellipse

/-- A component of a selector, as far as `visit_selector` looks at it. -/
inductive Component where
  | localName (n : Name)
  | other
  deriving DecidableEq

/-- convert_shape_to_path.rs:113-141, `visit_selector`, for all selectors: the names that are referenced. -/
def referenced (selectors : List (List Component)) (n : Name) : Bool :=
  selectors.any fun s => s.any fun c => c == .localName n

/-- convert_shape_to_path.rs:78-87, `prepare`, and 144-186, `element`. -/
def convert (p : ℤ) (arcs : Bool) (selectors : List (List Component)) (s : Shape) : Result :=
  if referenced selectors .path then .keep
  else
    match s with
    | .rect r => if referenced selectors .rect then .keep else rectToPath p r
    | .line l => if referenced selectors .line then .keep else lineToPath p l
    | .polyline d => if referenced selectors .polyline then .keep else polyToPath p false d
    | .polygon d => if referenced selectors .polygon then .keep else polyToPath p true d
    | .circle c => if arcs && !referenced selectors .circle then circleToPath p c else .keep
    | .ellipse e => if arcs && !referenced selectors .circle then ellipseToPath p e else .keep

/-- An element with a shape and its children. -/
structure Node (Child : Type) where
  shape : Shape
  children : List Child

/-- What stands in the place of the node afterwards: the node, nothing, or a path with children.
crates/oxvg_ast/src/element.rs:397-428, `set_local_name`: the new element gets the attributes, not the children. -/
inductive After (Child : Type) where
  | same (n : Node Child)
  | nothing
  | path (d : List Op) (children : List Child)

def convertNode {Child : Type} (p : ℤ) (arcs : Bool) (selectors : List (List Component)) (n : Node Child) : After Child :=
  match convert p arcs selectors n.shape with
  | .keep => .same n
  | .removed => .nothing
  | .path d => .path d []

/-- Lengths for the conversion to a circle: equality is that of the values written. -/
inductive Written where
  | px (x : ℝ)
  | percent (x : ℝ)
  | em (x : ℝ)

/-- A radius for the conversion to a circle. -/
inductive WrittenRad where
  | len (l : Written)
  | auto

open Classical in
/-- convert_ellipse_to_circle.rs:50-97, `element`: the radius of the circle, `none` if the ellipse is kept. -/
def ellipseToCircle (rx ry : Option WrittenRad) : Option Written :=
  match rx, ry with
  | some (.len a), some (.len b) => if a = b then some a else none
  | some (.len a), _ => some a
  | _, some (.len b) => some b
  | _, _ => some (.px 0)

end

end Verif.Shapes
