import Verif.Segment.Model

/-!
# Model: segments as path commands

`crates/oxvg_path/src/paths/segment/convert.rs` 240-586 (`to_svg`), with `paths/segment.rs` 149-157 and 223-271 (the iterator over
data and their start points) and what they use of `geometry/curve.rs`.

As in `Verif.Segment.Model`, numbers are rational. Parameters of the model are

- `rnd`, the rounding of a number to the precision (`TolerancePrecision::round`),
- `tol2`, the square of the positional tolerance,
- `size`, the length that a command is estimated to have after another one (`size_hint_with_args` and the space of
  convert.rs 557-568),
- `shape`, the arguments of an arc but for its end (`Arc::to_arc_to` and the rounding of radii, 485-510),
- `minBy`, the smallest step along the tangent of an arc (512-516).
-/

namespace Verif.Segment

/-- The parameters. -/
structure Env where
  rnd : Rat → Rat
  tol2 : Rat
  size : Option Cmd → Cmd → Nat
  shape : Pt → Arc → Shape
  minBy : Arc → Pt

/-- svg/command.rs 61-107, `ID`, without `Implicit`. -/
inductive Name where
  | moveTo | moveBy | closePath | lineTo | lineBy | horizontalTo | horizontalBy | verticalTo | verticalBy
  | cubicTo | cubicBy | smoothTo | smoothBy | quadTo | quadBy | smoothQuadTo | smoothQuadBy | arcTo | arcBy
deriving DecidableEq

/-- svg/command.rs, `Data::id` followed by `ID::as_explicit` (379-384). -/
def Cmd.name : Cmd → Name
  | .moveTo _ => .moveTo
  | .moveBy _ => .moveBy
  | .closePath => .closePath
  | .lineTo _ => .lineTo
  | .lineBy _ => .lineBy
  | .horizontalTo _ => .horizontalTo
  | .horizontalBy _ => .horizontalBy
  | .verticalTo _ => .verticalTo
  | .verticalBy _ => .verticalBy
  | .cubicTo .. => .cubicTo
  | .cubicBy .. => .cubicBy
  | .smoothTo .. => .smoothTo
  | .smoothBy .. => .smoothBy
  | .quadTo .. => .quadTo
  | .quadBy .. => .quadBy
  | .smoothQuadTo _ => .smoothQuadTo
  | .smoothQuadBy _ => .smoothQuadBy
  | .arcTo .. => .arcTo
  | .arcBy .. => .arcBy
  | .implicit c => c.name

/-- svg/command.rs 388-395, `ID::next_implicit`. -/
def Name.nextImplicit : Name → Name
  | .moveTo => .lineTo
  | .moveBy => .lineBy
  | n => n

/-- svg/command.rs 223-225, `is_implicit`. -/
def Cmd.isImplicit : Cmd → Bool
  | .implicit _ => true
  | _ => false

/-- Rounding of both coordinates. -/
def Pt.round (rnd : Rat → Rat) (p : Pt) : Pt := ⟨rnd p.x, rnd p.y⟩

/-- svg/command.rs 198-207, `Data::round`; the end of an arc is left as it is. The flags of an arc are not numbers
here. -/
def Cmd.round (rnd : Rat → Rat) : Cmd → Cmd
  | .moveTo p => .moveTo (p.round rnd)
  | .moveBy p => .moveBy (p.round rnd)
  | .closePath => .closePath
  | .lineTo p => .lineTo (p.round rnd)
  | .lineBy p => .lineBy (p.round rnd)
  | .horizontalTo x => .horizontalTo (rnd x)
  | .horizontalBy x => .horizontalBy (rnd x)
  | .verticalTo x => .verticalTo (rnd x)
  | .verticalBy x => .verticalBy (rnd x)
  | .cubicTo a b p => .cubicTo (a.round rnd) (b.round rnd) (p.round rnd)
  | .cubicBy a b p => .cubicBy (a.round rnd) (b.round rnd) (p.round rnd)
  | .smoothTo b p => .smoothTo (b.round rnd) (p.round rnd)
  | .smoothBy b p => .smoothBy (b.round rnd) (p.round rnd)
  | .quadTo c p => .quadTo (c.round rnd) (p.round rnd)
  | .quadBy c p => .quadBy (c.round rnd) (p.round rnd)
  | .smoothQuadTo p => .smoothQuadTo (p.round rnd)
  | .smoothQuadBy p => .smoothQuadBy (p.round rnd)
  | .arcTo s p => .arcTo ⟨s.r.round rnd, rnd s.rot, s.large, s.sweep⟩ p
  | .arcBy s p => .arcBy ⟨s.r.round rnd, rnd s.rot, s.large, s.sweep⟩ p
  | .implicit c => .implicit (c.round rnd)

/-- convert.rs 546-552: a command that the one before implies is marked so. -/
def markImplicit (imp : Option Name) (c : Cmd) : Cmd :=
  if imp = some c.name then .implicit c else c

/-- convert.rs 570-573: `a` is less than `b`, by size, and implicit before explicit. -/
def less (size : Cmd → Nat) (a b : Cmd) : Bool :=
  decide (size a < size b) || (decide (size a = size b) && a.isImplicit && !b.isImplicit)

/-- `Iterator::min_by`: the first of the least; `none` is the panic of 575. -/
def pick (size : Cmd → Nat) : List Cmd → Option Cmd
  | [] => none
  | c :: cs => some (cs.foldl (fun best d => if less size d best then d else best) c)

/-- convert.rs 538-576, `compactest_vec`. -/
def Env.compactest (e : Env) (prev : Option Cmd) (cands : List Cmd) : Option Cmd :=
  pick (e.size prev) ((cands.map (markImplicit (prev.map (fun c => c.name.nextImplicit)))).map (Cmd.round e.rnd))

/-- convert.rs 332-358, `to_svg_line`. -/
def Env.toLine (e : Env) (prev : Option Cmd) (segStart start to : Pt) : Option Cmd :=
  let d := to - start
  if start = to then some .closePath
  else if e.rnd to.x = e.rnd start.x then e.compactest prev [.verticalBy d.y, .verticalTo to.y]
  else if e.rnd to.y = e.rnd start.y then e.compactest prev [.horizontalBy d.x, .horizontalTo to.x]
  else if to = segStart then some .closePath
  else e.compactest prev [.lineBy d, .lineTo to]

/-- convert.rs 475-536, `to_svg_arc`. -/
def Env.toArc (e : Env) (prev : Option Cmd) (start : Pt) (a : Arc) : Option Cmd :=
  let d := (a.to - start).round e.rnd
  let s := e.shape start a
  let m := e.minBy a
  let start := start.round e.rnd
  let to := a.to.round e.rnd
  e.compactest prev
    [.arcBy s (if d.x = 0 ∧ d.y = 0 then m else d),
     .arcTo s (if to.x = start.x ∧ to.y = start.y then start + m else to)]

/-- geometry/curve.rs 109-140, `quad_control`, of the curve with control points `a` and `b`. -/
def quadControl (tol2 : Rat) (start a b p : Pt) : Option Pt :=
  let q := start + (a - start).scale (3 / 2)
  if q.dist2 (p + (b - p).scale (3 / 2)) < tol2 then some q else none

/-- geometry/curve.rs 336-345, `is_smooth`. -/
def isSmooth (tol2 : Rat) (start a : Pt) (control : Option Pt) : Bool :=
  decide (a.dist2 (reflected start control) < tol2)

/-- geometry/curve.rs 222-234, `smooth_quadratic_bezier_unchecked_quad`. -/
def isSmoothQuad (tol2 : Rat) (start : Pt) (quad : Pt) : Option Pt → Bool
  | some c => decide (quad.dist2 (c.reflect start) < tol2)
  | none => false

/-- geometry/curve.rs 300-334, `types`, its last part: the curve is a smooth quadratic one. -/
def quadIsSmooth (tol2 : Rat) (start : Pt) (control : Option Pt) : Option Pt → Bool
  | some q => isSmoothQuad tol2 start q control
  | none => false

/-- convert.rs 416-434: the next data are a smooth quadratic curve after the control point `q`. -/
def nextIsSmoothQuad (tol2 : Rat) (to : Pt) : Option Pt → Option Data → Bool
  | some q, some (.curveTo a b p) => quadIsSmooth tol2 to (some q) (quadControl tol2 to a b p)
  | _, _ => false

/-- convert.rs 380-414: the cubic candidates. -/
def cubicCands (smooth : Bool) (start a b p : Pt) : List Cmd :=
  if smooth then [.smoothBy (b - start) (p - start), .smoothTo b p]
  else [.cubicBy (a - start) (b - start) (p - start), .cubicTo a b p]

/-- convert.rs 436-456: the quadratic candidates. -/
def quadCands (smooth : Bool) (start p : Pt) : Option Pt → List Cmd
  | some q => if smooth then [.smoothQuadBy (p - start), .smoothQuadTo p]
    else [.quadBy (q - start) (p - start), .quadTo q p]
  | none => []

/-- convert.rs 459-470: the control point after the command. -/
def controlAfter (start b : Pt) (control quad : Option Pt) : Name → Option Pt
  | .quadTo => quad
  | .quadBy => quad
  | .smoothQuadTo => control.map (fun c => c.reflect start)
  | .smoothQuadBy => control.map (fun c => c.reflect start)
  | .cubicTo => some (quad.getD b)
  | .cubicBy => some (quad.getD b)
  | .smoothTo => some (quad.getD b)
  | .smoothBy => some (quad.getD b)
  | _ => none

/-- convert.rs 361-472, `to_svg_curve`. -/
def Env.toCurve (e : Env) (prev : Option Cmd) (control : Option Pt) (start a b p : Pt) (next : Option Data) :
    Option (Cmd × Option Pt) :=
  let quad := quadControl e.tol2 start a b p
  let cubic := if nextIsSmoothQuad e.tol2 p quad next then []
    else cubicCands (isSmooth e.tol2 start a control) start a b p
  (e.compactest prev (cubic ++ quadCands (quadIsSmooth e.tol2 start control quad) start p quad)).map
    (fun c => (c, controlAfter start b control quad c.name))

/-- convert.rs 268-305: the command for the data and the control point afterwards. -/
def Env.emit (e : Env) (prev : Option Cmd) (control : Option Pt) (segStart start : Pt) (next : Option Data) :
    Data → Option (Cmd × Option Pt)
  | .lineTo p => (e.toLine prev segStart start p).map (fun c => (c, none))
  | .arcTo a => (e.toArc prev start a).map (fun c => (c, none))
  | .curveTo a b p => e.toCurve prev control start a b p next

/-- convert.rs 307-321: the move before the first command of a segment, and that command. -/
def Env.withMove (e : Env) (segStart segBy : Pt) (c : Cmd) : Cmd × Cmd :=
  match c.name with
  | .lineBy => (Cmd.round e.rnd (.moveBy segBy), .implicit c)
  | .lineTo => (Cmd.round e.rnd (.moveTo segStart), .implicit c)
  | _ => (Cmd.round e.rnd (.moveTo segStart), c)

/-- The data of one segment after its first, convert.rs 251-327: `prev` is the last command. -/
def Env.segRest (e : Env) (segStart : Pt) (closed : Bool) : Cmd → Pt → Option Pt → List Data →
    Option (List Cmd × Option Pt)
  | _, _, control, [] => some ([], control)
  | prev, start, control, d :: ds =>
    (e.emit (some prev) control segStart start ds.head? d).bind fun (c, control) =>
    (e.segRest segStart closed c d.endPoint control ds).bind fun (cs, control) =>
    some (c :: (if closed && ds.isEmpty && c != .closePath then [.closePath] else []) ++ cs, control)

/-- The data of one segment, convert.rs 251-327. -/
def Env.segData (e : Env) (segStart segBy : Pt) (closed : Bool) (control : Option Pt) : List Data →
    Option (List Cmd × Option Pt)
  | [] => some ([Cmd.round e.rnd (.moveTo segStart)], none)
  | d :: ds =>
    (e.emit none control segStart segStart ds.head? d).bind fun (c, control) =>
    let m := e.withMove segStart segBy c
    (e.segRest segStart closed m.2 d.endPoint control ds).bind fun (cs, control) =>
    some (m.1 :: m.2 :: (if closed && ds.isEmpty && m.2 != .closePath then [.closePath] else []) ++ cs, control)

/-- paths/segment.rs 149-157, `Segment::end_point`. -/
def Segment.endPoint (s : Segment) : Pt := if s.closed then s.start else lastEnd s.start s.data

/-- paths/segment.rs 230-234: the start of a segment relative to the end of the one before. -/
def startBy (prevEnd : Option Pt) (start : Pt) : Pt :=
  match prevEnd with
  | some p => start - p
  | none => start

/-- convert.rs 242-330, `Path::to_svg`, after segments that end in `prevEnd`. -/
def Env.segments (e : Env) : Option Pt → Option Pt → List Segment → Option (List Cmd)
  | _, _, [] => some []
  | prevEnd, control, s :: l =>
    (e.segData s.start (startBy prevEnd s.start) s.closed control s.data).bind fun (cs, control) =>
    (e.segments (some s.endPoint) control l).bind fun rest => some (cs ++ rest)

/-- convert.rs 242-330, `Path::to_svg`; `none` is the panic of 575. -/
def Env.toSvg (e : Env) (l : List Segment) : Option (List Cmd) := e.segments none none l

end Verif.Segment
