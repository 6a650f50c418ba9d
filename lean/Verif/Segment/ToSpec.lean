import Verif.Segment.Spec

/-!
# Specification: path commands that redraw segments
-/

namespace Verif.Segment

/-- The piece is drawn like the data from the point `p`: lines are the same, an arc has the shape given for it and the
same end, and the control points of curves are near: those of a cubic curve within the tolerance, those of a quadratic
one, written as a cubic one, within 2/3 and 4/3 of it. -/
inductive Near (tol2 : Rat) (shape : Pt → Arc → Shape) (p : Pt) : Data → Op → Prop
  | line {q} : Near tol2 shape p (.lineTo q) (.line p q)
  | arc {a} : Near tol2 shape p (.arcTo a) (.arc p (shape p a) a.to)
  | cubic {a b q a'} : a.dist2 a' ≤ tol2 → Near tol2 shape p (.curveTo a b q) (.cubic p a' b q)
  | quad {a b q c a' b'} :
      (∀ t, bezier3 p.x a'.x b'.x q.x t = bezier2 p.x c.x q.x t) →
      (∀ t, bezier3 p.y a'.y b'.y q.y t = bezier2 p.y c.y q.y t) →
      a.dist2 a' ≤ 4 / 9 * tol2 → b.dist2 b' ≤ 16 / 9 * tol2 → Near tol2 shape p (.curveTo a b q) (.quad p c q)

/-- The same of lists, each piece from the end of the one before. -/
inductive NearAll (tol2 : Rat) (shape : Pt → Arc → Shape) : Pt → List Data → List Op → Prop
  | nil {p} : NearAll tol2 shape p [] []
  | cons {p d ds o ops} : Near tol2 shape p d o → NearAll tol2 shape d.endPoint ds ops →
      NearAll tol2 shape p (d :: ds) (o :: ops)

/-- A subpath redraws a segment: same start, same closure, and near pieces; the last line to the start of a closed
segment may be left to the closure. -/
def Redraws (tol2 : Rat) (shape : Pt → Arc → Shape) (s : Segment) (u : Sub) : Prop :=
  u.start = s.start ∧ u.closed = s.closed ∧
    (NearAll tol2 shape s.start s.data u.ops ∨
      s.closed = true ∧ ∃ ds, s.data = ds ++ [.lineTo s.start] ∧ NearAll tol2 shape s.start ds u.ops)

/-- Subpaths redraw segments, one by one. -/
inductive RedrawsAll (tol2 : Rat) (shape : Pt → Arc → Shape) : List Segment → List Sub → Prop
  | nil : RedrawsAll tol2 shape [] []
  | cons {s l u m} : Redraws tol2 shape s u → RedrawsAll tol2 shape l m → RedrawsAll tol2 shape (s :: l) (u :: m)

/-- The curve from `p` with control points `a` and `b` to `q` is nearly quadratic with control point `c`. -/
def IsQuad (tol2 : Rat) (p a b q c : Pt) : Prop :=
  c.x = p.x + 3 / 2 * (a.x - p.x) ∧ c.y = p.y + 3 / 2 * (a.y - p.y) ∧
    c.dist2 ⟨q.x + 3 / 2 * (b.x - q.x), q.y + 3 / 2 * (b.y - q.y)⟩ < tol2

/-- What data leave for a smooth command. -/
inductive Left (tol2 : Rat) (p : Pt) : Data → Option (Bool × Pt) → Prop
  | line {q} : Left tol2 p (.lineTo q) none
  | arc {a} : Left tol2 p (.arcTo a) none
  | quad {a b q c} : IsQuad tol2 p a b q c → Left tol2 p (.curveTo a b q) (some (true, c))
  | cubic {a b q} : (∀ c, ¬ IsQuad tol2 p a b q c) → Left tol2 p (.curveTo a b q) (some (false, b))

/-- A curve from `p` is not mistaken for a continuation of the curve before, which left `k` (`true`: a quadratic one).
`first` says that the curve is the first of its subpath. -/
def Apart (tol2 : Rat) (first : Bool) (p : Pt) (k : Option (Bool × Pt)) (d : Data) : Prop :=
  match k, d with
  | some (true, c), .curveTo a b q => 4 * tol2 ≤ a.dist2 (mirror p (some c)) ∧
      (first = true → ∀ c', IsQuad tol2 p a b q c' → 4 * tol2 ≤ c'.dist2 (mirror p (some c)))
  | some (false, c), .curveTo a b q => (first = true → tol2 ≤ a.dist2 (mirror p (some c))) ∧
      (∀ c', IsQuad tol2 p a b q c' → tol2 ≤ c'.dist2 (mirror p (some c)))
  | _, _ => True

/-- A line or arc from `p` that is not taken for a closure or left out: it has an extent, and a slanted line leads to
the start of its segment only as the last of a closed one. -/
def Proper (start : Pt) (closing : Bool) (p : Pt) : Data → Prop
  | .lineTo q => p ≠ q ∧ (q = start → q.x = p.x ∨ q.y = p.y ∨ closing = true)
  | .arcTo a => p ≠ a.to
  | .curveTo .. => True

/-- The data of a segment, from the point `p` on, after a curve that left `k`; `k'` is left at the end. -/
inductive Fits (tol2 : Rat) (start : Pt) (closed : Bool) :
    Bool → Pt → Option (Bool × Pt) → List Data → Option (Bool × Pt) → Prop
  | nil {first p k} : Fits tol2 start closed first p k [] k
  | cons {first p k d ds k' k''} : Proper start (closed && ds.isEmpty) p d → Apart tol2 first p k d →
      Left tol2 p d k' → Fits tol2 start closed false d.endPoint k' ds k'' → Fits tol2 start closed first p k (d :: ds) k''

/-- The segments of a path after a curve that left `k`. Only segments with data are closed. -/
inductive FitsAll (tol2 : Rat) : Option (Bool × Pt) → List Segment → Prop
  | nil {k} : FitsAll tol2 k []
  | empty {k s l} : s.data = [] → s.closed = false → FitsAll tol2 none l → FitsAll tol2 k (s :: l)
  | cons {k k' s l} : s.data ≠ [] → Fits tol2 s.start s.closed true s.start k s.data k' → FitsAll tol2 k' l →
      FitsAll tol2 k (s :: l)

/-- SVG 8.3.1: a command letter may be left out if it is that of the command before, where lines follow a move. -/
def mayFollow : Cmd → Cmd → Bool
  | .moveTo _, .lineTo _ => true
  | .moveBy _, .lineBy _ => true
  | .lineTo _, .lineTo _ => true
  | .lineBy _, .lineBy _ => true
  | .horizontalTo _, .horizontalTo _ => true
  | .horizontalBy _, .horizontalBy _ => true
  | .verticalTo _, .verticalTo _ => true
  | .verticalBy _, .verticalBy _ => true
  | .cubicTo .., .cubicTo .. => true
  | .cubicBy .., .cubicBy .. => true
  | .smoothTo .., .smoothTo .. => true
  | .smoothBy .., .smoothBy .. => true
  | .quadTo .., .quadTo .. => true
  | .quadBy .., .quadBy .. => true
  | .smoothQuadTo _, .smoothQuadTo _ => true
  | .smoothQuadBy _, .smoothQuadBy _ => true
  | .arcTo .., .arcTo .. => true
  | .arcBy .., .arcBy .. => true
  | _, _ => false

end Verif.Segment
