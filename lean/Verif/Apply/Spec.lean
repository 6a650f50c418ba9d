import Verif.Apply.Model

/-!
# What path data draws

SVG 1.1, chapter 8.3 and appendix F.6. A path draws a sequence of pieces; each is a curve, given as a function of a
parameter from 0 to 1.
-/

namespace Verif.Apply

open Real Verif.Transform

noncomputable section

/-- A piece of a path, with its points. -/
inductive Piece where
  | move (p : Pt)
  | line (p q : Pt)
  | cubic (p p1 p2 q : Pt)
  | quad (p p1 q : Pt)
  | arc (p : Pt) (a : Arc) (q : Pt)
  | close (p q : Pt)

/-- The control point of the command before, for the commands that reflect it. -/
inductive Control where
  | other
  | cubic (p : Pt)
  | quad (p : Pt)

def reflect (cur p : Pt) : Pt := cur + cur - p

def Control.cubicStart (cur : Pt) : Control → Pt
  | .cubic p => reflect cur p
  | _ => cur

def Control.quadStart (cur : Pt) : Control → Pt
  | .quad p => reflect cur p
  | _ => cur

/-- Where the pen is: the start of the subpath, the current point, the control point before. -/
structure Pen where
  start : Pt
  cur : Pt
  control : Control

/-- What a command draws, and where the pen is then. -/
def Pen.draw (s : Pen) : Op → Piece × Pen
  | .moveTo p => (.move p, ⟨p, p, .other⟩)
  | .moveBy p => (.move (s.cur + p), ⟨s.cur + p, s.cur + p, .other⟩)
  | .lineTo p => (.line s.cur p, ⟨s.start, p, .other⟩)
  | .lineBy p => (.line s.cur (s.cur + p), ⟨s.start, s.cur + p, .other⟩)
  | .hTo x => (.line s.cur (x, s.cur.2), ⟨s.start, (x, s.cur.2), .other⟩)
  | .hBy x => (.line s.cur (s.cur.1 + x, s.cur.2), ⟨s.start, (s.cur.1 + x, s.cur.2), .other⟩)
  | .vTo y => (.line s.cur (s.cur.1, y), ⟨s.start, (s.cur.1, y), .other⟩)
  | .vBy y => (.line s.cur (s.cur.1, s.cur.2 + y), ⟨s.start, (s.cur.1, s.cur.2 + y), .other⟩)
  | .cubicTo p1 p2 p => (.cubic s.cur p1 p2 p, ⟨s.start, p, .cubic p2⟩)
  | .cubicBy p1 p2 p => (.cubic s.cur (s.cur + p1) (s.cur + p2) (s.cur + p), ⟨s.start, s.cur + p, .cubic (s.cur + p2)⟩)
  | .smoothTo p2 p => (.cubic s.cur (s.control.cubicStart s.cur) p2 p, ⟨s.start, p, .cubic p2⟩)
  | .smoothBy p2 p =>
    (.cubic s.cur (s.control.cubicStart s.cur) (s.cur + p2) (s.cur + p), ⟨s.start, s.cur + p, .cubic (s.cur + p2)⟩)
  | .quadTo p1 p => (.quad s.cur p1 p, ⟨s.start, p, .quad p1⟩)
  | .quadBy p1 p => (.quad s.cur (s.cur + p1) (s.cur + p), ⟨s.start, s.cur + p, .quad (s.cur + p1)⟩)
  | .tTo p => (.quad s.cur (s.control.quadStart s.cur) p, ⟨s.start, p, .quad (s.control.quadStart s.cur)⟩)
  | .tBy p =>
    (.quad s.cur (s.control.quadStart s.cur) (s.cur + p), ⟨s.start, s.cur + p, .quad (s.control.quadStart s.cur)⟩)
  | .arcTo a p => (.arc s.cur a p, ⟨s.start, p, .other⟩)
  | .arcBy a p => (.arc s.cur a (s.cur + p), ⟨s.start, s.cur + p, .other⟩)
  | .close => (.close s.cur s.start, ⟨s.start, s.start, .other⟩)

def Pen.pieces (s : Pen) : List Op → List Piece
  | [] => []
  | op :: l => (s.draw op).1 :: (s.draw op).2.pieces l

/-- Whether a command is a move. -/
def Op.isMove : Op → Bool
  | .moveTo _ => true
  | .moveBy _ => true
  | _ => false

/-- The pieces of a path. Data that does not begin with a move is in error and draws nothing. -/
def pieces (l : List Op) : List Piece :=
  if (l.head?.map Op.isMove) = some true then (Pen.mk 0 0 .other).pieces l else []

/-- A piece is a move, a drawn part or a closing line: this decides the subpaths. -/
inductive Kind where
  | move
  | drawn
  | close

def Piece.kind : Piece → Kind
  | .move _ => .move
  | .close _ _ => .close
  | _ => .drawn

/-- A point of the ellipse with the radii and the rotation of an arc, enlarged by `k`, for an angle. -/
def onEllipse (a : Arc) (k θ : ℝ) : Pt :=
  (k * (cos (a.rot * π / 180) * (|a.rx| * cos θ) - sin (a.rot * π / 180) * (|a.ry| * sin θ)),
    k * (sin (a.rot * π / 180) * (|a.rx| * cos θ) + cos (a.rot * π / 180) * (|a.ry| * sin θ)))

/-- F.6.6: how much the radii must be enlarged to reach from `p` to `q`. -/
def reach (a : Arc) (p q : Pt) : ℝ :=
  √(((cos (a.rot * π / 180) * ((p.1 - q.1) / 2) + sin (a.rot * π / 180) * ((p.2 - q.2) / 2)) / |a.rx|) ^ 2 +
    ((-sin (a.rot * π / 180) * ((p.1 - q.1) / 2) + cos (a.rot * π / 180) * ((p.2 - q.2) / 2)) / |a.ry|) ^ 2)

/-- A straight line. -/
def segment (p q : Pt) (t : ℝ) : Pt := (1 - t) • p + t • q

/-- F.6: the curve of an arc command. It lies on an ellipse around some centre, goes from `p` to `q`, its angle grows
exactly if `sweep` is set and covers more than a half turn only if `large` is set. -/
def IsArc (p : Pt) (a : Arc) (q : Pt) (γ : ℝ → Pt) : Prop :=
  if p = q then ∀ t, γ t = p
  else if a.rx = 0 ∨ a.ry = 0 then ∀ t, γ t = segment p q t
  else ∃ (c : Pt) (θ δ : ℝ), (∀ t, γ t = c + onEllipse a (max 1 (reach a p q)) (θ + t * δ)) ∧ γ 0 = p ∧ γ 1 = q ∧
    (0 < δ ↔ a.sweep = true) ∧ |δ| < 2 * π ∧ (if a.large then π ≤ |δ| else |δ| ≤ π)

/-- The curve of a piece. -/
def Piece.Curve : Piece → (ℝ → Pt) → Prop
  | .move p, γ => ∀ t, γ t = p
  | .line p q, γ => ∀ t, γ t = segment p q t
  | .close p q, γ => ∀ t, γ t = segment p q t
  | .cubic p p1 p2 q, γ => ∀ t, γ t = (1 - t) ^ 3 • p + (3 * (1 - t) ^ 2 * t) • p1 + (3 * (1 - t) * t ^ 2) • p2 + t ^ 3 • q
  | .quad p p1 q, γ => ∀ t, γ t = (1 - t) ^ 2 • p + (2 * (1 - t) * t) • p1 + t ^ 2 • q
  | .arc p a q, γ => IsArc p a q γ

/-- The curves a path draws, with their kinds. -/
def Draws (l : List Op) (γs : List (Kind × (ℝ → Pt))) : Prop :=
  List.Forall₂ (fun x y => x.kind = y.1 ∧ x.Curve y.2) (pieces l) γs

end

end Verif.Apply
