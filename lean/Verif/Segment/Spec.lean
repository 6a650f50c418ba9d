import Verif.Segment.Model

/-!
# Specification: what path data draw

The rules of SVG 1.1, chapter 8.3 (path data) and appendix F.6 (degenerate arcs), written without reference to the
code: every command draws one piece from the current point, subpaths begin with a move or after a close.
-/

namespace Verif.Segment

/-- A piece of a subpath with its first and its last point. -/
inductive Op where
  | line (p q : Pt)
  | quad (p c q : Pt)
  | cubic (p a b q : Pt)
  | arc (p : Pt) (s : Shape) (q : Pt)
deriving DecidableEq

/-- A subpath. -/
structure Sub where
  start : Pt
  ops : List Op
  closed : Bool
deriving DecidableEq

/-- Where the pen is, where the subpath began, and the control point of the piece before if it was cubic
or if it was quadratic. -/
structure Pen where
  cur : Pt
  start : Pt
  cubic : Option Pt
  quad : Option Pt
deriving DecidableEq

/-- What a command does. -/
inductive Act where
  | move (p : Pt)
  | close
  | draw (o : Op) (cubic quad : Option Pt)
deriving DecidableEq

/-- The end of a piece. -/
def Op.stop : Op → Pt
  | .line _ q => q
  | .quad _ _ q => q
  | .cubic _ _ _ q => q
  | .arc _ _ q => q

/-- SVG 8.3.6: the first control point of a smooth command is the reflection of the control point before, or the
current point if the command before was of another kind. -/
def mirror (cur : Pt) : Option Pt → Pt
  | some c => ⟨cur.x + (cur.x - c.x), cur.y + (cur.y - c.y)⟩
  | none => cur

/-- SVG 8.3.2-8.3.8: what a command does when the pen is as given. -/
def act : Cmd → Pen → Act
  | .moveTo p, _ => .move p
  | .moveBy p, s => .move ⟨s.cur.x + p.x, s.cur.y + p.y⟩
  | .closePath, _ => .close
  | .lineTo p, s => .draw (.line s.cur p) none none
  | .lineBy p, s => .draw (.line s.cur ⟨s.cur.x + p.x, s.cur.y + p.y⟩) none none
  | .horizontalTo x, s => .draw (.line s.cur ⟨x, s.cur.y⟩) none none
  | .horizontalBy x, s => .draw (.line s.cur ⟨s.cur.x + x, s.cur.y⟩) none none
  | .verticalTo y, s => .draw (.line s.cur ⟨s.cur.x, y⟩) none none
  | .verticalBy y, s => .draw (.line s.cur ⟨s.cur.x, s.cur.y + y⟩) none none
  | .cubicTo a b p, s => .draw (.cubic s.cur a b p) (some b) none
  | .cubicBy a b p, s => .draw (.cubic s.cur (s.cur + a) (s.cur + b) (s.cur + p)) (some (s.cur + b)) none
  | .smoothTo b p, s => .draw (.cubic s.cur (mirror s.cur s.cubic) b p) (some b) none
  | .smoothBy b p, s =>
    .draw (.cubic s.cur (mirror s.cur s.cubic) (s.cur + b) (s.cur + p)) (some (s.cur + b)) none
  | .quadTo c p, s => .draw (.quad s.cur c p) none (some c)
  | .quadBy c p, s => .draw (.quad s.cur (s.cur + c) (s.cur + p)) none (some (s.cur + c))
  | .smoothQuadTo p, s => .draw (.quad s.cur (mirror s.cur s.quad) p) none (some (mirror s.cur s.quad))
  | .smoothQuadBy p, s =>
    .draw (.quad s.cur (mirror s.cur s.quad) (s.cur + p)) none (some (mirror s.cur s.quad))
  | .arcTo a p, s => .draw (.arc s.cur a p) none none
  | .arcBy a p, s => .draw (.arc s.cur a (s.cur + p)) none none
  | .implicit c, s => act c s

/-- The subpaths drawn by commands, when the current subpath consists of `ops` so far. -/
def draw : List Cmd → Pen → List Op → List Sub
  | [], s, ops => [⟨s.start, ops, false⟩]
  | c :: cs, s, ops => match act c s with
    | .move p => ⟨s.start, ops, false⟩ :: draw cs ⟨p, p, none, none⟩ []
    | .close => ⟨s.start, ops, true⟩ :: draw cs ⟨s.start, s.start, none, none⟩ []
    | .draw o cubic quad => draw cs ⟨o.stop, s.start, cubic, quad⟩ (ops ++ [o])

/-- The subpaths of path data; a relative first move is taken as absolute (8.3.2). -/
def subpaths : List Cmd → List Sub
  | [] => []
  | c :: cs => match act c ⟨⟨0, 0⟩, ⟨0, 0⟩, none, none⟩ with
    | .move p => draw cs ⟨p, p, none, none⟩ []
    | _ => []

/-- Point at `t` of the quadratic Bézier curve, one coordinate. -/
def bezier2 (p c q t : Rat) : Rat := (1 - t) ^ 2 * p + 2 * (1 - t) * t * c + t ^ 2 * q

/-- Point at `t` of the cubic Bézier curve, one coordinate. -/
def bezier3 (p a b q t : Rat) : Rat :=
  (1 - t) ^ 3 * p + 3 * (1 - t) ^ 2 * t * a + 3 * (1 - t) * t ^ 2 * b + t ^ 3 * q

/-- Two pieces are drawn alike: they are equal, or a cubic curve runs like a quadratic one at every `t`, or an arc
without radius is a line (F.6.2). -/
inductive Alike : Op → Op → Prop
  | refl (o : Op) : Alike o o
  | quad {p a b c q} : (∀ t, bezier3 p.x a.x b.x q.x t = bezier2 p.x c.x q.x t) →
      (∀ t, bezier3 p.y a.y b.y q.y t = bezier2 p.y c.y q.y t) → Alike (.cubic p a b q) (.quad p c q)
  | arc {p s q} : s.r.x = 0 ∨ s.r.y = 0 → Alike (.line p q) (.arc p s q)

/-- Data of a segment as a piece that begins at a point. -/
def Data.op (p : Pt) : Data → Op
  | .lineTo q => .line p q
  | .curveTo a b q => .cubic p a b q
  | .arcTo a => .arc p a.s a.to

/-- The data of a segment, begun at a point, are drawn like the pieces. -/
inductive Drawn : Pt → List Data → List Op → Prop
  | nil {p} : Drawn p [] []
  | cons {p d ds o ops} : Alike (d.op p) o → Drawn d.endPoint ds ops → Drawn p (d :: ds) (o :: ops)

/-- Segments are drawn like subpaths, one after the other, and are closed likewise. -/
inductive Agree : List Segment → List Sub → Prop
  | nil : Agree [] []
  | cons {s l u m} : s.start = u.start → Drawn s.start s.data u.ops → s.closed = u.closed → Agree l m →
      Agree (s :: l) (u :: m)

/-- A piece is no degenerate arc: the radii are zero or not tiny, and the ends differ. -/
def Op.Plain : Op → Prop
  | .arc p s q => p ≠ q ∧ (s.r.x = 0 ∨ s.r.y = 0 ∨ (1 / 100000 ≤ s.r.x.abs ∧ 1 / 100000 ≤ s.r.y.abs))
  | _ => True

/-- A command without marks of being implied. -/
def Cmd.plain : Cmd → Cmd
  | .implicit c => c.plain
  | c => c

/-- Kinds of commands with respect to smooth continuation. -/
inductive Bend where
  | cubic | quad | other
deriving DecidableEq

/-- The kind of curve that a command draws. -/
def Cmd.bend (c : Cmd) : Bend :=
  match c.plain with
  | .cubicTo .. | .cubicBy .. | .smoothTo .. | .smoothBy .. => .cubic
  | .quadTo .. | .quadBy .. | .smoothQuadTo .. | .smoothQuadBy .. => .quad
  | _ => .other

/-- The kind of curve whose control point a command continues. -/
def Cmd.continues (c : Cmd) : Bend :=
  match c.plain with
  | .smoothTo .. | .smoothBy .. => .cubic
  | .smoothQuadTo .. | .smoothQuadBy .. => .quad
  | _ => .other

/-- No smooth command follows a curve of the other kind. -/
def SmoothOk : Bend → List Cmd → Prop
  | _, [] => True
  | b, c :: cs => (c.continues = .cubic → b ≠ .quad) ∧ (c.continues = .quad → b ≠ .cubic) ∧ SmoothOk c.bend cs

/-- The last point of a subpath before it is closed. -/
def Sub.last (u : Sub) : Pt := u.ops.foldl (fun _ o => o.stop) u.start

/-- The subpaths with the closures as the code decides them: a subpath that is not closed counts as closed if it ends
near the start of the next one (near its own start if it is the last). -/
def marked (tol : Rat) : List Sub → List Sub
  | [] => []
  | [u] => [{ u with closed := u.closed || decide (u.start.dist2 u.last < tol * tol) }]
  | u :: v :: l =>
    { u with closed := u.closed || decide (v.start.dist2 u.last < tol * tol) } ::
      marked tol (v :: l)

/-- Subpaths whose end leaves no doubt whether they are closed: an open one ends apart from the start of the next
one, or apart from its own if it is the last; none consists of a close only. -/
def Clear (tol : Rat) : List Sub → Prop
  | [] => True
  | [u] => (u.closed = true → u.ops ≠ []) ∧ (u.closed = false → u.ops ≠ [] → tol * tol ≤ u.start.dist2 u.last)
  | u :: v :: l => (u.closed = true → u.ops ≠ []) ∧
      (u.closed = false → u.ops ≠ [] → tol * tol ≤ v.start.dist2 u.last) ∧ Clear tol (v :: l)

/-- A subpath draws something: it has a piece or is closed. -/
def Sub.visible (u : Sub) : Bool := !u.ops.isEmpty || u.closed

/-- A subpath has a piece. -/
def Sub.hasOps (u : Sub) : Bool := !u.ops.isEmpty

/-- A segment has a piece. -/
def Segment.hasData (s : Segment) : Bool := !s.data.isEmpty

end Verif.Segment
