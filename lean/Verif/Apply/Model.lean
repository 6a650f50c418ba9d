import Verif.Transform.Spec

/-!
# Model: applying a transform to path data

`crates/oxvg_optimiser/src/jobs/apply_transforms.rs`.

Numbers are real and arithmetic is exact. Commands are explicit: the code unwraps `Data::Implicit` first (lines 270-272).
`none` stands for a number that is not a number (0 / 0), or a panic.
-/

namespace Verif.Apply

open Real Verif.Transform

noncomputable section

/-- The first five arguments of an arc; the flags are booleans here. -/
@[ext] structure Arc where
  rx : ℝ
  ry : ℝ
  rot : ℝ
  large : Bool
  sweep : Bool

/-- crates/oxvg_path/src/paths/svg/command.rs, `Data`. -/
inductive Op where
  | moveTo (p : Pt)
  | moveBy (p : Pt)
  | lineTo (p : Pt)
  | lineBy (p : Pt)
  | hTo (x : ℝ)
  | hBy (x : ℝ)
  | vTo (y : ℝ)
  | vBy (y : ℝ)
  | cubicTo (p1 p2 p : Pt)
  | cubicBy (p1 p2 p : Pt)
  | smoothTo (p2 p : Pt)
  | smoothBy (p2 p : Pt)
  | quadTo (p1 p : Pt)
  | quadBy (p1 p : Pt)
  | tTo (p : Pt)
  | tBy (p : Pt)
  | arcTo (a : Arc) (p : Pt)
  | arcBy (a : Arc) (p : Pt)
  | close

/-- A linear map by its columns: `(p, q)` is the image of (1, 0) and `(r, s)` that of (0, 1). -/
@[ext] structure Lin where
  p : ℝ
  q : ℝ
  r : ℝ
  s : ℝ

/-- apply_transforms.rs:375-380, `transform_absolute_point`. -/
def absolute (m : M) (p : Pt) : Pt := (m.a * p.1 + m.c * p.2 + m.e, m.b * p.1 + m.d * p.2 + m.f)

/-- apply_transforms.rs:382-384, `transform_relative_point`. -/
def relative (m : M) (p : Pt) : Pt := (m.a * p.1 + m.c * p.2, m.b * p.1 + m.d * p.2)

/-- apply_transforms.rs:436-446, the factor by which radii that are too small are enlarged. -/
def enlarge (a b cos sin : ℝ) (p : Pt) : ℝ :=
  if 0 < a ∧ 0 < b then
    let h := (p.1 * cos + p.2 * sin) ^ 2 / (4 * a * a) + (p.2 * cos - p.1 * sin) ^ 2 / (4 * b * b)
    if 1 < h then √h else 1
  else 1

/-- apply_transforms.rs:431-448, `rotated_ellipse`, and 388-391, the matrix made of it. -/
def ellipse (a : Arc) (p : Pt) : Lin :=
  let rotation := a.rot * π / 180
  let h := enlarge a.rx a.ry (cos rotation) (sin rotation) p
  ⟨a.rx * h * cos rotation, a.rx * h * sin rotation, -(a.ry * h) * sin rotation, a.ry * h * cos rotation⟩

/-- apply_transforms.rs:450-459, `multiply_transform_matrices`, without the translation, which is not used. -/
def multiply (m : M) (e : Lin) : Lin :=
  ⟨m.a * e.p + m.c * e.q, m.b * e.p + m.d * e.q, m.a * e.r + m.c * e.s, m.b * e.r + m.d * e.s⟩

/-- apply_transforms.rs:394, `last_col`. -/
def Lin.lastCol (n : Lin) : ℝ := n.r * n.r + n.s * n.s

/-- apply_transforms.rs:395, `square_sum`. -/
def Lin.squareSum (n : Lin) : ℝ := n.p * n.p + n.q * n.q + n.lastCol

/-- apply_transforms.rs:396-397, `root`. -/
def Lin.root (n : Lin) : ℝ := hypot (n.p - n.s) (n.q + n.r) * hypot (n.p + n.s) (n.q - n.r)

/-- apply_transforms.rs:404-405, the squares of the axes. -/
def Lin.majorSquare (n : Lin) : ℝ := (n.squareSum + n.root) / 2
def Lin.minorSquare (n : Lin) : ℝ := (n.squareSum - n.root) / 2

/-- apply_transforms.rs:406, `major`. -/
def Lin.major (n : Lin) : Prop := |n.majorSquare - n.lastCol| > 1 / 1000000

instance (n : Lin) : Decidable n.major := Classical.propDecidable _

/-- apply_transforms.rs:407-411, `sub`. -/
def Lin.sub (n : Lin) : ℝ := (if n.major then n.majorSquare else n.minorSquare) - n.lastCol

/-- apply_transforms.rs:412, `rows_sum`. -/
def Lin.rowsSum (n : Lin) : ℝ := n.p * n.r + n.q * n.s

/-- apply_transforms.rs:413-414, the two terms. -/
def Lin.term1 (n : Lin) : ℝ := n.p * n.sub + n.r * n.rowsSum
def Lin.term2 (n : Lin) : ℝ := n.q * n.sub + n.s * n.rowsSum

/-- apply_transforms.rs:415-425, the rotation of the ellipse in degrees; `none` for 0 / 0. -/
def Lin.angle (n : Lin) : Option ℝ :=
  if hypot n.term1 n.term2 = 0 then none
  else
    let term := if n.major then n.term1 else n.term2
    let sign := if (n.major ∧ n.term2 < 0) ∨ (¬ n.major ∧ n.term1 > 0) then -1 else 1
    some (sign * arccos (term / hypot n.term1 n.term2) * 180 / π)

/-- apply_transforms.rs:399-426, the radii and the rotation. -/
def axes (n : Lin) : Option (ℝ × ℝ × ℝ) :=
  if n.root = 0 then some (√(n.squareSum / 2), √(n.squareSum / 2), 0)
  else n.angle.map fun φ => (√n.majorSquare, √n.minorSquare, φ)

/-- apply_transforms.rs:340-343 and 352-355, turning a steep ellipse by a right angle. -/
def upright (x : ℝ × ℝ × ℝ) : ℝ × ℝ × ℝ :=
  if |x.2.2| > 80 then (x.2.1, x.1, x.2.2 + (if x.2.2 > 0 then -90 else 90)) else x

/-- apply_transforms.rs:428-430, whether the direction is reversed. -/
def flips (m : M) : Prop := ¬ (m.a < 0 ↔ m.d < 0)

instance (m : M) : Decidable (flips m) := Classical.propDecidable _

/-- apply_transforms.rs:386-429, `transform_arc`, and what follows it; `p` is the end relative to the start. -/
def transformArc (m : M) (a : Arc) (p : Pt) : Option Arc :=
  (axes (multiply m (ellipse a p))).map fun x =>
    ⟨(upright x).1, (upright x).2.1, (upright x).2.2, a.large, if flips m then !a.sweep else a.sweep⟩

/-- apply_transforms.rs:273-279, lines along an axis become lines. -/
def straighten (cursor : Pt) : Op → Op
  | .hTo x => .lineTo (x, cursor.2)
  | .hBy x => .lineBy (x, 0)
  | .vTo y => .lineTo (cursor.1, y)
  | .vBy y => .lineBy (0, y)
  | op => op

/-- apply_transforms.rs:280-372, the cursor and the start after a command. -/
def track (start cursor : Pt) : Op → Pt × Pt
  | .moveTo p => (p, p)
  | .moveBy p => (cursor + p, cursor + p)
  | .lineTo p => (start, p)
  | .tTo p => (start, p)
  | .lineBy p => (start, cursor + p)
  | .tBy p => (start, cursor + p)
  | .cubicTo _ _ p => (start, p)
  | .cubicBy _ _ p => (start, cursor + p)
  | .smoothTo _ p => (start, p)
  | .quadTo _ p => (start, p)
  | .smoothBy _ p => (start, cursor + p)
  | .quadBy _ p => (start, cursor + p)
  | .arcTo _ p => (start, p)
  | .arcBy _ p => (start, cursor + p)
  | .close => (start, start)
  | .hTo _ => (start, cursor)
  | .hBy _ => (start, cursor)
  | .vTo _ => (start, cursor)
  | .vBy _ => (start, cursor)

/-- apply_transforms.rs:280-372, the command itself. -/
def mapOp (m : M) (cursor : Pt) : Op → Option Op
  | .moveTo p => some (.moveTo (absolute m p))
  | .moveBy p => some (.moveBy (relative m p))
  | .lineTo p => some (.lineTo (absolute m p))
  | .tTo p => some (.tTo (absolute m p))
  | .lineBy p => some (.lineBy (relative m p))
  | .tBy p => some (.tBy (relative m p))
  | .cubicTo p1 p2 p => some (.cubicTo (absolute m p1) (absolute m p2) (absolute m p))
  | .cubicBy p1 p2 p => some (.cubicBy (relative m p1) (relative m p2) (relative m p))
  | .smoothTo p2 p => some (.smoothTo (absolute m p2) (absolute m p))
  | .quadTo p1 p => some (.quadTo (absolute m p1) (absolute m p))
  | .smoothBy p2 p => some (.smoothBy (relative m p2) (relative m p))
  | .quadBy p1 p => some (.quadBy (relative m p1) (relative m p))
  | .arcTo a p => (transformArc m a (p - cursor)).map fun a => .arcTo a (absolute m p)
  | .arcBy a p => (transformArc m a p).map fun a => .arcBy a (relative m p)
  | .close => some .close
  | .hTo _ => none
  | .hBy _ => none
  | .vTo _ => none
  | .vBy _ => none

/-- apply_transforms.rs:269-373, the loop. -/
def applyFrom (m : M) : Pt → Pt → List Op → Option (List Op)
  | _, _, [] => some []
  | start, cursor, op :: l =>
    let op := straighten cursor op
    match mapOp m cursor op, applyFrom m (track start cursor op).1 (track start cursor op).2 l with
    | some o, some l => some (o :: l)
    | _, _ => none

/-- apply_transforms.rs:264-268, the first command is made absolute. -/
def anchor : List Op → List Op
  | .moveBy p :: l => .moveTo p :: l
  | l => l

/-- apply_transforms.rs:260-373, `apply_matrix_to_path_data`. -/
def apply (m : M) (l : List Op) : Option (List Op) := applyFrom m 0 0 (anchor l)

end

end Verif.Apply
