import Verif.ArcTo.Lemmas

/-!
# Model: curves recognised as arcs

`crates/oxvg_path/src/geometry/ellipses.rs` and `arc.rs`, `fit_curve`: the arc of a circle that is to replace a cubic curve, and
`crates/oxvg_path/src/paths/segment/simplify.rs`, `arc_curves`, which replaces the curves of a path by such arcs.

Numbers are real, so arithmetic is exact: the rounding of `f64` is left out. The memoised end point of the arc is left out as well, which is the end
in exact arithmetic.
-/

namespace Verif.Fit

open Real Verif.Gjk Verif.ArcTo

/-- geometry/curve.rs 6-13, `Curve`. -/
structure Curve where
  a : Pt ℝ
  b : Pt ℝ
  p : Pt ℝ

/-- geometry/point.rs 396-398, `distance_squared`. -/
def dist2 (p q : Pt ℝ) : ℝ := (p.1 - q.1) * (p.1 - q.1) + (p.2 - q.2) * (p.2 - q.2)

/-- geometry/point.rs 376-378, `distance`. -/
noncomputable def dist (p q : Pt ℝ) : ℝ := √(dist2 p q)

/-- geometry/point.rs 413-415, `midpoint`. -/
noncomputable def mid (p q : Pt ℝ) : Pt ℝ := ((p.1 + q.1) / 2, (p.2 + q.2) / 2)

/-- geometry/curve.rs 460-471, `point_at_from`. -/
def at_ (s : Pt ℝ) (c : Curve) (t : ℝ) : Pt ℝ :=
  let u := 1 - t
  (u * u * u) • s + (3 * (u * u) * t) • c.a + (3 * u * (t * t)) • c.b + (t * t * t) • c.p

/-- geometry/line.rs 8, `Line`: two ends. -/
abbrev Line := Pt ℝ × Pt ℝ

/-- What is outside of the model: the intersection of lines, from the crate `geo`, as far as it is a single point, and the centre that is found for a
closed curve, where the bisectors have infinite ends. -/
structure Env where
  /-- The tolerance of positions. -/
  tol : ℝ
  meet : Line → Line → Option (Pt ℝ)
  closed : Pt ℝ → Curve → Option (Pt ℝ)

/-- ellipses.rs 129-137: the controls are on different sides of the chord. The function `signum` gives 1 for zero; negative zeros are left out. -/
def Apart (tol : ℝ) (s : Pt ℝ) (c : Curve) : Prop :=
  ¬ (0 ≤ cross s c.a c.p ↔ 0 ≤ cross s c.b c.p) ∧ (tol < cross s c.a c.p ∨ tol < cross s c.b c.p)

/-- ellipses.rs 141: how far the bisectors reach. -/
noncomputable def reach (s e : Pt ℝ) : ℝ := max (dist2 s e * (12 / 10)) (dist2 s e)⁻¹

/-- ellipses.rs 143-155: the perpendicular bisector. -/
noncomputable def bisector (p q : Pt ℝ) (k : ℝ) : Line :=
  let m := mid p q
  let d := q - p
  let n : Pt ℝ := (d.2, -d.1)
  (m - k • n, m + k • n)

open Classical in
/-- ellipses.rs 138-164: the centre of the circle through three points of the curve. -/
noncomputable def centre (e : Env) (s : Pt ℝ) (c : Curve) : Option (Pt ℝ) :=
  let m := at_ s c (1 / 2)
  let k := reach s c.p
  if s = c.p then e.closed s c else e.meet (bisector s m k) (bisector m c.p k)

open Classical in
/-- ellipses.rs 128-178, `Ellipses::fit_curve`: a centre and a radius. -/
noncomputable def circle (e : Env) (s : Pt ℝ) (c : Curve) : Option (Pt ℝ × ℝ) :=
  if Apart e.tol s c then none
  else (centre e s c).bind fun o =>
    let r := dist o s
    if r < 10 ^ 15 ∧ ∀ t ∈ ([1 / 4, 3 / 4] : List ℝ), |dist (at_ s c t) o - r| ≤ e.tol * r then some (o, r) else none

/-- ellipses.rs 83-88, `point_at_angle`, of a circle. -/
noncomputable def onCircle (o : Pt ℝ) (r w : ℝ) : Pt ℝ := o + rotate (r * cos w, r * sin w) 0

open Classical in
/-- ellipses.rs 91-123, `ellipse_tolerance` and `angle_at_point`, of a circle. -/
noncomputable def angleAt (tol : ℝ) (o : Pt ℝ) (r : ℝ) (x : Pt ℝ) : Option ℝ :=
  let l := rotate (x - o) (-0)
  let w := angle (l.1 / r, l.2 / r)
  if dist2 (onCircle o r w) x ≤ tol * tol * (1 + max r r ^ 2) then some w else none

/-- arc.rs 664-669: the shorter way around. -/
noncomputable def shorter (w : ℝ) : ℝ := if π < w then w - 2 * π else if w < -π then w + 2 * π else w

/-- arc.rs 652-676, `Arc::fit_curve`. -/
noncomputable def fit (e : Env) (s : Pt ℝ) (c : Curve) : Option ArcR :=
  (circle e s c).bind fun o =>
    (angleAt e.tol o.1 o.2 s).bind fun w0 =>
      (angleAt e.tol o.1 o.2 c.p).bind fun w1 => some ⟨o.1, o.2, o.2, 0, w0, shorter (w1 - w0)⟩

/-- paths/segment.rs, `Data`: a command of a path. -/
inductive Item where
  | line (p : Pt ℝ)
  | curve (c : Curve)
  | arc (a : ArcR) (p : Pt ℝ)

/-- Where a command ends; the end of an arc is memoised. -/
def Item.stop : Item → Pt ℝ
  | .line p => p
  | .curve c => c.p
  | .arc _ p => p

/-- simplify.rs 95-197, `arc_curves`, of a segment that starts at `s`. Whether a fitted arc is taken, because it can be joined with its neighbours or
is shorter when written, is for `takes` to say, from the number of commands before it; the numbers of fitted arcs are counted by `i`. -/
noncomputable def arcCurves (e : Env) (takes : ℕ → Bool) (s : Pt ℝ) : ℕ → List Item → List Item
  | _, [] => []
  | i, .curve c :: l =>
    let d := match fit e s c with
      | some a => if takes i then Item.arc a c.p else .curve c
      | none => .curve c
    d :: arcCurves e takes c.p (i + 1) l
  | i, d :: l => d :: arcCurves e takes d.stop (i + 1) l

end Verif.Fit
