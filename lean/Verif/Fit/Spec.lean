import Verif.Fit.Model

/-!
# Specification: curves, circles and lines
-/

namespace Verif.Fit

open Real Verif.Gjk Verif.ArcTo

/-- A point of a line between two ends. -/
def OnLine (l : Line) (x : Pt ℝ) : Prop := ∃ u : ℝ, 0 ≤ u ∧ u ≤ 1 ∧ x = (1 - u) • l.1 + u • l.2

/-- What the crate `geo` promises of the single point in which lines intersect, but for rounding. -/
structure Env.Sound (e : Env) : Prop where
  sound : ∀ {l m : Line} {x : Pt ℝ}, e.meet l m = some x → OnLine l x ∧ OnLine m x
  complete : ∀ {l m : Line} {x : Pt ℝ}, OnLine l x → OnLine m x →
    (l.2.1 - l.1.1) * (m.2.2 - m.1.2) - (l.2.2 - l.1.2) * (m.2.1 - m.1.1) ≠ 0 → e.meet l m = some x

/-- A point of the cubic Bézier curve. -/
def bezier (s : Pt ℝ) (c : Curve) (t : ℝ) : Pt ℝ :=
  ((1 - t) ^ 3 * s.1 + 3 * (1 - t) ^ 2 * t * c.a.1 + 3 * (1 - t) * t ^ 2 * c.b.1 + t ^ 3 * c.p.1,
    (1 - t) ^ 3 * s.2 + 3 * (1 - t) ^ 2 * t * c.a.2 + 3 * (1 - t) * t ^ 2 * c.b.2 + t ^ 3 * c.p.2)

/-- The distance of two points. -/
noncomputable def far (p q : Pt ℝ) : ℝ := √((p.1 - q.1) ^ 2 + (p.2 - q.2) ^ 2)

/-- On which side of the chord from `s` to `p` a point is, and how far, times the length of the chord. -/
def side (s p x : Pt ℝ) : ℝ := (x.1 - s.1) * (p.2 - s.2) - (x.2 - s.2) * (p.1 - s.1)

/-- The cosine of the angle in which the chord from `s` to `p` is seen from `x`, but for a positive factor: negative if the angle is obtuse. -/
def sight (s p x : Pt ℝ) : ℝ := (s.1 - x.1) * (p.1 - x.1) + (s.2 - x.2) * (p.2 - x.2)

end Verif.Fit
