import Verif.ArcTo.Model

/-!
# Specification: the arc of an arc command

SVG 1.1, F.6.1, F.6.2 and F.6.6, without the formulas of F.6.5.
-/

namespace Verif.ArcTo

open Real Verif.Gjk

/-- A point of the ellipse with the centre `c`, the radii `rx` and `ry` and the rotation `rot`. -/
def OnEllipse (c : Pt ℝ) (rx ry rot : ℝ) (x : Pt ℝ) : Prop := ∃ t : ℝ,
  x.1 = c.1 + (cos rot * (rx * cos t) - sin rot * (ry * sin t)) ∧ x.2 = c.2 + (sin rot * (rx * cos t) + cos rot * (ry * sin t))

/-- The arc `b` is the one that the arguments `g` describe, from `p` to `q`. -/
structure Draws (g : Args) (p q : Pt ℝ) (b : ArcR) : Prop where
  /-- The rotation is given in degrees. -/
  rot : b.rot = g.rot / 180 * π
  /-- F.6.6: the radii are those given, or the smallest multiple for which there is an ellipse through both points. -/
  radii : ∃ c : ℝ, 1 ≤ c ∧ b.rx = c * |g.rx| ∧ b.ry = c * |g.ry| ∧
    ∀ k, 1 ≤ k → k < c → ¬ ∃ m, OnEllipse m (k * |g.rx|) (k * |g.ry|) b.rot p ∧ OnEllipse m (k * |g.rx|) (k * |g.ry|) b.rot q
  /-- It runs from the one point to the other. -/
  first : pointAt b 0 = p
  last : pointAt b 1 = q
  /-- It does not go around more than once. -/
  turn : |b.sweep| < 2 * π
  /-- It runs in the direction of positive angles if the sweep flag is set, otherwise in that of negative angles. -/
  pos : g.sweep = true → 0 < b.sweep
  neg : g.sweep = false → b.sweep < 0
  /-- It is at least half of the ellipse if the large arc flag is set, otherwise at most half. -/
  large : g.large = true → π ≤ |b.sweep|
  small : g.large = false → |b.sweep| ≤ π

end Verif.ArcTo
