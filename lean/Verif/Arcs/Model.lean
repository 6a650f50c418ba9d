import Verif.ArcTo.Back
import Verif.Fit.Model

/-!
# Model: points along arcs

`crates/oxvg_path/src/geometry/arc.rs` and `ellipses.rs`: the search for the place of a point, the length, tangents and the conversion to a curve;
`crates/oxvg_path/src/algorithm/coords_iter.rs`: the coordinates along an arc.

Numbers are real, so arithmetic is exact: the rounding of `f64` is left out. The memoised end point is left out as well, which is the end in exact
arithmetic.
-/

namespace Verif.Arcs

open Real Verif.Gjk Verif.ArcTo Verif.Fit

/-- ellipses.rs 83-88, `point_at_angle`. -/
noncomputable def atAngle (a : ArcR) (w : ℝ) : Pt ℝ := a.center + rotate (a.rx * cos w, a.ry * sin w) a.rot

/-- ellipses.rs 91-93, `ellipse_tolerance`. -/
noncomputable def wide (a : ArcR) (tol : ℝ) : ℝ := tol * (1 + max a.rx a.ry ^ 2)

open Classical in
/-- ellipses.rs 114-124, `angle_at_point`. -/
noncomputable def angleAt (a : ArcR) (x : Pt ℝ) (tol : ℝ) : Option ℝ :=
  let u := rotate (x - a.center) (-a.rot)
  let w := angle (u.1 / a.rx, u.2 / a.ry)
  if dist2 (atAngle a w) x ≤ tol then some w else none

/-- `f64::round`: halves are rounded away from zero. -/
noncomputable def roundAway (x : ℝ) : ℤ := if 0 ≤ x then ⌊x + 1 / 2⌋ else ⌈x - 1 / 2⌉

/-- `f64::clamp(0.0, 1.0)`. -/
noncomputable def unit (t : ℝ) : ℝ := if t < 0 then 0 else if 1 < t then 1 else t

open Classical in
/-- arc.rs 730-758, `t_at`; `tol` is the square of the tolerance. -/
noncomputable def tAt (a : ArcR) (x : Pt ℝ) (tol : ℝ) : Option ℝ :=
  (angleAt a x (wide a tol)).bind fun w =>
    if a.sweep = 0 then if dist2 (pointAt a 0) x ≤ wide a tol then some 0 else none
    else
      let target := a.start + 1 / 2 * a.sweep
      let k := roundAway ((target - w) / (2 * π))
      let t := unit ((w + k * (2 * π) - a.start) / a.sweep)
      if dist2 (atAngle a (a.start + t * a.sweep)) x ≤ wide a tol then some t else none

/-- arc.rs 792-794, `subdivide_at`. -/
noncomputable def subdivideAt (a : ArcR) (x : Pt ℝ) (tol : ℝ) : Option (ArcR × ArcR) := (tAt a x tol).map (subdivide a)

/-- arc.rs 907-909, `clamp_at`. -/
noncomputable def clampAt (a : ArcR) (x y : Pt ℝ) (tol : ℝ) : Option ArcR :=
  (tAt a x tol).bind fun t1 => (tAt a y tol).map fun t2 => clamp a t1 t2

open Classical in
/-- arc.rs 308-337, `len`. -/
noncomputable def length (a : ArcR) (iterations : ℕ) : ℝ :=
  if a.rx = 0 ∨ a.ry = 0 then Fit.dist (pointAt a 0) (pointAt a 1)
  else if a.sweep = 0 then 0
  else
    let n := if iterations % 2 = 0 then max iterations 2 else iterations + 1
    let h := a.sweep / n
    let f := fun w : ℝ => √(a.rx ^ 2 * sin w ^ 2 + a.ry ^ 2 * cos w ^ 2)
    let sum := ((List.range n).map fun (i : ℕ) => if i % 2 = 0 then 2 * f (a.start + i * h) else 4 * f (a.start + i * h)).sum
    |sum * h / 3|

open Classical in
/-- arc.rs 497-508, `tangent_t`; negative zeros are left out. -/
noncomputable def tangent (a : ArcR) (t : ℝ) : Pt ℝ :=
  let w := a.start + t * a.sweep
  let r := rotate (-a.rx * sin w, a.ry * cos w) a.rot
  let len := √(r.1 * r.1 + r.2 * r.2)
  if 1 / 10 ^ 12 < len then ((if 0 ≤ a.sweep then 1 else -1) / len) • r else 0

open Classical in
/-- arc.rs 585-613, `to_curve_to`. -/
noncomputable def toCurve (a : ArcR) : Option Curve :=
  if |a.sweep| < π / 2 + 1 / 10 ^ 6 then none
  else
    let k := 4 / 3 * tan (a.sweep / 4)
    let v := fun w : ℝ => ((k * (-a.rx * sin w * cos a.rot - a.ry * cos w * sin a.rot), k * (-a.rx * sin w * sin a.rot + a.ry * cos w * cos a.rot)) : Pt ℝ)
    some ⟨pointAt a 0 + v a.start, pointAt a 1 - v (a.start + a.sweep), pointAt a 1⟩

/-! ## The coordinates along an arc -/

open Classical in
/-- coords_iter.rs 66-76: how often the step is halved, at most `n` more times. The maximum with `EPSILON` (77) changes nothing. -/
noncomputable def halvings (a : ArcR) (ang tol : ℝ) : ℕ → ℝ → ℕ
  | 0, _ => 0
  | n + 1, h => if |h * a.sweep| ≤ ang ∨ dist2 (pointAt a 0) (atAngle a h) ≤ tol then 0 else halvings a ang tol n (h / 2) + 1

/-- coords_iter.rs 65: `t_step`. -/
noncomputable def step (a : ArcR) (ang tol : ℝ) : ℝ := 1 / 2 ^ halvings a ang tol 7 1

open Classical in
/-- coords_iter.rs 112-123, `next`: the item, if there is any, and the next state. -/
noncomputable def next (a : ArcR) (h t : ℝ) : Option (Pt ℝ × ℝ) :=
  if 1 < t then none
  else some (if t = 1 ∨ 1 < t + h then pointAt a 1 else pointAt a t, t + h)

/-- All of the items, with fuel: `none` when it does not suffice. -/
noncomputable def items (a : ArcR) (h : ℝ) : ℕ → ℝ → Option (List (Pt ℝ))
  | 0, _ => none
  | n + 1, t =>
    match next a h t with
    | none => some []
    | some (x, t') => (items a h n t').map (x :: ·)

/-- coords_iter.rs 131-137, `len`, before the truncation to a whole number. -/
noncomputable def count (t h : ℝ) : ℝ := h⁻¹ - t / h

end Verif.Arcs
