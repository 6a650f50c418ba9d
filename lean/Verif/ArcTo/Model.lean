import Mathlib.Analysis.SpecialFunctions.Complex.Arg
import Mathlib.Analysis.SpecialFunctions.Sqrt
import Verif.Gjk.Arc

/-!
# Model: arc commands

`crates/oxvg_path/src/geometry/arc.rs`: the conversion of the arguments of the commands `A` and `a` to centre and angles, and back; parts of arcs.

Numbers are real, so arithmetic is exact: the rounding of `f64` is left out. The memoised end point is left out as well, which is the end in exact
arithmetic.
-/

namespace Verif.ArcTo

open Real Verif.Gjk

/-- The arguments of the command `A`, but for its end. -/
structure Args where
  rx : ℝ
  ry : ℝ
  rot : ℝ
  large : Bool
  sweep : Bool

/-- geometry/point.rs 288-290, `angle_radians`. -/
noncomputable def angle (p : Pt ℝ) : ℝ := Complex.arg ⟨p.1, p.2⟩

/-- The operator `%` of `f64`: the remainder has the sign of the dividend. -/
noncomputable def rem (x y : ℝ) : ℝ := x - y * (if 0 ≤ x / y then (⌊x / y⌋ : ℝ) else (⌈x / y⌉ : ℝ))

/-- geometry/arc.rs 988-990, `is_arc_to_line`. -/
def IsLine (a : Args) (p q : Pt ℝ) : Prop := |a.rx| < 1 / 100000 ∨ |a.ry| < 1 / 100000 ∨ p = q

/-- arc.rs 377-386: half of the way from the end to the start, in the axes of the ellipse. -/
noncomputable def half (rot : ℝ) (p q : Pt ℝ) : Pt ℝ :=
  let hx := (p.1 - q.1) * (1 / 2)
  let hy := (p.2 - q.2) * (1 / 2)
  (cos rot * hx + sin rot * hy, -sin rot * hx + cos rot * hy)

/-- arc.rs 394: how much the radii are too small. -/
noncomputable def factor (rx ry : ℝ) (h : Pt ℝ) : ℝ := h.1 * h.1 / (rx * rx) + h.2 * h.2 / (ry * ry)

/-- arc.rs 401-438: with radii that are large enough. -/
noncomputable def centred (a : Args) (rx ry : ℝ) (xr rot : ℝ) (h p q : Pt ℝ) : ArcR :=
  let rxry := rx * ry
  let rxpy := rx * h.2
  let rypx := ry * h.1
  let sum := rxpy * rxpy + rypx * rypx
  let sign : ℝ := if a.large = a.sweep then -1 else 1
  let coe := sign * √|(rxry * rxry - sum) / sum|
  let cx := coe * rxpy / ry
  let cy := -coe * rypx / rx
  let center : Pt ℝ := (cos xr * cx - sin xr * cy + (p.1 + q.1) / 2, sin xr * cx + cos xr * cy + (p.2 + q.2) / 2)
  let start := angle ((h.1 - cx) / rx, (h.2 - cy) / ry)
  let sw := rem (angle ((-h.1 - cx) / rx, (-h.2 - cy) / ry) - start) (2 * π)
  let sw := if a.sweep ∧ sw < 0 then sw + 2 * π else if ¬a.sweep ∧ 0 < sw then sw - 2 * π else sw
  ⟨center, rx, ry, rot, start, sw⟩

open Classical in
/-- arc.rs 354-439, `from_arc_to`, from `p` to `q`. -/
noncomputable def fromArcTo (a : Args) (p q : Pt ℝ) : Option ArcR :=
  if IsLine a p q then none
  else
    let rot := a.rot * (π / 180)
    let xr := rem rot (2 * π)
    let h := half xr p q
    let rf := factor |a.rx| |a.ry| h
    if 1 < rf then some (centred a (|a.rx| * √rf) (|a.ry| * √rf) xr rot h p q) else some (centred a |a.rx| |a.ry| xr rot h p q)

/-- arc.rs 343-347, `from_arc_by`. -/
noncomputable def fromArcBy (a : Args) (p q : Pt ℝ) : Option ArcR := fromArcTo a p (q + p)

/-- arc.rs 266-288, `point_at` and `point_at_angle`, with ellipses.rs 83-88. -/
noncomputable def pointAt (a : ArcR) (t : ℝ) : Pt ℝ := a.center + rotate (a.rx * cos (a.start + a.sweep * t), a.ry * sin (a.start + a.sweep * t)) a.rot

/-- arc.rs 832-843, `subdivide_t`. -/
def subdivide (a : ArcR) (t : ℝ) : ArcR × ArcR := ({ a with sweep := t * a.sweep }, { a with start := a.start + t * a.sweep, sweep := a.sweep * (1 - t) })

/-- arc.rs 871-879, `clamp_t`. -/
def clamp (a : ArcR) (t1 t2 : ℝ) : ArcR := { a with start := a.start + t1 * a.sweep, sweep := (t2 - t1) * a.sweep }

/-- arc.rs 937-945, `reverse`. -/
def reverse (a : ArcR) : ArcR := ⟨a.center, a.rx, a.ry, a.rot, a.start + a.sweep, -a.sweep⟩

/-- math.rs 70-89, `radius_factor`, of an arc (arc.rs 963-971). -/
noncomputable def radiusFactor (a : ArcR) : ℝ :=
  if a.rx = 0 ∨ a.ry = 0 then 0 else factor |a.rx| |a.ry| (half (rem a.rot (2 * π)) (pointAt a 0) (pointAt a 1))

/-- geometry.rs 92-94, `scale`, made a `u32`: the cast saturates. `s` is the power of ten. -/
noncomputable def scaled (s x : ℝ) : ℕ := min (round |x * s|).toNat (2 ^ 32 - 1)

open Classical in
/-- math.rs 46-67: the loop and what it returns, scaled down. -/
noncomputable def gcdLoop (a b tol s : ℝ) (u v : ℕ) : ℝ :=
  if h : v = 0 then u / s
  else
    let g : ℝ := v / s
    if |a / g - round (a / g)| < tol ∧ |b / g - round (b / g)| < tol then g else gcdLoop a b tol s v (u % v)
termination_by v
decreasing_by exact Nat.mod_lt _ (Nat.pos_of_ne_zero h)

/-- math.rs 33-67, `euclid_gcd_lossy`. -/
noncomputable def gcd (a b tol s : ℝ) : ℝ :=
  let u := scaled s a
  let v := scaled s b
  if v < u then gcdLoop a b tol s u v else gcdLoop a b tol s v u

/-- arc.rs 629-631: halves of `x` until it is not beyond `limit`; `none` if that does not end. -/
noncomputable def halved (x limit : Pt ℝ) : Option (Pt ℝ) :=
  open Classical in
  if h : ∃ n : ℕ, ¬ (0 ≤ x.1 / 2 ^ n - limit.1 ∧ 0 ≤ x.2 / 2 ^ n - limit.2) then some (x.1 / 2 ^ Nat.find h, x.2 / 2 ^ Nat.find h) else none

/-- The parameters of `to_arc_to`: tolerance and power of ten of the precision. -/
structure Tol where
  pos : ℝ
  scale : ℝ

open Classical in
/-- arc.rs 616-649, `to_arc_to`: the arguments, and the end; `none` if it does not end. With a denominator of zero the radii become infinite, and
so do all their halves. -/
noncomputable def toArcTo (tol : Tol) (a : ArcR) : Option (Args × Pt ℝ) :=
  let l := radiusFactor a
  let limit : Pt ℝ := (a.rx * √l, a.ry * √l)
  let result := fun r : Pt ℝ => (({ rx := r.1, ry := r.2, rot := a.rot * (180 / π), large := decide (π < |a.sweep|), sweep := decide (0 < a.sweep) } : Args), pointAt a 1)
  if 1 < l ∨ (limit.1 - a.rx) ^ 2 + (limit.2 - a.ry) ^ 2 < tol.pos ^ 2 then
    let denom := gcd a.rx a.ry tol.pos tol.scale
    if denom = 0 then none else (halved (a.rx / denom, a.ry / denom) limit).map result
  else some (result (a.rx, a.ry))

end Verif.ArcTo
