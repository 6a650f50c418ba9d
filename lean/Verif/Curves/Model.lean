import Mathlib.Tactic.Ring
import Mathlib.Tactic.FieldSimp
import Mathlib.Tactic.Linarith
import Mathlib.Tactic.LinearCombination
import Mathlib.Algebra.Module.Prod
import Mathlib.Algebra.Order.Ring.Abs
import Verif.Gjk.Model

/-!
# Model: parts of curves, and points along them

`crates/oxvg_path/src/geometry/curve.rs`: points of a cubic curve, its division, its reversal and parts of it, the search for the place of a point, and
the distance of a control from the chord; `crates/oxvg_path/src/algorithm/coords_iter.rs`: the coordinates along a curve.

Numbers are those of an ordered field, so arithmetic is exact: the rounding of `f64`, infinities and values that are no numbers are left out.
-/

namespace Verif.Curves

open Verif.Gjk

variable {K : Type} [Field K] [LinearOrder K]

/-- geometry/curve.rs 6-13 and 27-33, `CurveWithStart`: the start, two controls and the end. -/
structure Cubic (K : Type) where
  s : Pt K
  a : Pt K
  b : Pt K
  p : Pt K
  deriving DecidableEq

/-- geometry/point.rs 671-673, `lerp`. -/
def lerp (p q : Pt K) (t : K) : Pt K := p + t • (q - p)

/-- geometry/point.rs 396-398, `distance_squared`. -/
def dist2 (p q : Pt K) : K := (p.1 - q.1) * (p.1 - q.1) + (p.2 - q.2) * (p.2 - q.2)

/-- geometry/curve.rs 460-471, `point_at_from`. -/
def pointAt (c : Cubic K) (t : K) : Pt K :=
  let u := 1 - t
  (u * u * u) • c.s + (3 * (u * u) * t) • c.a + (3 * u * (t * t)) • c.b + (t * t * t) • c.p

/-- geometry/curve.rs 85-89, `new_quad`. -/
def newQuad (q s p : Pt K) : Cubic K :=
  ⟨s, s + (2 / 3 : K) • (q - s), p + (2 / 3 : K) • (q - p), p⟩

/-- geometry/curve.rs 427-443 and 777-781, `subdivide_t`: the two parts, each with its start. -/
def subdivide (c : Cubic K) (t : K) : Cubic K × Cubic K :=
  let p01 := lerp c.s c.a t
  let p12 := lerp c.a c.b t
  let p23 := lerp c.b c.p t
  let p012 := lerp p01 p12 t
  let p123 := lerp p12 p23 t
  let m := lerp p012 p123 t
  (⟨c.s, p01, p012, m⟩, ⟨m, p123, p23, c.p⟩)

/-- geometry/curve.rs 564-566 and 845-850, `reverse`. -/
def reverse (c : Cubic K) : Cubic K := ⟨c.p, c.b, c.a, c.s⟩

/-- geometry/curve.rs 589-600 and 868-873, `clamp_t`; the assertions of debug builds are left out. -/
def clampT (c : Cubic K) (t1 t2 : K) : Cubic K :=
  let right := (subdivide c t1).2
  let t := if |1 - t1| < 1 / 10 ^ 10 then 1 else (t2 - t1) / (1 - t1)
  { (subdivide right t).1 with s := pointAt c t1 }

/-- geometry/curve.rs 502-508: the first derivative. -/
def first' (c : Cubic K) (t : K) : Pt K :=
  let da := (c.p - c.s) + (3 : K) • (c.a - c.b)
  let db := (2 : K) • (c.s - (2 : K) • c.a + c.b)
  let dc := c.a - c.s
  (3 : K) • ((t * t) • da + t • db + dc)

/-- geometry/curve.rs 509: the second derivative. -/
def second (c : Cubic K) (t : K) : Pt K :=
  let da := (c.p - c.s) + (3 : K) • (c.a - c.b)
  let db := (2 : K) • (c.s - (2 : K) • c.a + c.b)
  (3 : K) • ((2 * t) • da + db)

/-- `f64::clamp(0.0, 1.0)`. -/
def unit (t : K) : K := if t < 0 then 0 else if 1 < t then 1 else t

/-- geometry/curve.rs 521-541: at most `n` steps of the method of Newton. -/
def newton (c : Cubic K) (at_ : Pt K) : ℕ → K → K
  | 0, t => t
  | n + 1, t =>
    let diff := pointAt c t - at_
    let bp := first' c t
    let f1 := dot diff bp
    let f2 := dot bp bp + dot diff (second c t)
    if |f2| < 1 / 10 ^ 12 then t
    else
      let step := f1 / f2
      let t' := unit (t - step)
      if |step| < 1 / 10 ^ 7 then t' else newton c at_ n t'

/-- geometry/curve.rs 543-547: the better of what was found and a new candidate; `none` is the infinite distance. -/
def better (c : Cubic K) (at_ : Pt K) : Option K → K → Option K
  | none, t => some t
  | some b, t => if dist2 (pointAt c t) at_ < dist2 (pointAt c b) at_ then some t else some b

/-- geometry/curve.rs 514: where the search starts. -/
def seeds : List K := [0, 1 / 4, 1 / 2, 3 / 4, 1]

/-- geometry/curve.rs 491-555, `t_at`; `tol` is the square of the tolerance. -/
def tAt (c : Cubic K) (at_ : Pt K) (tol : K) : Option K :=
  match (seeds.map (newton c at_ 8)).foldl (better c at_) none with
  | none => none
  | some t => if dist2 (pointAt c t) at_ ≤ tol then some t else none

/-- geometry/curve.rs 753-755, `subdivide_at`. -/
def subdivideAt (c : Cubic K) (at_ : Pt K) (tol : K) : Option (Cubic K × Cubic K) :=
  (tAt c at_ tol).map (subdivide c)

/-- geometry/curve.rs 620-632, `clamp_at`. -/
def clampAt (c : Cubic K) (p q : Pt K) (tol : K) : Option (Cubic K) :=
  (tAt c p tol).bind fun t1 => (tAt c q tol).map fun t2 => clampT c t1 t2

/-- geometry/curve.rs 635-647, `control_point_distance_squared`. -/
def chordDist2 (x s p : Pt K) : K :=
  let v := p - s
  let d := dot v v
  if d = 0 then dist2 x s
  else
    let t := unit (((x.1 - s.1) * v.1 + (x.2 - s.2) * v.2) / d)
    dist2 x (s.1 + t * v.1, s.2 + t * v.2)

/-! ## The coordinates along a curve -/

/-- coords_iter.rs 35-42: how often the step is halved, at most `n` more times. The maximum with `EPSILON` (43) changes nothing, as the step is at
least 1/128. -/
def halvings (c : Cubic K) (tol : K) : ℕ → K → ℕ
  | 0, _ => 0
  | n + 1, h => if dist2 c.s (pointAt c h) < tol then 0 else halvings c tol n (h / 2) + 1

/-- coords_iter.rs 35: `t_step`. -/
def step (c : Cubic K) (tol : K) : K := 1 / 2 ^ halvings c tol 7 1

/-- coords_iter.rs 90-101, `next`: the item, if there is any, and the next state. -/
def next (c : Cubic K) (h t : K) : Option (Pt K × K) :=
  if 1 < t then none
  else some (if t = 1 ∨ 1 < t + h then c.p else pointAt c t, t + h)

/-- All of the items, with fuel: `none` when it does not suffice. -/
def items (c : Cubic K) (h : K) : ℕ → K → Option (List (Pt K))
  | 0, _ => none
  | n + 1, t =>
    match next c h t with
    | none => some []
    | some (x, t') => (items c h n t').map (x :: ·)

/-- coords_iter.rs 131-137, `len`, before the truncation to a whole number. -/
def len (t h : K) : K := h⁻¹ - t / h

end Verif.Curves
