import Verif.Transform.Model

/-!
# What transforms do to points

SVG 1.1, chapter 7.6: each transform is a map of the plane; in a list the last one is applied first.
-/

namespace Verif.Transform

open Real

noncomputable section

abbrev Pt := ℝ × ℝ

variable {Css : Type}

/-- A point under a matrix. -/
def M.apply (m : M) (p : Pt) : Pt := (m.a * p.1 + m.c * p.2 + m.e, m.b * p.1 + m.d * p.2 + m.f)

/-- A point under a transform; `css` tells what transforms in CSS notation do. -/
def T.move (css : Css → Pt → Pt) : T Css → Pt → Pt
  | .matrix m, p => m.apply p
  | .translate x y, p => (p.1 + x, p.2 + y)
  | .scale x y, p => (x * p.1, y * p.2)
  | .rotate a x y, p =>
    (x + (cos (a * π / 180) * (p.1 - x) - sin (a * π / 180) * (p.2 - y)),
      y + (sin (a * π / 180) * (p.1 - x) + cos (a * π / 180) * (p.2 - y)))
  | .skewX a, p => (p.1 + tan (a * π / 180) * p.2, p.2)
  | .skewY a, p => (p.1, p.2 + tan (a * π / 180) * p.1)
  | .css c, p => css c p

/-- A point under a list of transforms. -/
def draw (css : Css → Pt → Pt) (l : List (T Css)) (p : Pt) : Pt := l.foldr (fun t q => t.move css q) p

/-- By how much a number may be off. -/
def tolerance (p : Int) : ℝ := if 1 ≤ p ∧ p < 20 then 1 / 10 ^ p.toNat else 1 / 2

/-- Two transforms are the same but for their numbers, which differ by at most the tolerance: that of degrees for
angles, that of lengths for translations and centres, that of factors for the rest. -/
def Near (p : Precision) : T Css → T Css → Prop
  | .matrix m, .matrix n =>
    |m.a - n.a| ≤ tolerance p.transform ∧ |m.b - n.b| ≤ tolerance p.transform ∧ |m.c - n.c| ≤ tolerance p.transform ∧
    |m.d - n.d| ≤ tolerance p.transform ∧ |m.e - n.e| ≤ tolerance p.float ∧ |m.f - n.f| ≤ tolerance p.float
  | .translate x y, .translate u v => |x - u| ≤ tolerance p.float ∧ |y - v| ≤ tolerance p.float
  | .scale x y, .scale u v => |x - u| ≤ tolerance p.transform ∧ |y - v| ≤ tolerance p.transform
  | .rotate a x y, .rotate b u v =>
    |a - b| ≤ tolerance p.deg ∧ |x - u| ≤ tolerance p.float ∧ |y - v| ≤ tolerance p.float
  | .skewX a, .skewX b => |a - b| ≤ tolerance p.deg
  | .skewY a, .skewY b => |a - b| ≤ tolerance p.deg
  | .css c, .css d => c = d
  | _, _ => False

end

end Verif.Transform
