import Verif.Curves.Model

/-!
# What is to hold of parts of curves, and of points along them
-/

namespace Verif.Curves

open Verif.Gjk

variable {K : Type} [Field K] [LinearOrder K]

/-- The curve with these controls, by polynomials of Bernstein. -/
def Bez (s a b p : Pt K) (t : K) : Pt K :=
  ((1 - t) ^ 3 * s.1 + 3 * (1 - t) ^ 2 * t * a.1 + 3 * (1 - t) * t ^ 2 * b.1 + t ^ 3 * p.1,
   (1 - t) ^ 3 * s.2 + 3 * (1 - t) ^ 2 * t * a.2 + 3 * (1 - t) * t ^ 2 * b.2 + t ^ 3 * p.2)

/-- The points of a curve. -/
def Cubic.curve (c : Cubic K) : K → Pt K := Bez c.s c.a c.b c.p

/-- A curve runs along the part of another one from `u` to `v`, from the start to the end. -/
def Along (part whole : Cubic K) (u v : K) : Prop :=
  ∀ w, part.curve w = whole.curve (u + w * (v - u))

/-- The square of a distance. -/
def Sq (p q : Pt K) : K := (p.1 - q.1) ^ 2 + (p.2 - q.2) ^ 2

/-- The point between two others. -/
def Between (p q : Pt K) (w : K) : Pt K := ((1 - w) * p.1 + w * q.1, (1 - w) * p.2 + w * q.2)

end Verif.Curves
