import Mathlib.Analysis.Convex.Hull
import Verif.Gjk.Model

/-!
# Specification: what a subpath draws

Written without reference to hulls of points: lines and Bézier curves by their parameters. The points of an arc, and where it ends, are parameters
here.
-/

namespace Verif.Gjk

variable {K A : Type} [Field K] [LinearOrder K]

/-- A point on what a command draws from `p`. -/
def Data.On (on : A → Pt K → Prop) (p : Pt K) : Data K A → Pt K → Prop
  | .lineTo q, x => ∃ t : K, 0 ≤ t ∧ t ≤ 1 ∧ x.1 = (1 - t) * p.1 + t * q.1 ∧ x.2 = (1 - t) * p.2 + t * q.2
  | .curveTo a b q, x => ∃ t : K, 0 ≤ t ∧ t ≤ 1 ∧
    x.1 = (1 - t) ^ 3 * p.1 + 3 * (1 - t) ^ 2 * t * a.1 + 3 * (1 - t) * t ^ 2 * b.1 + t ^ 3 * q.1 ∧
    x.2 = (1 - t) ^ 3 * p.2 + 3 * (1 - t) ^ 2 * t * a.2 + 3 * (1 - t) * t ^ 2 * b.2 + t ^ 3 * q.2
  | .arcTo a, x => on a x

/-- Where a command ends. -/
def Data.stop (lst : A → Pt K) : Data K A → Pt K
  | .lineTo q => q
  | .curveTo _ _ q => q
  | .arcTo a => lst a

/-- A point on what commands draw from `p`. -/
def OnData (on : A → Pt K → Prop) (lst : A → Pt K) : Pt K → List (Data K A) → Pt K → Prop
  | _, [], _ => False
  | p, d :: ds, x => d.On on p x ∨ OnData on lst (d.stop lst) ds x

/-- Where commands end that begin at `p`. -/
def stopOf (lst : A → Pt K) : Pt K → List (Data K A) → Pt K
  | p, [] => p
  | _, d :: ds => stopOf lst (d.stop lst) ds

/-- The points that a subpath draws, with the line that closes it, which filling adds if the subpath is open. -/
def Seg.outline (on : A → Pt K → Prop) (lst : A → Pt K) (s : Seg K A) : Set (Pt K) :=
  {x | OnData on lst s.start s.data x ∨ (Data.lineTo s.start : Data K A).On on (stopOf lst s.start s.data) x}

/-- All that a subpath may paint, without the width of its stroke: what is filled is among the outline's convex hull. -/
def Seg.area [IsStrictOrderedRing K] (on : A → Pt K → Prop) (lst : A → Pt K) (s : Seg K A) : Set (Pt K) := _root_.convexHull K (s.outline on lst)

/-- The points chosen for the arcs do cover them, and the last is the end of the arc. -/
def Covers [IsStrictOrderedRing K] (arc : A → List (Pt K)) (on : A → Pt K → Prop) (lst : A → Pt K) : Pt K → List (Data K A) → Prop
  | _, [] => True
  | p, d :: ds => (match d with
      | .arcTo a => lst a ∈ arc a ∧ ∀ x, on a x → x ∈ _root_.convexHull K {y | y = p ∨ y ∈ arc a}
      | _ => True) ∧ Covers arc on lst (d.stop lst) ds

/-- A line with direction `d` has all points of one set on its one side, or on it, and all of the other on its other. -/
def Apart (s t : Set (Pt K)) : Prop :=
  ∃ d : Pt K, d ≠ 0 ∧ ∀ x ∈ s, ∀ y ∈ t, x.1 * d.1 + x.2 * d.2 ≤ y.1 * d.1 + y.2 * d.2

end Verif.Gjk
