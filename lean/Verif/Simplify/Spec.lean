import Verif.Simplify.Model
import Verif.Segment.Spec

/-!
# Specification: the points that segments draw
-/

namespace Verif.Simplify

open Verif.Segment (Pt bezier3)

variable {A : Type} (arc : Arc A → Rat → Pt)

/-- The point at `t` of a line. -/
def lineAt (p q : Pt) (t : Rat) : Pt := ⟨(1 - t) * p.x + t * q.x, (1 - t) * p.y + t * q.y⟩

/-- The point at `t` of a cubic Bézier curve. -/
def cubicAt (p a b q : Pt) (t : Rat) : Pt := ⟨bezier3 p.x a.x b.x q.x t, bezier3 p.y a.y b.y q.y t⟩

/-- The point at `t` of a command that is drawn from `p`; `arc` tells the points of arcs. -/
def Data.pointAt (p : Pt) : Data A → Rat → Pt
  | .lineTo q, t => lineAt p q t
  | .curveTo a b q, t => cubicAt p a b q t
  | .arcTo a, t => arc a t

/-- `x` is a point of the command. -/
def On (p : Pt) (d : Data A) (x : Pt) : Prop := ∃ t, 0 ≤ t ∧ t ≤ 1 ∧ x = d.pointAt arc p t

/-- `x` is drawn by commands from `p`, or is a point where a command begins or ends. -/
def Trace (p : Pt) : List (Data A) → Pt → Prop
  | [], x => x = p
  | d :: ds, x => x = p ∨ On arc p d x ∨ Trace d.stop ds x

/-- Where commands from `p` end. -/
def last (p : Pt) : List (Data A) → Pt
  | [] => p
  | d :: ds => last d.stop ds

/-- The line that closes a segment. -/
def Closing (s : Segment A) (x : Pt) : Prop := ∃ t, 0 ≤ t ∧ t ≤ 1 ∧ x = lineAt (last s.start s.data) s.start t

/-- The points of a segment that a stroke follows. -/
def Stroke (s : Segment A) (x : Pt) : Prop := Trace arc s.start s.data x ∨ s.closed = true ∧ Closing s x

/-- The boundary of what a segment fills: open segments are filled as if closed. -/
def Outline (s : Segment A) (x : Pt) : Prop := Trace arc s.start s.data x ∨ Closing s x

/-- Every point of the one set is near one of the other. -/
def Within (ε : Rat) (a b : Pt → Prop) : Prop := ∀ x, a x → ∃ y, b y ∧ x.dist2 y ≤ ε * ε

/-- Two sets of points are near each other. -/
def Close (ε : Rat) (a b : Pt → Prop) : Prop := Within ε a b ∧ Within ε b a

/-- Segments are paired with segments that draw near points from the same start. -/
inductive AllClose (ε : Rat) (set : Segment A → Pt → Prop) : List (Segment A) → List (Segment A) → Prop
  | nil : AllClose ε set [] []
  | cons {s l s' l'} : s'.start = s.start → Close ε (set s) (set s') → AllClose ε set l l' →
      AllClose ε set (s :: l) (s' :: l')

/-- A command has no extent: all that it draws is near its start. For arcs the code asks for less. -/
def Tiny (tol : Rat) (p : Pt) (d : Data A) : Prop :=
  match d with
  | .lineTo q => q.dist2 p < tol * tol
  | .curveTo a b q => a.dist2 p < tol * tol ∧ b.dist2 p < tol * tol ∧ q.dist2 p < tol * tol
  | .arcTo a => ∀ t, 0 ≤ t → t ≤ 1 → (arc a t).dist2 p ≤ tol * tol

/-- At most `r` commands in a row, the `j` before included, are dropped from those that follow `p`. -/
def Runs (drop : Pt → Data A → Bool) (r : Nat) : Nat → Pt → List (Data A) → Prop
  | j, _, [] => j ≤ r
  | j, p, d :: ds => j ≤ r ∧ Runs drop r (if drop p d then j + 1 else 0) d.stop ds

/-- The ends of lines and curves from `p`. -/
def vertices (p : Pt) (ds : List (Data A)) : List Pt := p :: ds.map Data.stop

end Verif.Simplify
