import Verif.Overlay.Model

/-!
# What is to hold of combined paths
-/

namespace Verif.Overlay

open Verif.Gjk
open Verif.Curves (Sq Between Along)

/-- A point is less than 1/1000 away from a polygonal line. -/
def Near (l : List (Pt ℝ)) (x : Pt ℝ) : Prop :=
  ∃ (i : ℕ) (p q : Pt ℝ) (w : ℝ), l[i]? = some p ∧ l[i + 1]? = some q ∧ 0 ≤ w ∧ w ≤ 1 ∧ Sq x (Between p q w) < (1 / 1000) ^ 2

/-- The boxes of a polygonal line and an edge have a point in common. -/
def Meet (l : List (Pt ℝ)) (a b : Pt ℝ) : Prop :=
  (∃ x, (∃ p ∈ l, p.1 ≤ x) ∧ (∃ p ∈ l, x ≤ p.1) ∧ min a.1 b.1 ≤ x ∧ x ≤ max a.1 b.1) ∧
  ∃ y, (∃ p ∈ l, p.2 ≤ y) ∧ (∃ p ∈ l, y ≤ p.2) ∧ min a.2 b.2 ≤ y ∧ y ≤ max a.2 b.2

/-- An edge of a ring belongs to an entry. -/
def Match (s : Source) (a b : Pt ℝ) : Prop :=
  Meet s.contour a b ∧ Near s.contour a ∧ Near s.contour b ∧ Near s.contour ((a.1 + b.1) / 2, (a.2 + b.2) / 2)

/-- Data run along the data of an entry, from a vertex to another one. -/
def Part (s : Source) (v w : Pt ℝ) (d : Data) : Prop :=
  match s.data, d with
  | .line _, .line q => q = w
  | .curve a b p, .curve a' b' p' => ∃ (s' : Pt ℝ) (t u : ℝ), Along ⟨s', a', b', p'⟩ ⟨s.start, a, b, p⟩ t u ∧ 0 ≤ t ∧ t ≤ 1 ∧ 0 ≤ u ∧ u ≤ 1 ∧
      Sq ((⟨s.start, a, b, p⟩ : Curves.Cubic ℝ).curve t) v ≤ (1 / 1000) ^ 2 ∧
      (Sq ((⟨s.start, a, b, p⟩ : Curves.Cubic ℝ).curve u) w ≤ (1 / 1000) ^ 2 ∨ |u - t| < 1 / 10 ^ 10)
  | .arc a, .arc d => ∃ t u k : ℝ, (∀ x, Arcs.Along d x = Arcs.Along a (t + x * (u + k - t))) ∧ 0 ≤ t ∧ t ≤ 1 ∧ 0 ≤ u ∧ u ≤ 1 ∧
      (Sq (Arcs.Along a t) v ≤ 1 / 1000 * (1 + max a.rx a.ry ^ 2) ∨ t = 0) ∧
      (Sq (Arcs.Along a u) w ≤ 1 / 1000 * (1 + max a.rx a.ry ^ 2) ∨ u = 1) ∧
      (k = 0 ∨ (k = 1 ∨ k = -1) ∧ |(|a.sweep| - 2 * Real.pi)| < 1 / 100)
  | _, _ => False

/-- Data follow a walk along the vertices of a ring, from the first one to the last one: by lines, where no entry belongs to an edge, or by parts of
entries that all of the vertices passed are near of. -/
inductive Covers (tree : List Source) (first : Pt ℝ) : List (Pt ℝ) → Pt ℝ → List Data → Prop
  | start : Covers tree first [] first []
  | line {l v ds} (w) : Covers tree first l v ds → (∀ s ∈ tree, ¬ Match s v w) → Covers tree first (l ++ [w]) w (ds ++ [.line w])
  | part {l v ds} (s mid w d) : Covers tree first l v ds → s ∈ tree → (∀ x ∈ v :: mid ++ [w], Near s.contour x) → Part s v w d →
      Covers tree first (l ++ mid ++ [w]) w (ds ++ [d])

end Verif.Overlay
