import Mathlib.Data.Rat.Defs
import Verif.Gjk.Arc

/-! # What the test for intersections does not do, and examples -/

namespace Verif.Gjk

/-- A subpath of lines. -/
def lines (p : Pt ℚ) (l : List (Pt ℚ)) : Seg ℚ Empty := ⟨p, l.map .lineTo, false⟩

/-- Without arcs. -/
def noArc : Empty → List (Pt ℚ) := fun a => nomatch a

/-- **C62 (not symmetric).** For lines that touch, the answer depends on the order of the paths. -/
theorem symmetric_violated : ∃ p q : List (Seg ℚ Empty), intersects noArc p q = some false ∧ intersects noArc q p = some true :=
  ⟨[lines (3, 0) [(0, 3)]], [lines (1, 2) [(2, 3)]], by decide +kernel, by decide +kernel⟩

/-- **C62 (the same line).** A line along an axis does not intersect itself, though all of its points are shared. -/
theorem same_violated (a b y : ℚ) : intersects noArc [lines (a, y) [(b, y)]] [lines (a, y) [(b, y)]] = some false := by
  simp [intersects, nests, lines, nest, Data.nest, box, grow, clear]

/-- **C62 (corners only).** Yes is also the answer for outlines that have no point in common: the angle `M0 0V9H9` and a line within. -/
theorem outlines_violated : intersects noArc [lines (0, 0) [(0, 9), (9, 9)]] [lines (1, 4) [(2, 5)]] = some true ∧
    ∀ x : Pt ℚ, OnData (fun a : Empty => nomatch a) (fun a => nomatch a) (0, 0) [.lineTo (0, 9), .lineTo (9, 9)] x →
      ¬ OnData (fun a : Empty => nomatch a) (fun a => nomatch a) (1, 4) [.lineTo (2, 5)] x := by
  refine ⟨by decide +kernel, ?_⟩
  rintro x (⟨t, h0, h1, e1, e2⟩ | ⟨t, h0, h1, e1, e2⟩ | h) (⟨u, k0, k1, f1, f2⟩ | k)
  · norm_num at e1 f1
    linarith
  · exact k
  · norm_num [Data.stop] at e2 f2
    linarith
  · exact k
  · exact h.elim
  · exact k

/-! ## Examples -/

/-- `M0 0H2V2H0Z`, moved. -/
def square (x y : ℚ) : Seg ℚ Empty := ⟨(x, y), [.lineTo (x + 2, y), .lineTo (x + 2, y + 2), .lineTo (x, y + 2)], true⟩

example : intersects noArc [square 0 0] [square 1 1] = some true := by decide +kernel
example : intersects noArc [square 0 0] [square 2 1] = some false := by decide +kernel
/-- The boxes overlap, the shapes do not. -/
example : intersects noArc [lines (0, 0) [(4, 0), (0, 4)]] [lines (4, 4) [(4, 1), (1, 4)]] = some false := by decide +kernel
/-- The second subpath of the first path does. -/
example : intersects noArc [square 0 0, square 10 10, lines (5, 5) []] [square 11 9] = some true := by decide +kernel
example : intersects noArc ([] : List (Seg ℚ Empty)) [square 0 0] = some false := by decide +kernel
example : intersects noArc [lines (0, 0) [(4, 4)]] [lines (0, 4) [(4, 0)]] = some true := by decide +kernel
/-- A curve whose control points are taken instead. -/
example : intersects noArc [⟨(0, 0), [.curveTo (0, 8) (8, 8) (8, 0)], false⟩] [lines (3, 7) [(5, 9)]] = some true ∧
    intersects noArc [⟨(0, 0), [.curveTo (0, 8) (8, 8) (8, 0)], false⟩] [lines (3, 9) [(5, 10)]] = some false := by decide +kernel

/-- The theorem for crossings applies. -/
example : intersects noArc [lines (0, 0) [(4, 4)]] [lines (0, 4) [(4, 0)]] = some true := by
  have hin : ∀ (p q x : Pt ℚ), (x = p ∨ x = q) → x ∈ (lines p [q]).area (fun a : Empty => nomatch a) (fun a => nomatch a) := by
    intro p q x hx
    apply subset_convexHull
    rcases hx with rfl | rfl
    · exact .inl (.inl ⟨0, le_refl _, by norm_num, by simp [lines], by simp [lines]⟩)
    · exact .inl (.inl ⟨1, by norm_num, le_refl _, by simp, by simp⟩)
  refine crossing_found (on := fun a : Empty => nomatch a) (lst := fun a => nomatch a) (s := lines (0, 0) [(4, 4)]) (t := lines (0, 4) [(4, 0)])
    (a := (0, 0)) (b := (4, 4)) (c := (0, 4)) (e := (4, 0)) (u := 1 / 2) (v := 1 / 2) ?_ (by simp) (by simp) (by simp [lines]) (by simp [lines])
    (hin _ _ _ (.inl rfl)) (hin _ _ _ (.inr rfl)) (hin _ _ _ (.inl rfl)) (hin _ _ _ (.inr rfl)) (by norm_num) (by norm_num) (by norm_num) (by norm_num)
    (Prod.ext (by norm_num) (by norm_num)) (by norm_num)
  intro s hs
  simp only [List.cons_append, List.nil_append, List.mem_cons, List.not_mem_nil, or_false] at hs
  rcases hs with rfl | rfl <;> exact ⟨trivial, trivial⟩

/-- Half of the unit circle, joined to where it begins. -/
example : Joined (1, 0) [.arcTo ⟨(0, 0), 1, 1, 0, 0, Real.pi⟩] := by
  refine ⟨?_, trivial⟩
  simp [ArcR.pointAt, rotate]

end Verif.Gjk
