import Mathlib.Tactic.GCongr
import Verif.Curves.Props

/-!
# The coordinates along a curve
-/

namespace Verif.Curves

open Verif.Gjk

variable {K : Type} [Field K] [LinearOrder K] [IsStrictOrderedRing K]

omit [IsStrictOrderedRing K] in
theorem halvings_le (c : Cubic K) (tol : K) (n : ℕ) (h : K) : halvings c tol n h ≤ n := by
  induction n generalizing h with
  | zero => exact le_refl _
  | succ n ih => simp only [halvings]; split <;> [omega; exact Nat.succ_le_succ (ih _)]

omit [IsStrictOrderedRing K] in
theorem halvings_iff (c : Cubic K) (tol : K) (n m : ℕ) (h : K) : m ≤ halvings c tol n h ↔
    m ≤ n ∧ ∀ i < m, tol ≤ Sq c.s (c.curve (h / 2 ^ i)) := by
  induction n generalizing h m with
  | zero => simp only [halvings]; constructor <;> rintro h <;> simp_all
  | succ n ih =>
    cases m with
    | zero => simp
    | succ m =>
      simp only [halvings, dist2_eq, pointAt_eq]
      split
      · rename_i hl
        refine ⟨fun h => by omega, fun ⟨_, h⟩ => absurd (h 0 (by omega)) ?_⟩
        rw [pow_zero, div_one]; exact not_le.2 hl
      · rename_i hl
        rw [Nat.succ_le_succ_iff, ih, Nat.succ_le_succ_iff]
        refine and_congr_right fun _ => ⟨fun k i hi => ?_, fun k i hi => ?_⟩
        · cases i with
          | zero => rw [pow_zero, div_one]; exact not_lt.1 hl
          | succ i => rw [pow_succ', ← div_div]; exact k i (by omega)
        · rw [div_div, ← pow_succ']; exact k (i + 1) (by omega)

theorem items_from (c : Cubic K) (n : ℕ) (hn : 0 < n) (m i : ℕ) (h : i + m = n + 1) :
    items c (1 / n : K) (m + 1) (i / n) = some ((List.range' i m).map fun j : ℕ => c.curve ((j : K) / n)) := by
  have hn' : (0 : K) < n := Nat.cast_pos.2 hn
  induction m generalizing i with
  | zero =>
    have : (1 : K) < i / n := by rw [lt_div_iff₀ hn', one_mul]; exact_mod_cast (by omega : n < i)
    simp [items, next, this]
  | succ m ih =>
    have h1 : ¬ (1 : K) < i / n := by
      rw [not_lt, div_le_one hn']; exact_mod_cast (by omega : i ≤ n)
    have e : (i : K) / n + 1 / n = ((i + 1 : ℕ) : K) / n := by rw [← add_div]; push_cast; rfl
    have ex : (if (i : K) / n = 1 ∨ 1 < (i : K) / n + 1 / n then c.p else pointAt c (i / n)) = c.curve ((i : K) / n) := by
      rw [e, pointAt_eq]
      split
      · rename_i hc
        have : n ≤ i := by
          rcases hc with hc | hc
          · rw [div_eq_one_iff_eq hn'.ne'] at hc; exact (Nat.cast_injective hc).ge
          · rw [lt_div_iff₀ hn', one_mul] at hc
            exact Nat.lt_succ_iff.1 (Nat.cast_lt.1 hc)
        obtain rfl : i = n := by omega
        rw [div_self hn'.ne', curve_one]
      · rfl
    rw [items]
    simp only [next, h1, if_false, ex]
    rw [e]
    rw [ih (i + 1) (by omega), List.range'_succ]
    rfl

/-- The coordinates, by how often the step is halved. -/
theorem coords_of (c : Cubic K) (tol : K) (f : ℕ) (hf : 2 ^ halvings c tol 7 1 + 2 ≤ f) : items c (step c tol) f 0 =
    some ((List.range (2 ^ halvings c tol 7 1 + 1)).map fun i : ℕ => c.curve ((i : K) / 2 ^ halvings c tol 7 1)) := by
  set j := halvings c tol 7 1 with hj
  have := items_from c (2 ^ j) (by positivity) (2 ^ j + 1) 0 (by omega)
  push_cast at this
  rw [zero_div] at this
  rw [step, ← hj]
  have mono : ∀ (n : ℕ) (h t : K) l, items c h n t = some l → ∀ k, items c h (n + k) t = some l := by
    intro n
    induction n with
    | zero => intro h t l e; cases e
    | succ n ih =>
      intro h t l e k
      rw [show n + 1 + k = (n + k) + 1 by omega, items]
      rw [items] at e
      cases hx : next c h t with
      | none => rw [hx] at e; exact e
      | some x =>
        rw [hx] at e
        simp only [Option.map_eq_some_iff] at e ⊢
        obtain ⟨l', e', rfl⟩ := e
        exact ⟨l', ih _ _ _ e' k, rfl⟩
  have := mono _ _ _ _ this (f - (2 ^ j + 2))
  rw [show 2 ^ j + 1 + 1 + (f - (2 ^ j + 2)) = f by omega] at this
  rw [this, List.range_eq_range']

/-- **C77 (coordinates along a curve)** The coordinates along a curve are the points of the curve at 1, 2, 4, … or 128 equal steps, from the start
to the end. There are more than `2 ^ m` steps exactly if the curve is away from its start, by the tolerance at least, at the end, in the middle, at a
quarter, and so on up to a part of `2 ^ m`. -/
theorem coords_points (c : Cubic K) (tol : K) : ∃ j ≤ 7,
    (∀ f, 2 ^ j + 2 ≤ f → items c (step c tol) f 0 = some ((List.range (2 ^ j + 1)).map fun i : ℕ => c.curve ((i : K) / 2 ^ j))) ∧
    ∀ m < 7, m < j ↔ ∀ i ≤ m, tol ≤ Sq c.s (c.curve (1 / 2 ^ i)) := by
  refine ⟨halvings c tol 7 1, halvings_le _ _ _ _, coords_of c tol, fun m hm => ?_⟩
  · rw [← Nat.succ_le_iff, halvings_iff]
    exact ⟨fun h i hi => h.2 i (by omega), fun h => ⟨by omega, fun i hi => h i (by omega)⟩⟩

omit [LinearOrder K] [IsStrictOrderedRing K] in
/-- How far a coordinate of a curve is from the chord of a part. -/
theorem chord_error (s a b p t0 h w : K) :
    let f := fun t : K => (1 - t) ^ 3 * s + 3 * (1 - t) ^ 2 * t * a + 3 * (1 - t) * t ^ 2 * b + t ^ 3 * p
    f (t0 + w * h) - ((1 - w) * f t0 + w * f (t0 + h)) =
      -(w * (1 - w) * h ^ 2) * ((3 - (3 * t0 + w * h + h)) * (s - 2 * a + b) + (3 * t0 + w * h + h) * (a - 2 * b + p)) := by
  intro f; simp only [f]; ring

theorem chord_bound {s a b p t0 h w m : K} (h0 : 0 ≤ t0) (hh : 0 ≤ h) (h1 : t0 + h ≤ 1) (w0 : 0 ≤ w) (w1 : w ≤ 1)
    (m1 : |s - 2 * a + b| ≤ m) (m2 : |a - 2 * b + p| ≤ m) :
    let f := fun t : K => (1 - t) ^ 3 * s + 3 * (1 - t) ^ 2 * t * a + 3 * (1 - t) * t ^ 2 * b + t ^ 3 * p
    |f (t0 + w * h) - ((1 - w) * f t0 + w * f (t0 + h))| ≤ 3 / 4 * m * h ^ 2 := by
  intro f
  have hm : 0 ≤ m := (abs_nonneg _).trans m1
  have e := chord_error s a b p t0 h w
  simp only at e
  simp only [f]
  rw [e, abs_mul, abs_neg]
  set σ := 3 * t0 + w * h + h with hσ
  have hwh : w * h ≤ h := mul_le_of_le_one_left hh w1
  have hwh0 : 0 ≤ w * h := mul_nonneg w0 hh
  have σ0 : 0 ≤ σ := by rw [hσ]; linarith
  have σ3 : σ ≤ 3 := by rw [hσ]; linarith
  have i1 : |(3 - σ) * (s - 2 * a + b) + σ * (a - 2 * b + p)| ≤ 3 * m := by
    refine (abs_add_le _ _).trans ?_
    rw [abs_mul, abs_mul, abs_of_nonneg (by linarith : 0 ≤ 3 - σ), abs_of_nonneg σ0]
    have := mul_le_mul_of_nonneg_left m1 (by linarith : 0 ≤ 3 - σ)
    have := mul_le_mul_of_nonneg_left m2 σ0
    linarith
  have ww : w * (1 - w) ≤ 1 / 4 := by nlinarith [sq_nonneg (w - 1 / 2)]
  have ww0 : 0 ≤ w * (1 - w) := mul_nonneg w0 (by linarith)
  rw [abs_of_nonneg (by positivity)]
  calc w * (1 - w) * h ^ 2 * |(3 - σ) * (s - 2 * a + b) + σ * (a - 2 * b + p)| ≤ 1 / 4 * h ^ 2 * (3 * m) := by gcongr
    _ = 3 / 4 * m * h ^ 2 := by ring

theorem piece {n : ℕ} (hn : 0 < n) {x : K} (h0 : 0 ≤ x) (h1 : x ≤ n) : ∃ i < n, (i : K) ≤ x ∧ x ≤ i + 1 := by
  induction n with
  | zero => omega
  | succ n ih =>
    by_cases hx : x ≤ n
    · cases n with
      | zero => exact ⟨0, by omega, by simpa using h0, by simpa using h1⟩
      | succ n => obtain ⟨i, hi, h⟩ := ih (by omega) hx; exact ⟨i, by omega, h⟩
    · exact ⟨n, by omega, (not_le.1 hx).le, by push_cast at h1; exact h1⟩

/-- **C77 (the line along the coordinates)** Every point of the curve is close to a point of the line through the coordinates: in each direction its
distance is at most three quarters of the second differences of the controls, over the square of the number of steps. -/
theorem coords_near (c : Cubic K) (tol : K) {mx my : K}
    (hx1 : |c.s.1 - 2 * c.a.1 + c.b.1| ≤ mx) (hx2 : |c.a.1 - 2 * c.b.1 + c.p.1| ≤ mx)
    (hy1 : |c.s.2 - 2 * c.a.2 + c.b.2| ≤ my) (hy2 : |c.a.2 - 2 * c.b.2 + c.p.2| ≤ my) :
    ∃ (l : List (Pt K)) (n : ℕ), 1 ≤ n ∧ l.length = n + 1 ∧ (∀ f, n + 2 ≤ f → items c (step c tol) f 0 = some l) ∧
      ∀ u, 0 ≤ u → u ≤ 1 → ∃ i p q w, l[i]? = some p ∧ l[i + 1]? = some q ∧ 0 ≤ w ∧ w ≤ 1 ∧
        |(c.curve u).1 - (Between p q w).1| ≤ 3 / 4 * mx / n ^ 2 ∧ |(c.curve u).2 - (Between p q w).2| ≤ 3 / 4 * my / n ^ 2 := by
  obtain ⟨j, -, hl, -⟩ := coords_points c tol
  refine ⟨_, 2 ^ j, Nat.one_le_two_pow, by simp, hl, fun u u0 u1 => ?_⟩
  have hn' : (0 : K) < 2 ^ j := by positivity
  obtain ⟨i, hi, hi0, hi1⟩ := piece (n := 2 ^ j) (by positivity) (x := u * 2 ^ j) (by positivity)
    (by push_cast; exact mul_le_of_le_one_left hn'.le u1)
  have eu : u = (i : K) / 2 ^ j + (u * 2 ^ j - i) * (1 / 2 ^ j) := by field_simp; ring
  have e1 : (i : K) / 2 ^ j + 1 / 2 ^ j = ((i + 1 : ℕ) : K) / 2 ^ j := by rw [← add_div]; push_cast; rfl
  have b1 : (i : K) / 2 ^ j + 1 / 2 ^ j ≤ 1 := by
    rw [e1, div_le_one hn']; exact_mod_cast (by omega : i + 1 ≤ 2 ^ j)
  refine ⟨i, c.curve (i / 2 ^ j), c.curve (((i + 1 : ℕ) : K) / 2 ^ j), u * 2 ^ j - i, ?_, ?_, by linarith, by linarith, ?_, ?_⟩
  · rw [List.getElem?_map, List.getElem?_range (by omega)]; rfl
  · rw [List.getElem?_map, List.getElem?_range (by omega)]; rfl
  · have := chord_bound (t0 := (i : K) / 2 ^ j) (h := 1 / 2 ^ j) (w := u * 2 ^ j - i) (by positivity) (by positivity) b1 (by linarith)
      (by linarith) hx1 hx2
    simp only [e1] at this
    rw [← eu] at this
    refine le_trans this (le_of_eq ?_)
    push_cast; ring
  · have := chord_bound (t0 := (i : K) / 2 ^ j) (h := 1 / 2 ^ j) (w := u * 2 ^ j - i) (by positivity) (by positivity) b1 (by linarith)
      (by linarith) hy1 hy2
    simp only [e1] at this
    rw [← eu] at this
    refine le_trans this (le_of_eq ?_)
    push_cast; ring

end Verif.Curves
