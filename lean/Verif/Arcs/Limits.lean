import Verif.Arcs.Coords

/-!
# Where points along arcs are not what is promised; examples
-/

namespace Verif.Arcs

open Real Verif.Gjk Verif.ArcTo Verif.Fit

/-- **C78 (violated: coordinates of arcs that start at an angle of one)** The coordinates along an arc that starts at the angle of one radian are its two
ends only, however far it goes around. -/
theorem coords_start_violated (a : ArcR) (h : a.start = 1) (ang : ℝ) {tol : ℝ} (ht : 0 ≤ tol) (f : ℕ) :
    items a (step a ang tol) (f + 3) 0 = some [Along a 0, Along a 1] := by
  obtain ⟨j, -, hl, hm⟩ := coords_points a ang tol
  obtain rfl : j = 0 := by
    by_contra hj
    have := ((hm 0 (by omega)).1 (by omega) 0 (le_refl _)).2
    rw [pow_zero, div_one, ← h, ← atAngle_along, zero_mul, add_zero, sq_self] at this
    exact absurd ht (not_le.2 this)
  rw [hl _ (by omega)]
  simp [List.range_succ]

/-- **C78 (violated: the number of coordinates)** The number of coordinates that is announced is always one less than the number of coordinates. -/
theorem coords_len_violated (a : ArcR) (ang tol : ℝ) : ∃ (l : List (Pt ℝ)) (n : ℕ), (∀ f, n + 2 ≤ f → items a (step a ang tol) f 0 = some l) ∧
    count 0 (step a ang tol) + 1 = l.length := by
  refine ⟨_, _, coords_of a ang tol, ?_⟩
  simp [count, step]

/-- **C78 (violated: the length of a reversed arc)** A quarter of an ellipse has another length than the same arc in the other direction, although it has the
same points. -/
theorem length_reverse_violated (a : ArcR) (hx : 0 < a.rx) (hy : 0 < a.ry) (h0 : a.start = 0) (hs : a.sweep = π / 2) :
    length a 2 - length (reverse a) 2 = π / 6 * (a.ry - a.rx) := by
  have hp := pi_pos
  have r2 : List.range 2 = [0, 1] := rfl
  set M := √(a.rx ^ 2 * sin (π / 4) ^ 2 + a.ry ^ 2 * cos (π / 4) ^ 2) with hM
  have hM0 : 0 ≤ M := sqrt_nonneg _
  have l1 : length a 2 = (2 * a.ry + 4 * M) * (π / 4) / 3 := by
    simp only [length]
    rw [if_neg (by simp [hx.ne', hy.ne']), if_neg (by rw [hs]; positivity)]
    norm_num [h0, hs]
    simp only [r2, List.map_cons, List.map_nil, List.sum_cons, List.sum_nil]
    norm_num
    rw [show π / 2 / 2 = π / 4 by ring, ← hM, sqrt_sq hy.le, abs_of_pos (by positivity)]
  have l2 : length (reverse a) 2 = (2 * a.rx + 4 * M) * (π / 4) / 3 := by
    simp only [length, reverse]
    rw [if_neg (by simp [hx.ne', hy.ne']), if_neg (by rw [hs]; simp [hp.ne'])]
    norm_num [h0, hs]
    simp only [r2, List.map_cons, List.map_nil, List.sum_cons, List.sum_nil]
    norm_num
    rw [show π / 2 + -(π / 2) / 2 = π / 4 by ring, ← hM, sqrt_sq hx.le,
      show (2 * a.rx + 4 * M) * (-(π / 2) / 2) / 3 = -((2 * a.rx + 4 * M) * (π / 4) / 3) by ring, abs_neg, abs_of_pos (by positivity)]
  rw [l1, l2]; ring

/-- **C78 (violated: small arcs as curves)** An arc has no curve exactly if it is at most a quarter of a turn, or a little more: the ones for which a single curve
is close. -/
theorem toCurve_small_violated (a : ArcR) : toCurve a = none ↔ |a.sweep| < π / 2 + 1 / 10 ^ 6 := by
  simp only [toCurve]; split <;> simp_all

/-- A circle around the origin. -/
def disc (r start sweep : ℝ) : ArcR := ⟨(0, 0), r, r, 0, start, sweep⟩

theorem disc_along (r start sweep u : ℝ) : Along (disc r start sweep) u = (r * cos (start + u * sweep), r * sin (start + u * sweep)) := by
  simp [Along, disc]

/-- **C78 (violated: the tolerance)** A point beside an arc of a circle with a radius greater than one is found, although it is farther from all points of the
arc than the tolerance. -/
theorem tAt_tolerance_violated {r tol sweep : ℝ} (hr : 1 < r) (ht : 0 < tol) (h0 : 0 < sweep) (h1 : sweep < 2 * π) :
    ∃ x, tAt (disc r 0 sweep) x tol = some 0 ∧ ∀ u, tol < Sq (Along (disc r 0 sweep) u) x := by
  have hp := pi_pos
  have hr0 : 0 < r := by linarith
  have hq := sqrt_pos.2 ht
  have hqs : √tol ^ 2 = tol := sq_sqrt ht.le
  refine ⟨((1 + √tol) * r, 0), ?_, fun u => ?_⟩
  · have ew : wide (disc r 0 sweep) tol = tol * (1 + r ^ 2) := by simp [wide, disc]
    have hd : Sq (Along (disc r 0 sweep) 0) ((1 + √tol) * r, 0) ≤ wide (disc r 0 sweep) tol := by
      rw [disc_along, ew, zero_mul, add_zero, cos_zero, sin_zero]
      simp only [Sq]
      nlinarith
    have ha : angle ((1 + √tol) * r / r, 0 / r) = 0 := by
      rw [angle]
      have : (⟨(1 + √tol) * r / r, 0 / r⟩ : ℂ) = ((1 + √tol : ℝ) : ℂ) := by
        apply Complex.ext <;> simp [hr0.ne']
      simp only
      rw [this, Complex.arg_ofReal_of_nonneg (by positivity)]
    have hw : angleAt (disc r 0 sweep) ((1 + √tol) * r, 0) (wide (disc r 0 sweep) tol) = some 0 := by
      have er : rotate ((((1 + √tol) * r, 0) : Pt ℝ) - (disc r 0 sweep).center) (-(disc r 0 sweep).rot) = ((1 + √tol) * r, 0) := by
        simp [rotate, disc]
      simp only [angleAt, er]
      rw [show (disc r 0 sweep).rx = r from rfl, show (disc r 0 sweep).ry = r from rfl, ha, if_pos]
      rw [dist2_eq]
      have := atAngle_along (disc r 0 sweep) 0
      rw [show (disc r 0 sweep).start = 0 from rfl, zero_mul, add_zero] at this
      rw [this]; exact hd
    refine tAt_of_angle _ hw (by exact h0.ne') (le_refl _) zero_le_one ?_ hd
    have : roundAway (((disc r 0 sweep).start + 1 / 2 * (disc r 0 sweep).sweep - 0) / (2 * π)) = 0 := by
      apply roundAway_near
      simp only [disc]
      rw [Int.cast_zero, sub_zero, sub_zero, zero_add, abs_of_pos (by positivity), div_lt_iff₀ (by positivity)]
      linarith
    rw [this]; simp [disc]
  · rw [disc_along]
    set w := 0 + u * sweep
    have h1 := sin_sq_add_cos_sq w
    have hc := cos_le_one w
    have : Sq (r * cos w, r * sin w) ((1 + √tol) * r, 0) = r ^ 2 * (tol + 2 * (1 + √tol) * (1 - cos w)) := by
      simp only [Sq]; linear_combination r ^ 2 * h1 + r ^ 2 * hqs
    rw [this]
    have h2 : tol ≤ tol + 2 * (1 + √tol) * (1 - cos w) := by
      have : 0 ≤ 2 * (1 + √tol) * (1 - cos w) := mul_nonneg (by positivity) (by linarith)
      linarith
    have hr2 : 1 < r ^ 2 := by nlinarith
    calc tol = 1 * tol := (one_mul _).symm
      _ < r ^ 2 * tol := mul_lt_mul_of_pos_right hr2 ht
      _ ≤ _ := mul_le_mul_of_nonneg_left h2 (by positivity)

/-! ## Examples -/

example : tAt (disc 2 0 π) (0, 2) 0 = some (1 / 2) := by
  have hp := pi_pos
  have := tAt_complete (disc 2 0 π) (by norm_num [disc]) (by norm_num [disc]) (by exact hp.ne') (u := 1 / 2) (le_refl (0 : ℝ)) (by norm_num) (by norm_num)
    (Or.inl (by simp only [disc]; rw [abs_of_pos hp]; linarith))
  rw [disc_along, show (0 : ℝ) + 1 / 2 * π = π / 2 by ring, cos_pi_div_two, sin_pi_div_two, mul_zero, mul_one] at this
  exact this

example : length (disc 3 0 π) 4 = 3 * π := by
  rw [length_circle (disc 3 0 π) (r := 3) (by norm_num) rfl rfl 4]
  simp only [disc]; rw [abs_of_pos pi_pos]

/-- Half of a circle that starts at the angle of one: the line along it is a straight one. -/
example : items (disc 1 1 π) (step (disc 1 1 π) (1 / 1000) (1 / 10 ^ 6)) 3 0 = some [(cos 1, sin 1), (-cos 1, -sin 1)] := by
  rw [coords_start_violated (disc 1 1 π) rfl _ (by norm_num) 0, disc_along, disc_along]
  simp

/-- The tangent of a circle. -/
example : tangent (disc 1 0 π) 0 = (0, 1) := by
  have hl : √((rotate (-(disc 1 0 π).rx * sin 0, (disc 1 0 π).ry * cos 0) (disc 1 0 π).rot).1 * (rotate (-(disc 1 0 π).rx * sin 0, (disc 1 0 π).ry * cos 0) (disc 1 0 π).rot).1
      + (rotate (-(disc 1 0 π).rx * sin 0, (disc 1 0 π).ry * cos 0) (disc 1 0 π).rot).2 * (rotate (-(disc 1 0 π).rx * sin 0, (disc 1 0 π).ry * cos 0) (disc 1 0 π).rot).2) = 1 := by
    simp [rotate, disc]
  simp only [tangent]
  rw [show (disc 1 0 π).start + 0 * (disc 1 0 π).sweep = 0 by simp [disc], hl, if_pos (by norm_num)]
  simp [rotate, disc, pi_pos.le]

end Verif.Arcs
