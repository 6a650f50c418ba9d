import Verif.ArcTo.Spec

/-! # Angles and ellipses -/

namespace Verif.ArcTo

open Real Verif.Gjk

theorem rem_small {x y : ℝ} (h : |x| < y) : rem x y = x := by
  have hy : 0 < y := lt_of_le_of_lt (abs_nonneg x) h
  have h1 : |x / y| < 1 := by rw [abs_div, abs_of_pos hy, div_lt_one hy]; exact h
  obtain ⟨h2, h3⟩ := abs_lt.mp h1
  unfold rem
  split
  · next h0 =>
    have : ⌊x / y⌋ = 0 := Int.floor_eq_zero_iff.mpr ⟨h0, h3⟩
    rw [this]; simp
  · next h0 =>
    have : ⌈x / y⌉ = 0 := Int.ceil_eq_zero_iff.mpr ⟨h2, le_of_lt (not_le.mp h0)⟩
    rw [this]; simp

theorem rem_int (x : ℝ) : ∃ k : ℤ, rem x (2 * π) = x - k * (2 * π) := by
  unfold rem
  split
  · exact ⟨⌊x / (2 * π)⌋, by ring⟩
  · exact ⟨⌈x / (2 * π)⌉, by ring⟩

theorem cos_rem (x : ℝ) : cos (rem x (2 * π)) = cos x := by
  obtain ⟨k, hk⟩ := rem_int x
  rw [hk, cos_sub_int_mul_two_pi]

theorem sin_rem (x : ℝ) : sin (rem x (2 * π)) = sin x := by
  obtain ⟨k, hk⟩ := rem_int x
  rw [hk, sin_sub_int_mul_two_pi]

theorem norm_one {p : Pt ℝ} (h : p.1 ^ 2 + p.2 ^ 2 = 1) : ‖(⟨p.1, p.2⟩ : ℂ)‖ = 1 := by
  rw [Complex.norm_def, Complex.normSq_apply]
  have : p.1 * p.1 + p.2 * p.2 = 1 := by rw [← h]; ring
  rw [this, sqrt_one]

theorem cos_angle {p : Pt ℝ} (h : p.1 ^ 2 + p.2 ^ 2 = 1) : cos (angle p) = p.1 := by
  have hn := norm_one h
  have h0 : (⟨p.1, p.2⟩ : ℂ) ≠ 0 := by
    intro h0
    rw [h0, norm_zero] at hn
    exact zero_ne_one hn
  rw [angle, Complex.cos_arg h0, hn, div_one]

theorem sin_angle {p : Pt ℝ} (h : p.1 ^ 2 + p.2 ^ 2 = 1) : sin (angle p) = p.2 := by
  rw [angle, Complex.sin_arg, norm_one h, div_one]

theorem angle_bounds (p : Pt ℝ) : -π < angle p ∧ angle p ≤ π := ⟨Complex.neg_pi_lt_arg _, Complex.arg_le_pi _⟩

/-- The direction that is asked for. -/
theorem turned {s : Bool} {r : ℝ} (hr : |r| < 2 * π) (h0 : r ≠ 0) :
    let w := if s = true ∧ r < 0 then r + 2 * π else if ¬s = true ∧ 0 < r then r - 2 * π else r
    |w| < 2 * π ∧ (s = true → 0 < w) ∧ (s = false → w < 0) ∧ (∀ x, cos (x + w) = cos (x + r)) ∧ ∀ x, sin (x + w) = sin (x + r) := by
  obtain ⟨h1, h2⟩ := abs_lt.mp hr
  intro w
  have hw : (s = true ∧ r < 0 ∧ w = r + 2 * π) ∨ (s = false ∧ 0 < r ∧ w = r - 2 * π) ∨ (s = true ∧ 0 < r ∧ w = r) ∨ (s = false ∧ r < 0 ∧ w = r) := by
    rcases lt_or_gt_of_ne h0 with h | h <;> cases s
    · exact .inr (.inr (.inr ⟨rfl, h, by simp [w, not_lt.mpr (le_of_lt h)]⟩))
    · exact .inl ⟨rfl, h, by simp [w, h]⟩
    · exact .inr (.inl ⟨rfl, h, by simp [w, h]⟩)
    · exact .inr (.inr (.inl ⟨rfl, h, by simp [w, not_lt.mpr (le_of_lt h)]⟩))
  rcases hw with ⟨rfl, h, e⟩ | ⟨rfl, h, e⟩ | ⟨rfl, h, e⟩ | ⟨rfl, h, e⟩ <;> rw [e]
  · exact ⟨abs_lt.mpr ⟨by linarith, by linarith⟩, fun _ => by linarith, by simp, fun x => by rw [← add_assoc, cos_add_two_pi], fun x => by rw [← add_assoc, sin_add_two_pi]⟩
  · exact ⟨abs_lt.mpr ⟨by linarith, by linarith⟩, by simp, fun _ => by linarith, fun x => by rw [← add_sub_assoc, cos_sub_two_pi], fun x => by rw [← add_sub_assoc, sin_sub_two_pi]⟩
  · exact ⟨hr, fun _ => h, by simp, fun _ => rfl, fun _ => rfl⟩
  · exact ⟨hr, by simp, fun _ => h, fun _ => rfl, fun _ => rfl⟩

theorem half_zero {rot : ℝ} {p q : Pt ℝ} (h : p ≠ q) : half rot p q ≠ 0 := by
  intro h0
  apply h
  have e1 := congrArg Prod.fst h0
  have e2 := congrArg Prod.snd h0
  simp only [half, Prod.fst_zero, Prod.snd_zero] at e1 e2
  have hs := sin_sq_add_cos_sq rot
  refine Prod.ext ?_ ?_
  · have : (p.1 - q.1) * (1 / 2) = 0 := by linear_combination cos rot * e1 - sin rot * e2 - (p.1 - q.1) * (1 / 2) * hs
    linarith
  · have : (p.2 - q.2) * (1 / 2) = 0 := by linear_combination sin rot * e1 + cos rot * e2 - (p.2 - q.2) * (1 / 2) * hs
    linarith

/-- Turning `half` back. -/
theorem half_back (rot : ℝ) (p q : Pt ℝ) : cos rot * (half rot p q).1 - sin rot * (half rot p q).2 = (p.1 - q.1) / 2 ∧
    sin rot * (half rot p q).1 + cos rot * (half rot p q).2 = (p.2 - q.2) / 2 := by
  have hs := sin_sq_add_cos_sq rot
  simp only [half]
  exact ⟨by linear_combination (p.1 - q.1) / 2 * hs, by linear_combination (p.2 - q.2) / 2 * hs⟩

theorem factor_pos {rx ry : ℝ} {h : Pt ℝ} (hx : 0 < rx) (hy : 0 < ry) (h0 : h ≠ 0) : 0 < factor rx ry h := by
  have h1 : 0 ≤ h.1 * h.1 / (rx * rx) := div_nonneg (mul_self_nonneg _) (mul_self_nonneg _)
  have h2 : 0 ≤ h.2 * h.2 / (ry * ry) := div_nonneg (mul_self_nonneg _) (mul_self_nonneg _)
  unfold factor
  by_cases e : h.1 = 0
  · have e' : h.2 ≠ 0 := fun e' => h0 (Prod.ext e e')
    have : 0 < h.2 * h.2 / (ry * ry) := div_pos (mul_self_pos.mpr e') (mul_pos hy hy)
    linarith
  · have : 0 < h.1 * h.1 / (rx * rx) := div_pos (mul_self_pos.mpr e) (mul_pos hx hx)
    linarith

/-- The factor of two points of an ellipse. -/
theorem factor_ellipse {c p q : Pt ℝ} {rx ry rot : ℝ} (hx : 0 < rx) (hy : 0 < ry) (hp : OnEllipse c rx ry rot p) (hq : OnEllipse c rx ry rot q) :
    factor rx ry (half rot p q) ≤ 1 := by
  obtain ⟨t, p1, p2⟩ := hp
  obtain ⟨u, q1, q2⟩ := hq
  have hs := sin_sq_add_cos_sq rot
  have e1 : (half rot p q).1 = rx * (cos t - cos u) / 2 := by
    simp only [half, p1, p2, q1, q2]
    linear_combination rx * (cos t - cos u) / 2 * hs
  have e2 : (half rot p q).2 = ry * (sin t - sin u) / 2 := by
    simp only [half, p1, p2, q1, q2]
    linear_combination ry * (sin t - sin u) / 2 * hs
  have : factor rx ry (half rot p q) = ((cos t - cos u) ^ 2 + (sin t - sin u) ^ 2) / 4 := by
    rw [factor, e1, e2]
    field_simp
    ring
  rw [this]
  have h1 := sin_sq_add_cos_sq t
  have h2 := sin_sq_add_cos_sq u
  nlinarith [sq_nonneg (cos t + cos u), sq_nonneg (sin t + sin u)]

theorem factor_scale {rx ry : ℝ} {h : Pt ℝ} (k : ℝ) : factor (k * rx) (k * ry) h = factor rx ry h / k ^ 2 := by
  simp only [factor]
  rw [show k * rx * (k * rx) = rx * rx * k ^ 2 by ring, show k * ry * (k * ry) = ry * ry * k ^ 2 by ring, ← div_div (h.1 * h.1) (rx * rx),
    ← div_div (h.2 * h.2) (ry * ry), ← add_div]

end Verif.ArcTo
