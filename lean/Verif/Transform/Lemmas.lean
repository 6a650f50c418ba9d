import Verif.Transform.Round
import Mathlib.Tactic.LinearCombination

/-! # Decompositions, and what is made of them -/

namespace Verif.Transform

open Real

variable {Css : Type} {css : Css → Pt → Pt}

theorem draw_append (l m : List (T Css)) (p : Pt) : draw css (l ++ m) p = draw css l (draw css m p) := by
  simp [draw, List.foldr_append]

theorem draw_cons (t : T Css) (l : List (T Css)) (p : Pt) : draw css (t :: l) p = t.move css (draw css l p) := rfl

theorem draw_nil (p : Pt) : draw css [] p = p := rfl

theorem draw_opt {c : Prop} [Decidable c] (t : T Css) (h : ¬ c → ∀ p, t.move css p = p) (p : Pt) :
    draw css (if c then [t] else []) p = t.move css p := by
  split
  · rfl
  · next hc => rw [h hc]; rfl

theorem deg_rad (r : ℝ) : deg r * π / 180 = r := by
  unfold deg
  have := pi_ne_zero
  field_simp

theorem hypot_pos {x y : ℝ} (h : hypot x y ≠ 0) : 0 < hypot x y := lt_of_le_of_ne (sqrt_nonneg _) (Ne.symm h)

theorem hypot_sq (x y : ℝ) : hypot x y ^ 2 = x ^ 2 + y ^ 2 := sq_sqrt (by positivity)

theorem div_hypot_mem {x y : ℝ} (h : hypot x y ≠ 0) : -1 ≤ x / hypot x y ∧ x / hypot x y ≤ 1 := by
  have hp := hypot_pos h
  have hs := hypot_sq x y
  constructor
  · rw [le_div_iff₀ hp]; nlinarith [sq_nonneg y]
  · rw [div_le_iff₀ hp]; nlinarith [sq_nonneg y]

theorem sqrt_div {x y : ℝ} (h : hypot x y ≠ 0) : √(1 - (x / hypot x y) ^ 2) = |y| / hypot x y := by
  have hp := hypot_pos h
  have hs := hypot_sq x y
  rw [show 1 - (x / hypot x y) ^ 2 = (|y| / hypot x y) ^ 2 by
    rw [div_pow, div_pow, sq_abs]; field_simp; linarith]
  exact sqrt_sq (by positivity)

/-- The angle in `qrab`. -/
theorem angle_qrab {a b : ℝ} (h : hypot a b ≠ 0) :
    cos (if b < 0 then arccos (a / hypot a b) * -1 else arccos (a / hypot a b)) = a / hypot a b ∧
    sin (if b < 0 then arccos (a / hypot a b) * -1 else arccos (a / hypot a b)) = b / hypot a b := by
  obtain ⟨h1, h2⟩ := div_hypot_mem h
  split
  · next hb =>
    rw [mul_neg_one, cos_neg, sin_neg, cos_arccos h1 h2, sin_arccos, sqrt_div h, abs_of_neg hb]
    exact ⟨rfl, by ring⟩
  · next hb =>
    rw [cos_arccos h1 h2, sin_arccos, sqrt_div h, abs_of_nonneg (not_lt.mp hb)]
    exact ⟨rfl, rfl⟩

/-- The angle in `qrcd`. -/
theorem angle_qrcd {c d : ℝ} (h : hypot c d ≠ 0) :
    cos (π / 2 - (if d < 0 then -1 else 1) * arccos (-c / hypot c d)) = d / hypot c d ∧
    sin (π / 2 - (if d < 0 then -1 else 1) * arccos (-c / hypot c d)) = -c / hypot c d := by
  obtain ⟨h1, h2⟩ := div_hypot_mem h
  have e : √(1 - (-c / hypot c d) ^ 2) = |d| / hypot c d := by
    rw [show (-c / hypot c d) ^ 2 = (c / hypot c d) ^ 2 by rw [neg_div]; ring]
    exact sqrt_div h
  have g1 : -1 ≤ -c / hypot c d := by rw [neg_div]; linarith
  have g2 : -c / hypot c d ≤ 1 := by rw [neg_div]; linarith
  rw [cos_pi_div_two_sub, sin_pi_div_two_sub]
  split
  · next hd =>
    rw [neg_one_mul, sin_neg, cos_neg, sin_arccos, cos_arccos g1 g2, e, abs_of_neg hd]
    exact ⟨by ring, rfl⟩
  · next hd =>
    rw [one_mul, sin_arccos, cos_arccos g1 g2, e, abs_of_nonneg (not_lt.mp hd)]
    exact ⟨rfl, rfl⟩

theorem qrab_draw {m : M} {D : List (T Css)} (h : qrab m = some D) (p : Pt) : draw css D p = m.apply p := by
  unfold qrab at h
  dsimp only at h
  split at h
  · simp at h
  split at h
  · simp at h
  next hdelta hr =>
  simp only [Option.some.injEq] at h
  subst h
  obtain ⟨hc, hs⟩ := angle_qrab hr
  have hp := hypot_pos hr
  have hsq := hypot_sq m.a m.b
  set r := hypot m.a m.b with hrdef
  simp only [draw_append]
  have h1 : ∀ q : Pt, (¬ (m.e ≠ 0 ∨ m.f ≠ 0)) → (T.translate m.e m.f : T Css).move css q = q := by
    intro q hcon
    simp only [ne_eq, not_or, not_not] at hcon
    simp [T.move, hcon]
  have h2 : ∀ q : Pt, (¬ m.a / r ≠ 1) →
      (T.rotate (deg (if m.b < 0 then arccos (m.a / r) * -1 else arccos (m.a / r))) 0 0 : T Css).move css q = q := by
    intro q hcon
    simp only [ne_eq, not_not] at hcon
    have hb : m.b = 0 := by
      rw [div_eq_one_iff_eq hp.ne'] at hcon
      have : m.b ^ 2 = 0 := by rw [← hcon] at hsq; linarith
      exact pow_eq_zero_iff (two_ne_zero) |>.mp this
    simp only [T.move, deg_rad, hc, hs]
    rw [hcon, hb]
    simp
  have h3 : ∀ q : Pt, (¬ (r ≠ 1 ∨ (m.a * m.d - m.b * m.c) / r ≠ 1)) →
      (T.scale r ((m.a * m.d - m.b * m.c) / r) : T Css).move css q = q := by
    intro q hcon
    simp only [ne_eq, not_or, not_not] at hcon
    simp only [T.move]
    rw [hcon.2, hcon.1]
    simp
  have h4 : ∀ q : Pt, (¬ m.a * m.c + m.b * m.d ≠ 0) →
      (T.skewX (deg (arctan ((m.a * m.c + m.b * m.d) / (m.a * m.a + m.b * m.b)))) : T Css).move css q = q := by
    intro q hcon
    simp only [ne_eq, not_not] at hcon
    simp only [T.move, deg_rad, tan_arctan, hcon]
    simp
  rw [draw_opt _ (fun hc q => h1 q hc), draw_opt _ (fun hc q => h2 q hc), draw_opt _ (fun hc q => h3 q hc),
    draw_opt _ (fun hc q => h4 q hc)]
  simp only [T.move, deg_rad, hc, hs, tan_arctan, M.apply]
  have hab : m.a * m.a + m.b * m.b = r ^ 2 := by rw [hsq]; ring
  rw [hab]
  ext
  · dsimp only
    field_simp
    linear_combination (-(m.c * p.2)) * hsq
  · dsimp only
    field_simp
    linear_combination (-(m.d * p.2)) * hsq

theorem qrcd_draw {m : M} {D : List (T Css)} (h : qrcd m = some D) (p : Pt) : draw css D p = m.apply p := by
  unfold qrcd at h
  dsimp only at h
  split at h
  · simp at h
  split at h
  · simp at h
  next hdelta hr =>
  simp only [Option.some.injEq] at h
  subst h
  obtain ⟨hc, hs⟩ := angle_qrcd hr
  have hp := hypot_pos hr
  have hsq := hypot_sq m.c m.d
  set r := hypot m.c m.d with hrdef
  simp only [draw_append, draw_cons, draw_nil]
  have h1 : ∀ q : Pt, (¬ (m.e ≠ 0 ∨ m.f ≠ 0)) → (T.translate m.e m.f : T Css).move css q = q := by
    intro q hcon
    simp only [ne_eq, not_or, not_not] at hcon
    simp [T.move, hcon]
  have h3 : ∀ q : Pt, (¬ ((m.a * m.d - m.b * m.c) / r ≠ 1 ∨ r ≠ 1)) →
      (T.scale ((m.a * m.d - m.b * m.c) / r) r : T Css).move css q = q := by
    intro q hcon
    simp only [ne_eq, not_or, not_not] at hcon
    simp only [T.move]
    rw [hcon.1, hcon.2]
    simp
  have h4 : ∀ q : Pt, (¬ m.a * m.c + m.b * m.d ≠ 0) →
      (T.skewY (deg (arctan ((m.a * m.c + m.b * m.d) / (m.c * m.c + m.d * m.d)))) : T Css).move css q = q := by
    intro q hcon
    simp only [ne_eq, not_not] at hcon
    simp only [T.move, deg_rad, tan_arctan, hcon]
    simp
  rw [draw_opt _ (fun hc q => h1 q hc), draw_opt _ (fun hc q => h3 q hc), draw_opt _ (fun hc q => h4 q hc)]
  simp only [T.move, deg_rad, hc, hs, tan_arctan, M.apply]
  have hab : m.c * m.c + m.d * m.d = r ^ 2 := by rw [hsq]; ring
  rw [hab]
  ext
  · dsimp only
    field_simp
    linear_combination (-(m.a * p.1)) * hsq
  · dsimp only
    field_simp
    linear_combination (-(m.b * p.1)) * hsq

end Verif.Transform
