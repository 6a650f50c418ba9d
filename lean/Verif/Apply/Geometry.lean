import Verif.Apply.Spec
import Verif.Transform.Lemmas
import Mathlib.Tactic.Linarith
import Mathlib.Tactic.Ring
import Mathlib.Tactic.FieldSimp
import Mathlib.Tactic.Positivity
import Mathlib.Tactic.NormNum
import Mathlib.Tactic.LinearCombination

/-!
# Ellipses under linear maps
-/

namespace Verif.Apply

open Real Verif.Transform

theorem angle_exists {x y : ℝ} (h : x ^ 2 + y ^ 2 = 1) : ∃ α, cos α = x ∧ sin α = y := by
  have h1 : hypot x y = 1 := by unfold hypot; rw [h, sqrt_one]
  have h2 := angle_qrab (a := x) (b := y) (by rw [h1]; norm_num)
  rw [h1, div_one, div_one] at h2
  exact ⟨_, h2⟩

/-- An orthogonal map turns the circle, or turns and reflects it. -/
theorem orthogonal {w11 w12 w21 w22 : ℝ} (h1 : w11 ^ 2 + w12 ^ 2 = 1) (h2 : w21 ^ 2 + w22 ^ 2 = 1)
    (h3 : w11 * w21 + w12 * w22 = 0) :
    ∃ α ε : ℝ, (ε = 1 ∧ 0 < w11 * w22 - w12 * w21 ∨ ε = -1 ∧ w11 * w22 - w12 * w21 < 0) ∧ ∀ θ,
      w11 * cos θ + w12 * sin θ = cos (ε * θ + α) ∧ w21 * cos θ + w22 * sin θ = sin (ε * θ + α) := by
  have hd : (w11 * w22 - w12 * w21) ^ 2 = 1 := by
    have : (w11 * w22 - w12 * w21) ^ 2 = (w11 ^ 2 + w12 ^ 2) * (w21 ^ 2 + w22 ^ 2) - (w11 * w21 + w12 * w22) ^ 2 := by ring
    rw [this, h1, h2, h3]; norm_num
  have hd' : w11 * w22 - w12 * w21 = 1 ∨ w11 * w22 - w12 * w21 = -1 := mul_self_eq_one_iff.mp (by rw [← sq]; exact hd)
  have key : w11 ^ 2 + w21 ^ 2 = 1 := by
    rcases hd' with h | h
    · have e2 : w12 = -w21 := by
        linear_combination (-w12) * h2 - w21 * h + w22 * h3
      rw [e2] at h1; linarith [h1, neg_sq w21]
    · have e2 : w12 = w21 := by
        linear_combination (-w12) * h2 - w21 * h + w22 * h3
      rw [e2] at h1; exact h1
  obtain ⟨α, c, s⟩ := angle_exists key
  rcases hd' with h | h
  · refine ⟨α, 1, .inl ⟨rfl, by rw [h]; norm_num⟩, fun θ => ?_⟩
    have e1 : w22 = w11 := by
      linear_combination w11 * h2 - w22 * h - w21 * h3
    have e2 : w12 = -w21 := by
      linear_combination (-w12) * h2 - w21 * h + w22 * h3
    rw [one_mul, cos_add, sin_add, c, s, e1, e2]
    constructor <;> ring
  · refine ⟨α, -1, .inr ⟨rfl, by rw [h]; norm_num⟩, fun θ => ?_⟩
    have e1 : w22 = -w11 := by
      linear_combination (-w11) * h2 + w22 * h + w21 * h3
    have e2 : w12 = w21 := by
      linear_combination (-w12) * h2 - w21 * h + w22 * h3
    rw [cos_add, sin_add, c, s, e1, e2, neg_one_mul, cos_neg, sin_neg]
    constructor <;> ring

/-- The matrix of an ellipse times its transpose. -/
structure Gram where
  xx : ℝ
  xy : ℝ
  yy : ℝ

/-- The Gram matrix of an ellipse. -/
noncomputable def gram (rx ry c s : ℝ) : Gram :=
  ⟨rx ^ 2 * c ^ 2 + ry ^ 2 * s ^ 2, (rx ^ 2 - ry ^ 2) * c * s, rx ^ 2 * s ^ 2 + ry ^ 2 * c ^ 2⟩

/-- The Gram matrix of the image, enlarged. -/
def Gram.push (m : M) (k : ℝ) (g : Gram) : Gram :=
  ⟨k ^ 2 * (m.a ^ 2 * g.xx + 2 * m.a * m.c * g.xy + m.c ^ 2 * g.yy),
    k ^ 2 * (m.a * m.b * g.xx + (m.a * m.d + m.b * m.c) * g.xy + m.c * m.d * g.yy),
    k ^ 2 * (m.b ^ 2 * g.xx + 2 * m.b * m.d * g.xy + m.d ^ 2 * g.yy)⟩

noncomputable def Arc.gram (a : Arc) : Gram := Verif.Apply.gram a.rx a.ry (cos (a.rot * π / 180)) (sin (a.rot * π / 180))

def det (m : M) : ℝ := m.a * m.d - m.b * m.c

theorem gram_det {a a' : Arc} {m : M} {k : ℝ} (h : a'.gram = a.gram.push m k) :
    (a'.rx * a'.ry) ^ 2 = (k ^ 2 * det m * (a.rx * a.ry)) ^ 2 := by
  have e := congrArg (fun g : Gram => g.xx * g.yy - g.xy ^ 2) h
  have p1 := cos_sq_add_sin_sq (a.rot * π / 180)
  have p2 := cos_sq_add_sin_sq (a'.rot * π / 180)
  simp only [Arc.gram, gram, Gram.push] at e
  generalize cos (a.rot * π / 180) = c at *
  generalize sin (a.rot * π / 180) = s at *
  generalize cos (a'.rot * π / 180) = C at *
  generalize sin (a'.rot * π / 180) = S at *
  have e1 : (a'.rx * a'.ry) ^ 2 * (C ^ 2 + S ^ 2) ^ 2 = (k ^ 2 * det m * (a.rx * a.ry)) ^ 2 * (c ^ 2 + s ^ 2) ^ 2 := by
    unfold det
    linear_combination e
  rwa [p1, p2, one_pow, mul_one, mul_one] at e1

/-- If the Gram matrices agree, the ellipse is mapped to the ellipse, its angles are shifted and, if the map reverses
orientation, negated; and the enlargement needed is divided by the one made. -/
theorem ellipse_map {a a' : Arc} {m : M} {k : ℝ} (h : a'.gram = a.gram.push m k) (hk : 0 < k) (hm : det m ≠ 0)
    (hx : a.rx ≠ 0) (hy : a.ry ≠ 0) :
    a'.rx ≠ 0 ∧ a'.ry ≠ 0 ∧
    ∃ α ε : ℝ, (ε = 1 ∧ 0 < det m ∨ ε = -1 ∧ det m < 0) ∧
      (∀ j θ, relative m (onEllipse a j θ) = onEllipse a' (j / k) (ε * θ + α)) ∧
      ∀ p q, reach a' (m.apply p) (m.apply q) = reach a p q / k := by
  have hdet := gram_det h
  have hne : (a'.rx * a'.ry) ^ 2 ≠ 0 := by
    rw [hdet]
    exact pow_ne_zero 2 (mul_ne_zero (mul_ne_zero (by positivity) hm) (mul_ne_zero hx hy))
  have hX : a'.rx ≠ 0 := by rintro e; rw [e] at hne; simp at hne
  have hY : a'.ry ≠ 0 := by rintro e; rw [e] at hne; simp at hne
  refine ⟨hX, hY, ?_⟩
  have p1 := cos_sq_add_sin_sq (a.rot * π / 180)
  have p2 := cos_sq_add_sin_sq (a'.rot * π / 180)
  have g1 := congrArg Gram.xx h
  have g2 := congrArg Gram.xy h
  have g3 := congrArg Gram.yy h
  simp only [Arc.gram, gram, Gram.push] at g1 g2 g3
  simp only [← sq_abs a.rx, ← sq_abs a.ry, ← sq_abs a'.rx, ← sq_abs a'.ry] at g1 g2 g3
  unfold onEllipse reach
  have x0 : 0 < |a.rx| := abs_pos.mpr hx
  have y0 : 0 < |a.ry| := abs_pos.mpr hy
  have X0 : 0 < |a'.rx| := abs_pos.mpr hX
  have Y0 : 0 < |a'.ry| := abs_pos.mpr hY
  generalize cos (a.rot * π / 180) = c at *
  generalize sin (a.rot * π / 180) = s at *
  generalize cos (a'.rot * π / 180) = C at *
  generalize sin (a'.rot * π / 180) = S at *
  generalize |a.rx| = x at *
  generalize |a.ry| = y at *
  generalize |a'.rx| = X at *
  generalize |a'.ry| = Y at *
  clear h hdet hne hX hY hx hy
  -- the columns of the map applied to the axes of the ellipse
  obtain ⟨f11, hf11⟩ : ∃ f, f = x * (m.a * c + m.c * s) := ⟨_, rfl⟩
  obtain ⟨f12, hf12⟩ : ∃ f, f = x * (m.b * c + m.d * s) := ⟨_, rfl⟩
  obtain ⟨f21, hf21⟩ : ∃ f, f = y * (-(m.a * s) + m.c * c) := ⟨_, rfl⟩
  obtain ⟨f22, hf22⟩ : ∃ f, f = y * (-(m.b * s) + m.d * c) := ⟨_, rfl⟩
  have k1 : X ^ 2 * C ^ 2 + Y ^ 2 * S ^ 2 = k ^ 2 * (f11 ^ 2 + f21 ^ 2) := by rw [g1, hf11, hf21]; ring
  have k2 : (X ^ 2 - Y ^ 2) * C * S = k ^ 2 * (f11 * f12 + f21 * f22) := by rw [g2, hf11, hf21, hf12, hf22]; ring
  have k3 : X ^ 2 * S ^ 2 + Y ^ 2 * C ^ 2 = k ^ 2 * (f12 ^ 2 + f22 ^ 2) := by rw [g3, hf12, hf22]; ring
  have w1 : (k * (C * f11 + S * f12) / X) ^ 2 + (k * (C * f21 + S * f22) / X) ^ 2 = 1 := by
    rw [div_pow, div_pow, ← add_div, div_eq_one_iff_eq (by positivity)]
    linear_combination (-C ^ 2) * k1 - 2 * C * S * k2 - S ^ 2 * k3 + X ^ 2 * (C ^ 2 + S ^ 2 + 1) * p2
  have w2 : (k * (-S * f11 + C * f12) / Y) ^ 2 + (k * (-S * f21 + C * f22) / Y) ^ 2 = 1 := by
    rw [div_pow, div_pow, ← add_div, div_eq_one_iff_eq (by positivity)]
    linear_combination (-S ^ 2) * k1 + 2 * C * S * k2 - C ^ 2 * k3 + Y ^ 2 * (C ^ 2 + S ^ 2 + 1) * p2
  have w3 : (k * (C * f11 + S * f12) / X) * (k * (-S * f11 + C * f12) / Y) +
      (k * (C * f21 + S * f22) / X) * (k * (-S * f21 + C * f22) / Y) = 0 := by
    rw [div_mul_div_comm, div_mul_div_comm, ← add_div, div_eq_zero_iff]
    left
    linear_combination (C * S) * k1 - (C ^ 2 - S ^ 2) * k2 - C * S * k3
  obtain ⟨α, ε, he, hw⟩ := orthogonal w1 w2 w3
  refine ⟨α, ε, ?_, ?_, ?_⟩
  · have e : k * (C * f11 + S * f12) / X * (k * (-S * f21 + C * f22) / Y) -
        k * (C * f21 + S * f22) / X * (k * (-S * f11 + C * f12) / Y) = k ^ 2 * (x * y) / (X * Y) * det m := by
      unfold det
      rw [div_mul_div_comm, div_mul_div_comm, ← sub_div, div_mul_eq_mul_div, div_left_inj' (by positivity)]
      rw [hf11, hf12, hf21, hf22]
      linear_combination (k ^ 2 * x * y * (m.a * m.d - m.b * m.c)) * ((c ^ 2 + s ^ 2) * p2 + p1)
    rw [e] at he
    have hpos : 0 < k ^ 2 * (x * y) / (X * Y) := by positivity
    rcases he with ⟨h1, h2⟩ | ⟨h1, h2⟩
    · exact .inl ⟨h1, (mul_pos_iff_of_pos_left hpos).mp h2⟩
    · refine .inr ⟨h1, ?_⟩
      by_contra hcon
      exact absurd h2 (not_lt.mpr (mul_nonneg hpos.le (not_lt.mp hcon)))
  · intro j θ
    obtain ⟨h1, h2⟩ := hw θ
    rw [← h1, ← h2]
    unfold relative
    have hk' := hk.ne'
    ext
    · dsimp only
      field_simp
      rw [hf11, hf12, hf21, hf22]
      linear_combination (-j * (x * (m.a * c + m.c * s) * cos θ + y * (-(m.a * s) + m.c * c) * sin θ)) * p2
    · dsimp only
      field_simp
      rw [hf11, hf12, hf21, hf22]
      linear_combination (-j * (x * (m.b * c + m.d * s) * cos θ + y * (-(m.b * s) + m.d * c) * sin θ)) * p2
  · intro p q
    rw [eq_div_iff hk.ne']
    have hk2 : k = √(k ^ 2) := (sqrt_sq hk.le).symm
    rw [hk2, ← sqrt_mul (by positivity)]
    clear hk2
    congr 1
    unfold M.apply
    obtain ⟨v1, hv1⟩ : ∃ f, f = (c * ((p.1 - q.1) / 2) + s * ((p.2 - q.2) / 2)) / x := ⟨_, rfl⟩
    obtain ⟨v2, hv2⟩ : ∃ f, f = (-s * ((p.1 - q.1) / 2) + c * ((p.2 - q.2) / 2)) / y := ⟨_, rfl⟩
    have d1 : (p.1 - q.1) / 2 = c * (x * v1) - s * (y * v2) := by
      rw [hv1, hv2, mul_div_cancel₀ _ x0.ne', mul_div_cancel₀ _ y0.ne']
      linear_combination (-(p.1 - q.1) / 2) * p1
    have d2 : (p.2 - q.2) / 2 = s * (x * v1) + c * (y * v2) := by
      rw [hv1, hv2, mul_div_cancel₀ _ x0.ne', mul_div_cancel₀ _ y0.ne']
      linear_combination (-(p.2 - q.2) / 2) * p1
    rw [← hv1, ← hv2]
    have e1 : (m.a * p.1 + m.c * p.2 + m.e - (m.a * q.1 + m.c * q.2 + m.e)) / 2 = f11 * v1 + f21 * v2 := by
      rw [hf11, hf21]; linear_combination m.a * d1 + m.c * d2
    have e2 : (m.b * p.1 + m.d * p.2 + m.f - (m.b * q.1 + m.d * q.2 + m.f)) / 2 = f12 * v1 + f22 * v2 := by
      rw [hf12, hf22]; linear_combination m.b * d1 + m.d * d2
    rw [e1, e2]
    have r1 : ((C * (f11 * v1 + f21 * v2) + S * (f12 * v1 + f22 * v2)) / X) * k =
        (k * (C * f11 + S * f12) / X) * v1 + (k * (C * f21 + S * f22) / X) * v2 := by field_simp; ring
    have r2 : ((-S * (f11 * v1 + f21 * v2) + C * (f12 * v1 + f22 * v2)) / Y) * k =
        (k * (-S * f11 + C * f12) / Y) * v1 + (k * (-S * f21 + C * f22) / Y) * v2 := by field_simp; ring
    rw [add_mul, ← mul_pow, ← mul_pow, r1, r2]
    obtain ⟨c1, s1⟩ := hw 0
    obtain ⟨c2, s2⟩ := hw (π / 2)
    simp only [cos_zero, sin_zero, mul_one, mul_zero, add_zero, zero_add, cos_pi_div_two, sin_pi_div_two] at c1 s1 c2 s2
    -- columns of an orthogonal map are orthonormal too
    rw [c1, s1, c2, s2]
    have q1 := cos_sq_add_sin_sq α
    have q2 := cos_sq_add_sin_sq (ε * (π / 2) + α)
    have q3 : cos α * cos (ε * (π / 2) + α) + sin α * sin (ε * (π / 2) + α) = 0 := by
      rw [← cos_sub]
      have : cos (ε * (π / 2)) = 0 := by
        rcases he with ⟨h1, _⟩ | ⟨h1, _⟩ <;> rw [h1] <;> simp
      rw [show α - (ε * (π / 2) + α) = -(ε * (π / 2)) by ring, cos_neg, this]
    linear_combination v1 ^ 2 * q1 + v2 ^ 2 * q2 + 2 * v1 * v2 * q3

end Verif.Apply
