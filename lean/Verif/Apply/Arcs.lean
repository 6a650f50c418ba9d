import Verif.Apply.Spec
import Verif.Apply.Geometry

/-!
# An arc command has exactly one curve
-/

namespace Verif.Apply

open Real Verif.Transform

/-- The ellipse for a vector in place of a point of the circle. -/
noncomputable def stretch (a : Arc) (k : ℝ) (v : Pt) : Pt :=
  (k * (cos (a.rot * π / 180) * (|a.rx| * v.1) - sin (a.rot * π / 180) * (|a.ry| * v.2)),
    k * (sin (a.rot * π / 180) * (|a.rx| * v.1) + cos (a.rot * π / 180) * (|a.ry| * v.2)))

theorem onEllipse_eq (a : Arc) (k θ : ℝ) : onEllipse a k θ = stretch a k (cos θ, sin θ) := rfl

theorem stretch_sub (a : Arc) (k : ℝ) (v w : Pt) : stretch a k v - stretch a k w = stretch a k (v - w) := by
  unfold stretch
  ext <;> simp <;> ring

/-- The vector that is stretched to half of the way from `p` to `q`. -/
noncomputable def half (a : Arc) (p q : Pt) : Pt :=
  ((cos (a.rot * π / 180) * ((q.1 - p.1) / 2) + sin (a.rot * π / 180) * ((q.2 - p.2) / 2)) / |a.rx|,
    (-sin (a.rot * π / 180) * ((q.1 - p.1) / 2) + cos (a.rot * π / 180) * ((q.2 - p.2) / 2)) / |a.ry|)

theorem reach_half (a : Arc) (p q : Pt) : reach a p q = √((half a p q).1 ^ 2 + (half a p q).2 ^ 2) := by
  unfold reach half
  dsimp only
  congr 1
  ring

theorem stretch_half (a : Arc) (hx : a.rx ≠ 0) (hy : a.ry ≠ 0) (k : ℝ) (hk : k ≠ 0) (p q : Pt) (v : Pt)
    (hv : v = (2 / k) • half a p q) : stretch a k v = q - p := by
  have p1 := cos_sq_add_sin_sq (a.rot * π / 180)
  have x0 : |a.rx| ≠ 0 := abs_ne_zero.mpr hx
  have y0 : |a.ry| ≠ 0 := abs_ne_zero.mpr hy
  subst hv
  unfold stretch half
  generalize cos (a.rot * π / 180) = c at *
  generalize sin (a.rot * π / 180) = s at *
  ext
  · simp only [Prod.smul_fst, Prod.smul_snd, smul_eq_mul, Prod.fst_sub]
    field_simp
    linear_combination (q.1 - p.1) * p1
  · simp only [Prod.smul_fst, Prod.smul_snd, smul_eq_mul, Prod.snd_sub]
    field_simp
    linear_combination (q.2 - p.2) * p1

theorem stretch_injective (a : Arc) (hx : a.rx ≠ 0) (hy : a.ry ≠ 0) (k : ℝ) (hk : k ≠ 0) (v w : Pt)
    (h : stretch a k v = stretch a k w) : v = w := by
  have p1 := cos_sq_add_sin_sq (a.rot * π / 180)
  have x0 : |a.rx| ≠ 0 := abs_ne_zero.mpr hx
  have y0 : |a.ry| ≠ 0 := abs_ne_zero.mpr hy
  unfold stretch at h
  rw [Prod.mk.injEq] at h
  obtain ⟨h1, h2⟩ := h
  have h1 := mul_left_cancel₀ hk h1
  have h2 := mul_left_cancel₀ hk h2
  generalize cos (a.rot * π / 180) = c at *
  generalize sin (a.rot * π / 180) = s at *
  ext
  · apply mul_left_cancel₀ x0
    linear_combination c * h1 + s * h2 + (|a.rx| * w.1 - |a.rx| * v.1) * p1
  · apply mul_left_cancel₀ y0
    linear_combination (-s) * h1 + c * h2 + (|a.ry| * w.2 - |a.ry| * v.2) * p1

/-- The chord of a circle. -/
theorem chord (θ δ : ℝ) : ((cos (θ + δ), sin (θ + δ)) : Pt) - (cos θ, sin θ) =
    (2 * sin (δ / 2) * -sin (θ + δ / 2), 2 * sin (δ / 2) * cos (θ + δ / 2)) := by
  have e1 : θ + δ = (θ + δ / 2) + δ / 2 := by ring
  have e2 : θ = (θ + δ / 2) - δ / 2 := by ring
  generalize hβ : θ + δ / 2 = β at *
  ext
  · simp only [Prod.fst_sub]
    rw [e1, e2, cos_add, cos_sub]; ring
  · simp only [Prod.snd_sub]
    rw [e1, e2, sin_add, sin_sub]; ring

theorem angle_exists' {x y : ℝ} (h : x ^ 2 + y ^ 2 = 1) : ∃ β, -sin β = x ∧ cos β = y := by
  obtain ⟨α, h1, h2⟩ := angle_exists (x := y) (y := -x) (by linarith [neg_sq x])
  exact ⟨α, by rw [h2]; ring, h1⟩

/-- Every arc command has a curve. -/
theorem arc_exists (p : Pt) (a : Arc) (q : Pt) : ∃ γ, IsArc p a q γ := by
  unfold IsArc
  split
  · exact ⟨fun _ => p, fun _ => rfl⟩
  next hpq =>
  split
  · exact ⟨segment p q, fun _ => rfl⟩
  next hr =>
  rw [not_or] at hr
  obtain ⟨hx, hy⟩ := hr
  have hk : 0 < max 1 (reach a p q) := lt_of_lt_of_le one_pos (le_max_left _ _)
  generalize hkk : max 1 (reach a p q) = k at *
  have hle : reach a p q / k ≤ 1 := by
    rw [div_le_one hk, ← hkk]; exact le_max_right _ _
  have hv0 : half a p q ≠ 0 := by
    intro h0
    have := stretch_half a hx hy k hk.ne' p q _ rfl
    rw [h0, smul_zero] at this
    apply hpq
    have h2 : stretch a k 0 = 0 := by unfold stretch; ext <;> simp
    rw [h2] at this
    exact (sub_eq_zero.mp this.symm).symm
  have hsum : 0 < (half a p q).1 ^ 2 + (half a p q).2 ^ 2 := by
    by_contra hcon
    apply hv0
    have h1 := sq_nonneg (half a p q).1
    have h2 := sq_nonneg (half a p q).2
    ext
    · exact pow_eq_zero_iff (two_ne_zero) |>.mp (by linarith : (half a p q).1 ^ 2 = 0)
    · exact pow_eq_zero_iff (two_ne_zero) |>.mp (by linarith : (half a p q).2 ^ 2 = 0)
  have hrp : 0 < reach a p q := by rw [reach_half]; exact sqrt_pos.mpr hsum
  have hrs : (reach a p q) ^ 2 = (half a p q).1 ^ 2 + (half a p q).2 ^ 2 := by
    rw [reach_half]; exact sq_sqrt hsum.le
  obtain ⟨r, hr⟩ : ∃ r, r = reach a p q / k := ⟨_, rfl⟩
  have hr0 : 0 < r := by rw [hr]; positivity
  have hr1 : r ≤ 1 := by rw [hr]; exact hle
  have hpi := pi_pos
  have a1 : 0 < arcsin r := arcsin_pos.mpr hr0
  have a2 : arcsin r ≤ π / 2 := arcsin_le_pi_div_two r
  have a3 : sin (arcsin r) = r := sin_arcsin (by linarith) hr1
  -- the angle covered, without its sign
  obtain ⟨d, hd0, hd1, hd2, hd3⟩ : ∃ d, 0 < d ∧ d < 2 * π ∧ sin (d / 2) = r ∧ (if a.large then π ≤ d else d ≤ π) := by
    by_cases hl : a.large = true
    · refine ⟨2 * π - 2 * arcsin r, by linarith, by linarith, ?_, ?_⟩
      · rw [show (2 * π - 2 * arcsin r) / 2 = π - arcsin r by ring, sin_pi_sub, a3]
      · rw [if_pos hl]; linarith
    · refine ⟨2 * arcsin r, by linarith, by linarith, ?_, ?_⟩
      · rw [mul_div_cancel_left₀ _ two_ne_zero, a3]
      · rw [if_neg hl]; linarith
  obtain ⟨e, he⟩ : ∃ e : ℝ, (e = 1 ∧ a.sweep = true) ∨ (e = -1 ∧ a.sweep = false) := by
    cases a.sweep
    · exact ⟨-1, .inr ⟨rfl, rfl⟩⟩
    · exact ⟨1, .inl ⟨rfl, rfl⟩⟩
  have hee : e * e = 1 := by rcases he with ⟨h, _⟩ | ⟨h, _⟩ <;> rw [h] <;> norm_num
  have hs : sin (e * d / 2) = e * r := by
    rcases he with ⟨h, _⟩ | ⟨h, _⟩
    · rw [h, one_mul, one_mul, hd2]
    · rw [h, neg_one_mul, neg_one_mul, neg_div, sin_neg, hd2]
  obtain ⟨β, hb1, hb2⟩ := angle_exists' (x := e * (half a p q).1 / (r * k)) (y := e * (half a p q).2 / (r * k)) (by
    rw [hr, div_mul_cancel₀ _ hk.ne', div_pow, div_pow, ← add_div, mul_pow, mul_pow, hrs]
    rw [show e ^ 2 = 1 by rw [sq]; exact hee, one_mul, one_mul, div_self hsum.ne'])
  obtain ⟨c, hc⟩ : ∃ c, c = p - onEllipse a k (β - e * d / 2) := ⟨_, rfl⟩
  refine ⟨fun t => c + onEllipse a k (β - e * d / 2 + t * (e * d)), c, β - e * d / 2, e * d, fun t => rfl, ?_, ?_, ?_, ?_, ?_⟩
  · dsimp only
    rw [hc, zero_mul, add_zero, sub_add_cancel]
  · dsimp only
    rw [one_mul, hc, sub_add, sub_eq_iff_eq_add, ← sub_eq_iff_eq_add', eq_comm]
    rw [onEllipse_eq, onEllipse_eq, ← neg_sub, stretch_sub, chord, sub_add_cancel, hs]
    rw [show p - q = -(q - p) by rw [neg_sub]]
    congr 1
    apply stretch_half a hx hy k hk.ne'
    rw [hb1, hb2]
    have hrn := hr0.ne'
    have hkn := hk.ne'
    ext
    · simp only [Prod.smul_fst, smul_eq_mul]
      field_simp
      linear_combination ((half a p q).1) * hee
    · simp only [Prod.smul_snd, smul_eq_mul]
      field_simp
      linear_combination ((half a p q).2) * hee
  · rcases he with ⟨h, h'⟩ | ⟨h, h'⟩
    · rw [h, h']; simp [hd0]
    · rw [h, h']; simp; linarith
  · rw [abs_mul, abs_of_pos hd0]
    rcases he with ⟨h, h'⟩ | ⟨h, h'⟩ <;> rw [h] <;> simp <;> linarith
  · have : |e * d| = d := by
      rw [abs_mul, abs_of_pos hd0]
      rcases he with ⟨h, h'⟩ | ⟨h, h'⟩ <;> rw [h] <;> simp
    rw [this]; exact hd3

/-- An arc command has at most one curve. -/
theorem arc_unique (p : Pt) (a : Arc) (q : Pt) (γ γ' : ℝ → Pt) (h : IsArc p a q γ) (h' : IsArc p a q γ') : γ = γ' := by
  unfold IsArc at h h'
  split at h
  · next he => rw [if_pos he] at h'; funext t; rw [h, h']
  next hpq =>
  rw [if_neg hpq] at h'
  split at h
  · next he => rw [if_pos he] at h'; funext t; rw [h, h']
  next hr =>
  rw [if_neg hr] at h'
  rw [not_or] at hr
  obtain ⟨hx, hy⟩ := hr
  have hk : 0 < max 1 (reach a p q) := lt_of_lt_of_le one_pos (le_max_left _ _)
  generalize max 1 (reach a p q) = k at *
  obtain ⟨c, θ, δ, h1, h2, h3, h4, h5, h6⟩ := h
  obtain ⟨c', θ', δ', h1', h2', h3', h4', h5', h6'⟩ := h'
  have hpi := pi_pos
  rw [h1, zero_mul, add_zero] at h2
  rw [h1, one_mul] at h3
  rw [h1', zero_mul, add_zero] at h2'
  rw [h1', one_mul] at h3'
  have e : stretch a k ((cos (θ + δ), sin (θ + δ)) - (cos θ, sin θ)) =
      stretch a k ((cos (θ' + δ'), sin (θ' + δ')) - (cos θ', sin θ')) := by
    rw [← stretch_sub, ← stretch_sub, ← onEllipse_eq, ← onEllipse_eq, ← onEllipse_eq, ← onEllipse_eq]
    have e1 : onEllipse a k (θ + δ) = q - c := by rw [← h3]; simp
    have e2 : onEllipse a k θ = p - c := by rw [← h2]; simp
    have e3 : onEllipse a k (θ' + δ') = q - c' := by rw [← h3']; simp
    have e4 : onEllipse a k θ' = p - c' := by rw [← h2']; simp
    rw [e1, e2, e3, e4]; simp
  have e := stretch_injective a hx hy k hk.ne' _ _ e
  rw [chord, chord, Prod.mk.injEq] at e
  obtain ⟨e1, e2⟩ := e
  have d0 : δ ≠ 0 := by
    intro h; subst h; apply hpq; rw [← h2, ← h3, add_zero]
  have d0' : δ' ≠ 0 := by
    intro h; subst h; apply hpq; rw [← h2', ← h3', add_zero]
  have sgn : δ = |δ| ∧ δ' = |δ'| ∨ δ = -|δ| ∧ δ' = -|δ'| := by
    cases hs : a.sweep with
    | true => rw [hs] at h4 h4'; left; rw [abs_of_pos (h4.mpr rfl), abs_of_pos (h4'.mpr rfl)]; exact ⟨rfl, rfl⟩
    | false =>
      rw [hs] at h4 h4'
      right
      have n1 : δ ≤ 0 := not_lt.mp fun h => by simpa using h4.mp h
      have n2 : δ' ≤ 0 := not_lt.mp fun h => by simpa using h4'.mp h
      rw [abs_of_nonpos n1, abs_of_nonpos n2]; constructor <;> ring
  have q1 := abs_pos.mpr d0
  have q2 := abs_pos.mpr d0'
  have s1 : 0 < sin (|δ| / 2) := sin_pos_of_pos_of_lt_pi (by linarith) (by linarith)
  have s2 : 0 < sin (|δ'| / 2) := sin_pos_of_pos_of_lt_pi (by linarith) (by linarith)
  have sq1 : sin (δ / 2) ^ 2 = sin (|δ| / 2) ^ 2 := by
    rcases sgn with ⟨h, _⟩ | ⟨h, _⟩
    · rw [← h]
    · rw [show δ / 2 = -(|δ| / 2) by linarith, sin_neg, neg_sq]
  have sq2 : sin (δ' / 2) ^ 2 = sin (|δ'| / 2) ^ 2 := by
    rcases sgn with ⟨_, h⟩ | ⟨_, h⟩
    · rw [← h]
    · rw [show δ' / 2 = -(|δ'| / 2) by linarith, sin_neg, neg_sq]
  have sqs : sin (δ / 2) ^ 2 = sin (δ' / 2) ^ 2 := by
    have t1 := cos_sq_add_sin_sq (θ + δ / 2)
    have t2 := cos_sq_add_sin_sq (θ' + δ' / 2)
    have m1 := congrArg (· ^ 2) e1
    have m2 := congrArg (· ^ 2) e2
    linear_combination (m1 + m2) / 4 - sin (δ / 2) ^ 2 * t1 + sin (δ' / 2) ^ 2 * t2
  have ss : sin (|δ| / 2) = sin (|δ'| / 2) := by
    rw [sq1, sq2] at sqs
    exact (pow_left_inj₀ s1.le s2.le two_ne_zero).mp sqs
  have abs_eq : |δ| = |δ'| := by
    by_cases hl : a.large = true
    · rw [if_pos hl] at h6 h6'
      rw [← sin_pi_sub, ← sin_pi_sub (|δ'| / 2)] at ss
      have := injOn_sin (show π - |δ| / 2 ∈ Set.Icc (-(π / 2)) (π / 2) by constructor <;> linarith)
        (show π - |δ'| / 2 ∈ Set.Icc (-(π / 2)) (π / 2) by constructor <;> linarith) ss
      linarith
    · rw [if_neg hl] at h6 h6'
      have := injOn_sin (show |δ| / 2 ∈ Set.Icc (-(π / 2)) (π / 2) by constructor <;> linarith)
        (show |δ'| / 2 ∈ Set.Icc (-(π / 2)) (π / 2) by constructor <;> linarith) ss
      linarith
  have hδ : δ = δ' := by
    rcases sgn with ⟨g1, g2⟩ | ⟨g1, g2⟩ <;> rw [g1, g2, abs_eq]
  subst hδ
  have hsn : 2 * sin (δ / 2) ≠ 0 := by
    intro h
    have : sin (δ / 2) = 0 := by linarith
    rw [this] at sq1
    nlinarith
  have e1 := neg_injective (mul_left_cancel₀ hsn e1)
  have e2 := mul_left_cancel₀ hsn e2
  have hc : ∀ x, cos (θ + x) = cos (θ' + x) ∧ sin (θ + x) = sin (θ' + x) := by
    intro x
    rw [show θ + x = (θ + δ / 2) + (x - δ / 2) by ring, show θ' + x = (θ' + δ / 2) + (x - δ / 2) by ring, cos_add (θ + δ / 2),
      cos_add (θ' + δ / 2), sin_add (θ + δ / 2), sin_add (θ' + δ / 2), e1, e2]
    exact ⟨rfl, rfl⟩
  have hell : ∀ x, onEllipse a k (θ + x) = onEllipse a k (θ' + x) := by
    intro x; rw [onEllipse_eq, onEllipse_eq, (hc x).1, (hc x).2]
  have hcc : c = c' := by
    have := hell 0
    rw [add_zero, add_zero] at this
    rw [← this] at h2'
    exact add_right_cancel (h2.trans h2'.symm)
  funext t
  rw [h1, h1', hell, hcc]

end Verif.Apply
