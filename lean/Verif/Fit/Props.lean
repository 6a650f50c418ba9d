import Verif.Fit.Lemmas

/-!
# Theorems: curves recognised as arcs
-/

namespace Verif.Fit

open Real Verif.Gjk Verif.ArcTo

variable {e : Env} {s : Pt ℝ} {c : Curve} {a : ArcR}

/-- **C76 (the circle).** The arc is one of a circle through both ends and the middle of the curve; the points at a quarter and at three quarters are
near the circle. -/
theorem fit_circle (he : e.Sound) (hs : s ≠ c.p) (h : fit e s c = some a) :
    a.rot = 0 ∧ a.rx = a.ry ∧ 0 < a.rx ∧ a.rx < 10 ^ 15 ∧ far a.center s = a.rx ∧ far a.center (bezier s c (1 / 2)) = a.rx ∧ far a.center c.p = a.rx ∧
      |far a.center (bezier s c (1 / 4)) - a.rx| ≤ e.tol * a.rx ∧ |far a.center (bezier s c (3 / 4)) - a.rx| ≤ e.tol * a.rx := by
  obtain ⟨o, r, rfl, h1, h2, h3, h4, h5, -, h6⟩ := fit_parts he hs h
  exact ⟨rfl, rfl, h1, h5, h2, h3, h4, h6 _ (by simp), h6 _ (by simp)⟩

theorem pointAt_eq {o : Pt ℝ} {r w0 w t : ℝ} : ArcTo.pointAt ⟨o, r, r, 0, w0, w⟩ t = o + (r * cos (w0 + w * t), r * sin (w0 + w * t)) := by
  rw [ArcTo.pointAt, rotate_zero]

/-- **C76 (the ends).** The arc runs from the start of the curve to its end, and is at most half of the circle. -/
theorem fit_ends (he : e.Sound) (hs : s ≠ c.p) (h : fit e s c = some a) :
    ArcTo.pointAt a 0 = s ∧ ArcTo.pointAt a 1 = c.p ∧ |a.sweep| ≤ π ∧ a.sweep ≠ 0 := by
  obtain ⟨o, r, rfl, h1, h2, -, h4, -⟩ := fit_parts he hs h
  have a0 := angle_on h1 h2
  have a1 := angle_on h1 h4
  obtain ⟨b1, b2⟩ := angle_bounds (((s.1 - o.1) / r, (s.2 - o.2) / r) : Pt ℝ)
  obtain ⟨b3, b4⟩ := angle_bounds (((c.p.1 - o.1) / r, (c.p.2 - o.2) / r) : Pt ℝ)
  generalize angle (((s.1 - o.1) / r, (s.2 - o.2) / r) : Pt ℝ) = w0 at *
  generalize angle (((c.p.1 - o.1) / r, (c.p.2 - o.2) / r) : Pt ℝ) = w1 at *
  obtain ⟨s1, s2, s3⟩ := shorter_spec (w := w1 - w0) (abs_lt.mpr ⟨by linarith, by linarith⟩)
  have e0 : ArcTo.pointAt ⟨o, r, r, 0, w0, shorter (w1 - w0)⟩ 0 = s := by rw [pointAt_eq, mul_zero, add_zero, a0]
  have e1 : ArcTo.pointAt ⟨o, r, r, 0, w0, shorter (w1 - w0)⟩ 1 = c.p := by
    rw [pointAt_eq, mul_one, s2, s3, add_sub_cancel, a1]
  refine ⟨e0, e1, s1, fun h0 => hs ?_⟩
  simp only at h0
  rw [← e0, ← e1, pointAt_eq, pointAt_eq, h0, zero_mul, zero_mul]

theorem on_eq {o : Pt ℝ} {r w0 w : ℝ} (x : Pt ℝ) : ArcR.On ⟨o, r, r, 0, w0, w⟩ x ↔ ∃ u, 0 ≤ u ∧ u ≤ 1 ∧ x = o + (r * cos (w0 + w * u), r * sin (w0 + w * u)) := by
  simp only [ArcR.On, cos_zero, sin_zero, Prod.ext_iff, Prod.fst_add, Prod.snd_add]
  refine exists_congr fun u => and_congr_right fun _ => and_congr_right fun _ => ?_
  rw [mul_comm w u, one_mul, one_mul, zero_mul, zero_mul, sub_zero, zero_add, add_comm o.1, add_comm o.2]

theorem sight_eq (o : Pt ℝ) (r w0 w x : ℝ) :
    sight (o + (r * cos w0, r * sin w0)) (o + (r * cos (w0 + w), r * sin (w0 + w))) (o + (r * cos (w0 + w / 2 + x), r * sin (w0 + w / 2 + x))) =
      2 * r ^ 2 * cos (w / 2) * (cos (w / 2) - cos x) := by
  have e1 : w0 + w = w0 + w / 2 + w / 2 := by ring
  have e2 : cos w0 = cos (w0 + w / 2 - w / 2) := by ring_nf
  have e3 : sin w0 = sin (w0 + w / 2 - w / 2) := by ring_nf
  simp only [sight, Prod.fst_add, Prod.snd_add]
  rw [e2, e3, e1]
  generalize w0 + w / 2 = y
  rw [cos_add, sin_add, cos_sub, sin_sub, cos_add, sin_add]
  have h1 := sin_sq_add_cos_sq y
  have h2 := sin_sq_add_cos_sq x
  have h3 := sin_sq_add_cos_sq (w / 2)
  generalize sin y = sy at *
  generalize cos y = cy at *
  generalize sin x = sx at *
  generalize cos x = cx at *
  generalize sin (w / 2) = sw at *
  generalize cos (w / 2) = cw at *
  linear_combination r ^ 2 * ((cw - cx) ^ 2 - sw ^ 2 + sx ^ 2) * h1 + r ^ 2 * h2 - r ^ 2 * h3

/-- From the points of the arc the chord is seen in an obtuse or right angle. -/
theorem arc_sees {o : Pt ℝ} {r w0 w : ℝ} (hw : |w| ≤ π) {x : Pt ℝ} (h : ArcR.On ⟨o, r, r, 0, w0, w⟩ x) :
    sight (ArcTo.pointAt ⟨o, r, r, 0, w0, w⟩ 0) (ArcTo.pointAt ⟨o, r, r, 0, w0, w⟩ 1) x ≤ 0 := by
  obtain ⟨u, u0, u1, rfl⟩ := (on_eq x).mp h
  rw [pointAt_eq, pointAt_eq, mul_zero, add_zero, mul_one]
  have := sight_eq o r w0 w ((u - 1 / 2) * w)
  rw [show w0 + w / 2 + (u - 1 / 2) * w = w0 + w * u by ring] at this
  rw [this]
  have hc : 0 ≤ cos (w / 2) := by
    obtain ⟨h1, h2⟩ := abs_le.mp hw
    exact cos_nonneg_of_neg_pi_div_two_le_of_le (by linarith) (by linarith)
  have h2 : cos (w / 2) ≤ cos ((u - 1 / 2) * w) := by
    rw [← cos_abs (w / 2), ← cos_abs ((u - 1 / 2) * w)]
    refine cos_le_cos_of_nonneg_of_le_pi (abs_nonneg _) ?_ ?_
    · rw [abs_div, abs_of_pos (by norm_num : (0 : ℝ) < 2)]; linarith [pi_pos]
    · rw [abs_mul, abs_div, abs_of_pos (by norm_num : (0 : ℝ) < 2)]
      have : |u - 1 / 2| ≤ 1 / 2 := abs_le.mpr ⟨by linarith, by linarith⟩
      nlinarith [abs_nonneg w]
  have : 0 ≤ 2 * r ^ 2 * cos (w / 2) := by positivity
  nlinarith

/-- A point of the circle from which the chord is seen in an obtuse angle is on the arc. -/
theorem arc_seen {o : Pt ℝ} {r w0 w : ℝ} (hr : 0 < r) (hw : |w| ≤ π) {x : Pt ℝ} (hx : far o x = r)
    (h : sight (ArcTo.pointAt ⟨o, r, r, 0, w0, w⟩ 0) (ArcTo.pointAt ⟨o, r, r, 0, w0, w⟩ 1) x < 0) : ArcR.On ⟨o, r, r, 0, w0, w⟩ x := by
  -- the direction of the point, measured from the middle of the arc
  have hx0 := angle_on hr hx
  generalize angle (((x.1 - o.1) / r, (x.2 - o.2) / r) : Pt ℝ) = f at hx0
  set y : Pt ℝ := (cos (f - (w0 + w / 2)), sin (f - (w0 + w / 2))) with hy
  have hy1 : y.1 ^ 2 + y.2 ^ 2 = 1 := by rw [hy]; simp only; rw [add_comm]; exact sin_sq_add_cos_sq _
  have c1 := cos_angle hy1
  have s1 := sin_angle hy1
  obtain ⟨b1, b2⟩ := angle_bounds y
  generalize angle y = g at *
  have e1 : cos (w0 + w / 2 + g) = cos f := by
    rw [cos_add, c1, s1, ← cos_add, add_sub_cancel]
  have e2 : sin (w0 + w / 2 + g) = sin f := by
    rw [sin_add, c1, s1, ← sin_add, add_sub_cancel]
  have hx1 : o + (r * cos (w0 + w / 2 + g), r * sin (w0 + w / 2 + g)) = x := by rw [e1, e2, hx0]
  rw [← hx1, pointAt_eq, pointAt_eq, mul_zero, add_zero, mul_one, sight_eq] at h
  have hc : 0 ≤ cos (w / 2) := by
    obtain ⟨h1, h2⟩ := abs_le.mp hw
    exact cos_nonneg_of_neg_pi_div_two_le_of_le (by linarith) (by linarith)
  have hlt : cos (w / 2) < cos g := by
    by_contra hn
    rw [not_lt] at hn
    have : 0 ≤ 2 * r ^ 2 * cos (w / 2) * (cos (w / 2) - cos g) := mul_nonneg (by positivity) (by linarith)
    linarith
  have habs : |g| < |w| / 2 := by
    by_contra hn
    rw [not_lt] at hn
    have : cos |g| ≤ cos (|w| / 2) := cos_le_cos_of_nonneg_of_le_pi (by positivity) (abs_le.mpr ⟨by linarith, b2⟩) hn
    rw [cos_abs, show |w| / 2 = |w / 2| by rw [abs_div, abs_of_pos (by norm_num : (0 : ℝ) < 2)], cos_abs] at this
    linarith
  have hw0 : w ≠ 0 := fun h0 => by rw [h0] at habs; simp at habs; linarith [abs_nonneg g]
  rw [on_eq]
  have hq : |g / w| ≤ 1 / 2 := by
    rw [abs_div, div_le_iff₀ (abs_pos.mpr hw0)]; linarith
  obtain ⟨q1, q2⟩ := abs_le.mp hq
  refine ⟨1 / 2 + g / w, by linarith, by linarith, ?_⟩
  rw [← hx1, show w0 + w * (1 / 2 + g / w) = w0 + w / 2 + g by field_simp; ring]

/-- **C76 (the way around).** Of the two arcs of the circle between the ends, the one is taken from whose points the chord is seen in an obtuse or right
angle: the shorter one. -/
theorem fit_shorter (he : e.Sound) (hs : s ≠ c.p) (h : fit e s c = some a) (x : Pt ℝ) :
    (a.On x → far a.center x = a.rx ∧ sight s c.p x ≤ 0) ∧ (far a.center x = a.rx → sight s c.p x < 0 → a.On x) := by
  obtain ⟨p0, p1, hw, -⟩ := fit_ends he hs h
  obtain ⟨o, r, rfl, h1, -⟩ := fit_parts he hs h
  refine ⟨fun hx => ⟨?_, ?_⟩, fun hx hn => ?_⟩
  · obtain ⟨u, -, -, rfl⟩ := (on_eq x).mp hx
    simp only [far, Prod.fst_add, Prod.snd_add]
    generalize angle _ + _ * u = z
    rw [show ∀ y : ℝ, (o.1 - (o.1 + r * cos y)) ^ 2 + (o.2 - (o.2 + r * sin y)) ^ 2 = r ^ 2 * (sin y ^ 2 + cos y ^ 2) from fun y => by ring,
      sin_sq_add_cos_sq, mul_one, sqrt_sq h1.le]
  · have := arc_sees hw hx
    rwa [p0, p1] at this
  · apply arc_seen h1 hw hx
    rw [p0, p1]
    exact hn

/-- **C76 (the way around, partial).** The middle of the curve is on the arc if the chord is seen in an obtuse angle from it, and it is not if the
angle is acute. -/
theorem fit_middle_partial (he : e.Sound) (hs : s ≠ c.p) (h : fit e s c = some a) :
    (sight s c.p (bezier s c (1 / 2)) < 0 → a.On (bezier s c (1 / 2))) ∧ (0 < sight s c.p (bezier s c (1 / 2)) → ¬ a.On (bezier s c (1 / 2))) := by
  obtain ⟨h1, h2⟩ := fit_shorter he hs h (bezier s c (1 / 2))
  exact ⟨h2 (fit_circle he hs h).2.2.2.2.2.1, fun hp hn => absurd (h1 hn).2 (not_le.mpr hp)⟩

/-- **C76 (nothing else of the curve counts).** Two curves with the same ends, for which the same circle is found, become the same arc. -/
theorem fit_same (he : e.Sound) {d : Curve} {b : ArcR} (hs : s ≠ c.p) (hp : d.p = c.p) (h : fit e s c = some a) (h' : fit e s d = some b)
    (hc : a.center = b.center) : a = b := by
  obtain ⟨o, r, rfl, -, h2, -⟩ := fit_parts he hs h
  obtain ⟨o', r', rfl, -, h2', -⟩ := fit_parts he (by rw [hp]; exact hs) h'
  simp only at hc
  subst hc
  have : r = r' := h2.symm.trans h2'
  subst this
  rw [hp]

end Verif.Fit
