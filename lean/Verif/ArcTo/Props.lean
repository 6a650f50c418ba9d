import Verif.ArcTo.Lemmas

/-! # C63: arc commands -/

namespace Verif.ArcTo

open Real Verif.Gjk

theorem half_congr {a b : ℝ} (hc : cos a = cos b) (hs : sin a = sin b) (p q : Pt ℝ) : half a p q = half b p q := by
  simp only [half, hc, hs]

/-- Which of the arcs is the large one. -/
theorem largeness {large sweep : Bool} {w c N : ℝ} (hN : 0 < N) (sw : sin w = 2 * c * N) (w1 : |w| < 2 * π) (w2 : sweep = true → 0 < w)
    (w3 : sweep = false → w < 0) (cpos : large ≠ sweep → 0 ≤ c) (cneg : large = sweep → c ≤ 0) :
    (large = true → π ≤ |w|) ∧ (large = false → |w| ≤ π) := by
  have hp : 0 ≤ c → ¬ sin w < 0 := fun h => by rw [sw, not_lt]; positivity
  have hn : c ≤ 0 → ¬ 0 < sin w := fun h => by
    rw [sw, not_lt]; exact mul_nonpos_of_nonpos_of_nonneg (by linarith) (le_of_lt hN)
  refine ⟨fun hl => ?_, fun hl => ?_⟩ <;> by_contra h4 <;> rw [not_le] at h4 <;> cases h3 : sweep
  · have n := w3 h3
    rw [abs_of_neg n] at h4
    exact hp (cpos (by rw [hl, h3]; decide)) (sin_neg_of_neg_of_neg_pi_lt n (by linarith))
  · have n := w2 h3
    rw [abs_of_pos n] at h4
    exact hn (cneg (by rw [hl, h3])) (sin_pos_of_pos_of_lt_pi n h4)
  · have n := w3 h3
    rw [abs_of_neg n] at w1 h4
    refine hn (cneg (by rw [hl, h3])) ?_
    rw [← sin_add_two_pi]
    exact sin_pos_of_pos_of_lt_pi (by linarith) (by linarith)
  · have n := w2 h3
    rw [abs_of_pos n] at w1 h4
    refine hp (cpos (by rw [hl, h3]; decide)) ?_
    rw [← sin_sub_two_pi]
    exact sin_neg_of_neg_of_neg_pi_lt (by linarith) (by linarith)

set_option maxHeartbeats 1000000 in
/-- `centred`, with radii that are large enough. -/
theorem centred_spec {a : Args} {rx ry xr rot : ℝ} {p q : Pt ℝ} (hx : 0 < rx) (hy : 0 < ry) (hc : cos xr = cos rot) (hs : sin xr = sin rot) (hpq : p ≠ q)
    (hf : factor rx ry (half xr p q) ≤ 1) :
    let b := centred a rx ry xr rot (half xr p q) p q
    b.rot = rot ∧ b.rx = rx ∧ b.ry = ry ∧ pointAt b 0 = p ∧ pointAt b 1 = q ∧ |b.sweep| < 2 * π ∧ (a.sweep = true → 0 < b.sweep) ∧
      (a.sweep = false → b.sweep < 0) ∧ (a.large = true → π ≤ |b.sweep|) ∧ (a.large = false → |b.sweep| ≤ π) := by
  have h0 := half_zero (rot := xr) hpq
  have hN := factor_pos hx hy h0
  obtain ⟨k1, k2⟩ := half_back xr p q
  generalize half xr p q = h at *
  obtain ⟨X, hX⟩ : ∃ X, X = h.1 / rx := ⟨_, rfl⟩
  obtain ⟨Y, hY⟩ : ∃ Y, Y = h.2 / ry := ⟨_, rfl⟩
  have eX : h.1 = rx * X := by rw [hX]; field_simp
  have eY : h.2 = ry * Y := by rw [hY]; field_simp
  obtain ⟨N, eN⟩ : ∃ N, N = X ^ 2 + Y ^ 2 := ⟨_, rfl⟩
  have fN : factor rx ry h = N := by rw [factor, eN, eX, eY]; field_simp
  rw [fN] at hN hf
  have hsum : rx * h.2 * (rx * h.2) + ry * h.1 * (ry * h.1) = (rx * ry) ^ 2 * N := by rw [eN, eX, eY]; ring
  have hcoe : |(rx * ry * (rx * ry) - (rx * h.2 * (rx * h.2) + ry * h.1 * (ry * h.1))) / (rx * h.2 * (rx * h.2) + ry * h.1 * (ry * h.1))| = (1 - N) / N := by
    rw [hsum, show (rx * ry * (rx * ry) - (rx * ry) ^ 2 * N) / ((rx * ry) ^ 2 * N) = (1 - N) / N by field_simp]
    exact abs_of_nonneg (div_nonneg (by linarith) (le_of_lt hN))
  obtain ⟨sign, esign⟩ : ∃ sign : ℝ, sign = if a.large = a.sweep then -1 else 1 := ⟨_, rfl⟩
  obtain ⟨c, ec⟩ : ∃ c, c = sign * √((1 - N) / N) := ⟨_, rfl⟩
  have c2 : c ^ 2 * N = 1 - N := by
    have : sign ^ 2 = 1 := by rw [esign]; split <;> norm_num
    rw [ec, mul_pow, this, sq_sqrt (div_nonneg (by linarith) (le_of_lt hN))]
    field_simp
  have cpos : a.large ≠ a.sweep → 0 ≤ c := fun e => by
    rw [ec, esign, if_neg e, one_mul]; exact sqrt_nonneg _
  have cneg : a.large = a.sweep → c ≤ 0 := fun e => by
    rw [ec, esign, if_pos e]; linarith [sqrt_nonneg ((1 - N) / N)]
  have ecx : c * (rx * h.2) / ry = rx * (c * Y) := by rw [eY]; field_simp
  have ecy : -c * (ry * h.1) / rx = -(ry * (c * X)) := by rw [eX]; field_simp
  intro b
  have e1 : (h.1 - rx * (c * Y)) / rx = X - c * Y := by rw [eX]; field_simp
  have e2 : (h.2 - -(ry * (c * X))) / ry = Y + c * X := by rw [eY]; field_simp; ring
  have e3 : (-h.1 - rx * (c * Y)) / rx = -X - c * Y := by rw [eX]; field_simp
  have e4 : (-h.2 - -(ry * (c * X))) / ry = -Y + c * X := by rw [eY]; field_simp; ring
  have us : (X - c * Y) ^ 2 + (Y + c * X) ^ 2 = 1 := by linear_combination c2 - (1 + c ^ 2) * eN
  have ue : (-X - c * Y) ^ 2 + (-Y + c * X) ^ 2 = 1 := by linear_combination c2 - (1 + c ^ 2) * eN
  obtain ⟨s, es⟩ : ∃ s, s = angle (X - c * Y, Y + c * X) := ⟨_, rfl⟩
  obtain ⟨e, ee⟩ : ∃ e, e = angle (-X - c * Y, -Y + c * X) := ⟨_, rfl⟩
  have cs : cos s = X - c * Y := by rw [es]; exact cos_angle (p := (X - c * Y, Y + c * X)) us
  have ss : sin s = Y + c * X := by rw [es]; exact sin_angle (p := (X - c * Y, Y + c * X)) us
  have ce : cos e = -X - c * Y := by rw [ee]; exact cos_angle (p := (-X - c * Y, -Y + c * X)) ue
  have se : sin e = -Y + c * X := by rw [ee]; exact sin_angle (p := (-X - c * Y, -Y + c * X)) ue
  have hsb := angle_bounds (X - c * Y, Y + c * X)
  have heb := angle_bounds (-X - c * Y, -Y + c * X)
  rw [← es] at hsb
  rw [← ee] at heb
  have hr : |e - s| < 2 * π := abs_lt.mpr ⟨by linarith [hsb.2, heb.1], by linarith [hsb.1, heb.2]⟩
  have hne : e - s ≠ 0 := by
    intro h1
    have h2 : e = s := by linarith
    rw [h2] at ce se
    have x0 : X = 0 := by linarith [cs, ce]
    have y0 : Y = 0 := by linarith [ss, se]
    rw [eN, x0, y0] at hN
    norm_num at hN
  obtain ⟨w, ew⟩ : ∃ w, w = if a.sweep = true ∧ e - s < 0 then e - s + 2 * π else if ¬a.sweep = true ∧ 0 < e - s then e - s - 2 * π else e - s := ⟨_, rfl⟩
  obtain ⟨w1, w2, w3, w4, w5⟩ := turned (s := a.sweep) hr hne
  simp only [← ew] at w1 w2 w3 w4 w5
  have hb : b = ⟨(cos xr * (rx * (c * Y)) - sin xr * (-(ry * (c * X))) + (p.1 + q.1) / 2, sin xr * (rx * (c * Y)) + cos xr * (-(ry * (c * X))) + (p.2 + q.2) / 2),
      rx, ry, rot, s, w⟩ := by
    simp only [b, centred, hcoe, ← esign, ← ec, ecx, ecy, e1, e2, e3, e4, ← es, ← ee, rem_small hr, ← ew]
  have sw : sin w = 2 * c * N := by
    have := w5 0
    simp only [zero_add] at this
    rw [this, sin_sub, se, ce, ss, cs, eN]; ring
  rw [hb]
  rw [eX, eY, hc, hs] at k1 k2
  refine ⟨rfl, rfl, rfl, ?_, ?_, w1, w2, w3, fun hl => ?_, fun hl => ?_⟩
  · refine Prod.ext ?_ ?_
    · simp only [pointAt, rotate, mul_zero, add_zero, cs, ss, Prod.fst_add, hc, hs]
      linear_combination k1
    · simp only [pointAt, rotate, mul_zero, add_zero, cs, ss, Prod.snd_add, hc, hs]
      linear_combination k2
  · have w4 := w4 s
    have w5 := w5 s
    rw [show s + (e - s) = e by ring, ce] at w4
    rw [show s + (e - s) = e by ring, se] at w5
    refine Prod.ext ?_ ?_
    · simp only [pointAt, rotate, mul_one, w4, w5, Prod.fst_add, hc, hs]
      linear_combination -k1
    · simp only [pointAt, rotate, mul_one, w4, w5, Prod.snd_add, hc, hs]
      linear_combination -k2
  · exact (largeness hN sw w1 w2 w3 cpos cneg).1 hl
  · exact (largeness hN sw w1 w2 w3 cpos cneg).2 hl

/-- **C63 (no arc).** There is no arc exactly if a radius is next to nothing, or the command ends where it starts. -/
theorem fromArcTo_none_iff (a : Args) (p q : Pt ℝ) : fromArcTo a p q = none ↔ |a.rx| < 1 / 100000 ∨ |a.ry| < 1 / 100000 ∨ p = q := by
  unfold fromArcTo
  split
  · next h => exact iff_of_true rfl h
  · next h => simp only; split <;> exact iff_of_false (by simp) h

/-- **C63 (the arc of a command).** Otherwise the arc is the one that the arguments describe. -/
theorem fromArcTo_draws {a : Args} {p q : Pt ℝ} {b : ArcR} (h : fromArcTo a p q = some b) : Draws a p q b := by
  unfold fromArcTo at h
  split at h
  · cases h
  next hl =>
  obtain ⟨h1, h2, h3⟩ : 1 / 100000 ≤ |a.rx| ∧ 1 / 100000 ≤ |a.ry| ∧ p ≠ q := by
    simp only [IsLine, not_or, not_lt] at hl; exact hl
  have hx : 0 < |a.rx| := lt_of_lt_of_le (by norm_num) h1
  have hy : 0 < |a.ry| := lt_of_lt_of_le (by norm_num) h2
  have hc := cos_rem (a.rot * (π / 180))
  have hs := sin_rem (a.rot * (π / 180))
  have eh := half_congr hc hs p q
  simp only at h
  split at h
  · next hf =>
    have hr : 0 < factor |a.rx| |a.ry| (half (rem (a.rot * (π / 180)) (2 * π)) p q) := by linarith
    obtain ⟨rf, erf⟩ : ∃ rf, rf = factor |a.rx| |a.ry| (half (rem (a.rot * (π / 180)) (2 * π)) p q) := ⟨_, rfl⟩
    rw [← erf] at h hf hr
    have hq : 0 < √rf := sqrt_pos.mpr hr
    have hk := centred_spec (a := a) (rot := a.rot * (π / 180)) (mul_pos hx hq) (mul_pos hy hq) hc hs h3 (by
      rw [mul_comm |a.rx|, mul_comm |a.ry|, factor_scale, ← erf, sq_sqrt (le_of_lt hr), div_self (ne_of_gt hr)])
    rw [← Option.some.inj h]
    obtain ⟨k1, k2, k3, k4, k5, k6, k7, k8, k9, k10⟩ := hk
    refine ⟨by rw [k1]; ring, ⟨√rf, ?_, by rw [k2, mul_comm], by rw [k3, mul_comm], ?_⟩, k4, k5, k6, k7, k8, k9, k10⟩
    · rw [← sqrt_one]; exact sqrt_le_sqrt (le_of_lt hf)
    · rintro k hk1 hk2 ⟨m, hp, hq'⟩
      rw [k1] at hp hq'
      have hk0 : 0 < k := by linarith
      have := factor_ellipse (mul_pos hk0 hx) (mul_pos hk0 hy) hp hq'
      rw [factor_scale, ← eh, ← erf, div_le_one (by positivity)] at this
      have := (sqrt_le_sqrt this).trans (le_of_eq (sqrt_sq (le_of_lt hk0)))
      linarith
  · next hf =>
    have hk := centred_spec (a := a) (rot := a.rot * (π / 180)) hx hy hc hs h3 (not_lt.mp hf)
    rw [← Option.some.inj h]
    obtain ⟨k1, k2, k3, k4, k5, k6, k7, k8, k9, k10⟩ := hk
    refine ⟨by rw [k1]; ring, ⟨1, le_rfl, by rw [k2, one_mul], by rw [k3, one_mul], ?_⟩, k4, k5, k6, k7, k8, k9, k10⟩
    intro k hk1 hk2
    linarith

end Verif.ArcTo
