import Verif.ArcTo.Props

/-! # C63: there is only one such arc -/

namespace Verif.ArcTo

open Real Verif.Gjk

theorem pointAt_on (b : ArcR) (t : ℝ) : OnEllipse b.center b.rx b.ry b.rot (pointAt b t) := by
  refine ⟨b.start + b.sweep * t, ?_, ?_⟩
  · simp only [pointAt, rotate, Prod.fst_add]; ring
  · simp only [pointAt, rotate, Prod.snd_add]; ring

theorem cos_ne_one {w : ℝ} (h1 : |w| < 2 * π) (h2 : w ≠ 0) : cos w ≠ 1 := by
  intro h
  obtain ⟨n, hn⟩ := (cos_eq_one_iff w).mp h
  have hp := pi_pos
  rw [← hn, abs_mul, abs_of_pos (by linarith : (0 : ℝ) < 2 * π)] at h1
  have : |(n : ℝ)| < 1 := by nlinarith
  have : n = 0 := by
    have : |n| < 1 := by exact_mod_cast this
    exact Int.abs_lt_one_iff.mp this
  rw [this] at hn
  simp at hn
  exact h2 hn.symm

theorem sweep_ne {g : Args} {p q : Pt ℝ} {b : ArcR} (h : Draws g p q b) : b.sweep ≠ 0 := by
  cases hs : g.sweep
  · exact ne_of_lt (h.neg hs)
  · exact ne_of_gt (h.pos hs)

theorem scale_le {g : Args} {p q : Pt ℝ} {b b' : ArcR} {c c' : ℝ} (h : Draws g p q b) (h' : Draws g p q b') (h1 : 1 ≤ c) (hx : b.rx = c * |g.rx|) (hy : b.ry = c * |g.ry|)
    (hm : ∀ k, 1 ≤ k → k < c' → ¬ ∃ m, OnEllipse m (k * |g.rx|) (k * |g.ry|) b'.rot p ∧ OnEllipse m (k * |g.rx|) (k * |g.ry|) b'.rot q) : c' ≤ c := by
  by_contra hc
  refine hm c h1 (not_le.mp hc) ⟨b.center, ?_, ?_⟩
  · have := pointAt_on b 0
    rwa [h.first, hx, hy, h.rot, ← h'.rot] at this
  · have := pointAt_on b 1
    rwa [h.last, hx, hy, h.rot, ← h'.rot] at this

/-- The way from the start to the end, in the axes of the ellipse. -/
theorem chord {b : ArcR} (hx : b.rx ≠ 0) (hy : b.ry ≠ 0) :
    cos b.start - cos (b.start + b.sweep) = (cos b.rot * ((pointAt b 0).1 - (pointAt b 1).1) + sin b.rot * ((pointAt b 0).2 - (pointAt b 1).2)) / b.rx ∧
    sin b.start - sin (b.start + b.sweep) = (-sin b.rot * ((pointAt b 0).1 - (pointAt b 1).1) + cos b.rot * ((pointAt b 0).2 - (pointAt b 1).2)) / b.ry := by
  have hs := sin_sq_add_cos_sq b.rot
  constructor
  · rw [eq_div_iff hx]
    simp only [pointAt, rotate, Prod.fst_add, Prod.snd_add, mul_zero, add_zero, mul_one]
    linear_combination -(cos b.start - cos (b.start + b.sweep)) * b.rx * hs
  · rw [eq_div_iff hy]
    simp only [pointAt, rotate, Prod.fst_add, Prod.snd_add, mul_zero, add_zero, mul_one]
    linear_combination -(sin b.start - sin (b.start + b.sweep)) * b.ry * hs

theorem chord_sq (s w : ℝ) : (cos s - cos (s + w)) ^ 2 + (sin s - sin (s + w)) ^ 2 = 2 - 2 * cos w := by
  rw [cos_add, sin_add]
  have h1 := sin_sq_add_cos_sq s
  have h2 := sin_sq_add_cos_sq w
  linear_combination (2 - 2 * cos w) * h1 + (sin s ^ 2 + cos s ^ 2) * h2 - 0 * h1

/-- The angle, from its cosine, direction and size. -/
theorem sweep_eq {w w' : ℝ} (hc : cos w = cos w') (h1 : |w| < 2 * π) (h1' : |w'| < 2 * π) (hs : (0 < w ∧ 0 < w') ∨ (w < 0 ∧ w' < 0))
    (hl : (π ≤ |w| ∧ π ≤ |w'|) ∨ (|w| ≤ π ∧ |w'| ≤ π)) : w = w' := by
  have he : |w| = |w'| := by
    rw [← cos_abs, ← cos_abs w'] at hc
    rcases hl with ⟨l, l'⟩ | ⟨l, l'⟩
    · have := injOn_cos (x₁ := 2 * π - |w|) (x₂ := 2 * π - |w'|) ⟨by linarith, by linarith⟩ ⟨by linarith, by linarith⟩
        (by rw [cos_two_pi_sub, cos_two_pi_sub, hc])
      linarith
    · exact injOn_cos ⟨abs_nonneg _, l⟩ ⟨abs_nonneg _, l'⟩ hc
  rcases hs with ⟨a, b⟩ | ⟨a, b⟩
  · rwa [abs_of_pos a, abs_of_pos b] at he
  · rw [abs_of_neg a, abs_of_neg b] at he; linarith

/-- The start, from the way and the angle. -/
theorem start_eq {s s' w : ℝ} (hw : cos w ≠ 1) (h1 : cos s - cos (s + w) = cos s' - cos (s' + w)) (h2 : sin s - sin (s + w) = sin s' - sin (s' + w)) :
    cos s = cos s' ∧ sin s = sin s' := by
  rw [cos_add, cos_add] at h1
  rw [sin_add, sin_add] at h2
  have h3 := sin_sq_add_cos_sq w
  have hd : (2 - 2 * cos w) ≠ 0 := fun h => hw (by linarith)
  constructor
  · refine mul_left_cancel₀ hd ?_
    linear_combination (1 - cos w) * h1 - sin w * h2 - (cos s - cos s') * h3
  · refine mul_left_cancel₀ hd ?_
    linear_combination sin w * h1 + (1 - cos w) * h2 - (sin s - sin s') * h3

/-- **C63 (only one arc).** The arguments describe only one arc: any two of them have the same points, at every fraction of their way. -/
theorem draws_unique {g : Args} {p q : Pt ℝ} {b b' : ArcR} (hx : g.rx ≠ 0) (hy : g.ry ≠ 0) (h : Draws g p q b) (h' : Draws g p q b') :
    b.rx = b'.rx ∧ b.ry = b'.ry ∧ b.sweep = b'.sweep ∧ ∀ t, pointAt b t = pointAt b' t := by
  obtain ⟨c, c1, cx, cy, cm⟩ := h.radii
  obtain ⟨c', c1', cx', cy', cm'⟩ := h'.radii
  have hc : c = c' := le_antisymm (scale_le h' h c1' cx' cy' cm) (scale_le h h' c1 cx cy cm')
  subst hc
  have erx : b.rx = b'.rx := cx.trans cx'.symm
  have ery : b.ry = b'.ry := cy.trans cy'.symm
  have erot : b.rot = b'.rot := h.rot.trans h'.rot.symm
  have hbx : b.rx ≠ 0 := by rw [cx]; exact mul_ne_zero (by linarith) (abs_ne_zero.mpr hx)
  have hby : b.ry ≠ 0 := by rw [cy]; exact mul_ne_zero (by linarith) (abs_ne_zero.mpr hy)
  obtain ⟨v1, v2⟩ := chord hbx hby
  obtain ⟨v1', v2'⟩ := chord (erx ▸ hbx) (ery ▸ hby)
  rw [h.first, h.last] at v1 v2
  rw [h'.first, h'.last, ← erx, ← erot, ← v1] at v1'
  rw [h'.first, h'.last, ← ery, ← erot, ← v2] at v2'
  have ecos : cos b.sweep = cos b'.sweep := by
    have e1 := chord_sq b.start b.sweep
    have e2 := chord_sq b'.start b'.sweep
    rw [v1', v2', e1] at e2
    linarith
  have ew : b.sweep = b'.sweep := by
    refine sweep_eq ecos h.turn h'.turn ?_ ?_
    · cases hs : g.sweep
      · exact .inr ⟨h.neg hs, h'.neg hs⟩
      · exact .inl ⟨h.pos hs, h'.pos hs⟩
    · cases hl : g.large
      · exact .inr ⟨h.small hl, h'.small hl⟩
      · exact .inl ⟨h.large hl, h'.large hl⟩
  rw [← ew] at v1' v2'
  obtain ⟨e1, e2⟩ := start_eq (cos_ne_one h.turn (sweep_ne h)) v1'.symm v2'.symm
  have ec : b.center = b'.center := by
    have k := h.first.trans h'.first.symm
    simp only [pointAt, mul_zero, add_zero, e1, e2, erx, ery, erot] at k
    exact add_right_cancel k
  refine ⟨erx, ery, ew, fun t => ?_⟩
  simp only [pointAt, cos_add, sin_add, e1, e2, erx, ery, erot, ew, ec]

/-- **C63 (the arc of a command).** So that arc is the one that the code makes. -/
theorem fromArcTo_unique {a : Args} {p q : Pt ℝ} {b b' : ArcR} (h : fromArcTo a p q = some b) (h' : Draws a p q b') (t : ℝ) : pointAt b t = pointAt b' t := by
  have hn : ¬ (|a.rx| < 1 / 100000 ∨ |a.ry| < 1 / 100000 ∨ p = q) := by
    rw [← fromArcTo_none_iff, h]; simp
  simp only [not_or, not_lt] at hn
  refine (draws_unique ?_ ?_ (fromArcTo_draws h) h').2.2.2 t
  · intro e; rw [e] at hn; norm_num at hn
  · intro e; rw [e] at hn; norm_num at hn

/-- **C63 (relative arcs).** The command `a` is the command `A` with an end that is relative to where the pen is. -/
theorem fromArcBy_draws {a : Args} {p d : Pt ℝ} {b : ArcR} (h : fromArcBy a p d = some b) : Draws a p (p + d) b := by
  have := fromArcTo_draws h
  rwa [add_comm] at this

end Verif.ArcTo
