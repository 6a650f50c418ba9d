import Mathlib.Algebra.Order.Round
import Verif.Arcs.Model
import Verif.Fit.Lemmas

/-!
# Points along arcs
-/

namespace Verif.Arcs

open Real Verif.Gjk Verif.ArcTo Verif.Fit

/-- The square of a distance. -/
def Sq (p q : Pt ℝ) : ℝ := (p.1 - q.1) ^ 2 + (p.2 - q.2) ^ 2

theorem dist2_eq (p q : Pt ℝ) : dist2 p q = Sq p q := by simp only [dist2, Sq]; ring

/-- The points of an arc, by SVG F.6.3: a part `u` of the way along. -/
noncomputable def Along (a : ArcR) (u : ℝ) : Pt ℝ :=
  (cos a.rot * (a.rx * cos (a.start + u * a.sweep)) - sin a.rot * (a.ry * sin (a.start + u * a.sweep)) + a.center.1,
   sin a.rot * (a.rx * cos (a.start + u * a.sweep)) + cos a.rot * (a.ry * sin (a.start + u * a.sweep)) + a.center.2)

theorem pointAt_along (a : ArcR) (t : ℝ) : pointAt a t = Along a t := by
  apply Prod.ext <;> simp only [pointAt, Along, rotate, Prod.fst_add, Prod.snd_add, mul_comm a.sweep] <;> ring

theorem atAngle_along (a : ArcR) (t : ℝ) : atAngle a (a.start + t * a.sweep) = Along a t := by
  apply Prod.ext <;> simp only [atAngle, Along, rotate, Prod.fst_add, Prod.snd_add] <;> ring

theorem atAngle_period (a : ArcR) (w : ℝ) (k : ℤ) : atAngle a (w + k * (2 * π)) = atAngle a w := by
  simp only [atAngle, cos_add_int_mul_two_pi, sin_add_int_mul_two_pi]

theorem unit_bounds (t : ℝ) : 0 ≤ unit t ∧ unit t ≤ 1 := by
  unfold unit; split
  · exact ⟨le_refl _, zero_le_one⟩
  split
  · exact ⟨zero_le_one, le_refl _⟩
  · exact ⟨not_lt.1 ‹_›, not_lt.1 ‹_›⟩

theorem unit_of {t : ℝ} (h : 0 ≤ t) (k : t ≤ 1) : unit t = t := by
  rw [unit, if_neg (not_lt.2 h), if_neg (not_lt.2 k)]

theorem sq_self (p : Pt ℝ) : Sq p p = 0 := by simp [Sq]

theorem eq_of_sq {p q : Pt ℝ} (h : Sq p q ≤ 0) : p = q := by
  have h1 := sq_nonneg (p.1 - q.1)
  have h2 := sq_nonneg (p.2 - q.2)
  unfold Sq at h
  have e1 : (p.1 - q.1) ^ 2 = 0 := by linarith
  have e2 : (p.2 - q.2) ^ 2 = 0 := by linarith
  rw [sq_eq_zero_iff, sub_eq_zero] at e1 e2
  exact Prod.ext e1 e2

/-- **C78 (finding a point is sound)** The place that is found for a point is on the arc, and the arc is there not farther from the point than the
tolerance, which is relative to the greater radius. -/
theorem tAt_sound (a : ArcR) (x : Pt ℝ) (tol : ℝ) {t : ℝ} (h : tAt a x tol = some t) :
    0 ≤ t ∧ t ≤ 1 ∧ Sq (Along a t) x ≤ tol * (1 + max a.rx a.ry ^ 2) := by
  simp only [tAt, Option.bind_eq_some_iff] at h
  obtain ⟨w, -, h⟩ := h
  split at h
  · split at h
    · rename_i hd
      obtain rfl := Option.some.inj h
      rw [dist2_eq, pointAt_along] at hd
      exact ⟨le_refl _, zero_le_one, hd⟩
    · cases h
  · split at h
    · rename_i hd
      obtain rfl := Option.some.inj h
      rw [dist2_eq, atAngle_along] at hd
      exact ⟨(unit_bounds _).1, (unit_bounds _).2, hd⟩
    · cases h

/-- The angle that belongs to a point of the ellipse. -/
theorem angleAt_on (a : ArcR) (hx : 0 < a.rx) (hy : 0 < a.ry) (α : ℝ) {tol : ℝ} (ht : 0 ≤ tol) :
    ∃ (w : ℝ) (k : ℤ), angleAt a (atAngle a α) tol = some w ∧ w = α + k * (2 * π) := by
  have e : rotate (atAngle a α - a.center) (-a.rot) = (a.rx * cos α, a.ry * sin α) := by
    have h1 := sin_sq_add_cos_sq a.rot
    apply Prod.ext <;> simp only [atAngle, rotate, Prod.fst_sub, Prod.snd_sub, Prod.fst_add, Prod.snd_add, cos_neg, sin_neg]
    · linear_combination (a.rx * cos α) * h1
    · linear_combination (a.ry * sin α) * h1
  have hu : ((cos α, sin α) : Pt ℝ).1 ^ 2 + ((cos α, sin α) : Pt ℝ).2 ^ 2 = 1 := by simp
  obtain ⟨k, hk⟩ : ∃ k : ℤ, angle (cos α, sin α) = α + k * (2 * π) := by
    have hc := cos_angle hu
    have hs := sin_angle hu
    have : Complex.arg (Complex.exp (α * Complex.I)) = toIocMod two_pi_pos (-π) α := Complex.arg_exp_mul_I α
    have e2 : (⟨cos α, sin α⟩ : ℂ) = Complex.exp (α * Complex.I) := by
      apply Complex.ext <;> simp [Complex.exp_ofReal_mul_I_re, Complex.exp_ofReal_mul_I_im]
    refine ⟨-toIocDiv two_pi_pos (-π) α, ?_⟩
    rw [angle, e2, this, toIocMod]
    push_cast
    rw [zsmul_eq_mul]
    ring
  refine ⟨_, k, ?_, rfl⟩
  simp only [angleAt, e]
  rw [mul_div_cancel_left₀ _ hx.ne', mul_div_cancel_left₀ _ hy.ne', hk, atAngle_period, if_pos]
  rw [dist2_eq, sq_self]; exact ht

theorem roundAway_near {x : ℝ} {k : ℤ} (h : |x - k| < 1 / 2) : roundAway x = k := by
  obtain ⟨h1, h2⟩ := abs_lt.1 h
  unfold roundAway
  split
  · rw [Int.floor_eq_iff]; constructor <;> linarith
  · rw [Int.ceil_eq_iff]; constructor <;> linarith

theorem tAt_of_angle (a : ArcR) {x : Pt ℝ} {tol w : ℝ} (hw : angleAt a x (wide a tol) = some w) (h0 : a.sweep ≠ 0) {u : ℝ} (hu0 : 0 ≤ u) (hu1 : u ≤ 1)
    (hk : w + roundAway ((a.start + 1 / 2 * a.sweep - w) / (2 * π)) * (2 * π) = a.start + u * a.sweep) (hd : Sq (Along a u) x ≤ wide a tol) :
    tAt a x tol = some u := by
  simp only [tAt, hw, Option.bind_some, if_neg h0]
  have e : (w + roundAway ((a.start + 1 / 2 * a.sweep - w) / (2 * π)) * (2 * π) - a.start) / a.sweep = u := by
    rw [hk, add_sub_cancel_left, mul_div_cancel_right₀ _ h0]
  rw [e, unit_of hu0 hu1, if_pos]
  rw [dist2_eq, atAngle_along]; exact hd

theorem wide_nonneg (a : ArcR) {tol : ℝ} (ht : 0 ≤ tol) : 0 ≤ wide a tol := by unfold wide; positivity

/-- **C78 (finding a point of the arc)** Each point of an arc that goes around less than once is found, exactly where it is; and so are the points of
an arc that goes around once, but for its ends. -/
theorem tAt_complete (a : ArcR) (hx : 0 < a.rx) (hy : 0 < a.ry) (h0 : a.sweep ≠ 0) {u tol : ℝ} (ht : 0 ≤ tol) (hu0 : 0 ≤ u) (hu1 : u ≤ 1)
    (hs : |a.sweep| < 2 * π ∨ |a.sweep| = 2 * π ∧ 0 < u ∧ u < 1) : tAt a (Along a u) tol = some u := by
  obtain ⟨w, k, hw, e⟩ := angleAt_on a hx hy (a.start + u * a.sweep) (wide_nonneg a ht)
  rw [atAngle_along] at hw
  refine tAt_of_angle a hw h0 hu0 hu1 ?_ (by rw [sq_self]; exact wide_nonneg a ht)
  have hp := pi_pos
  have : roundAway ((a.start + 1 / 2 * a.sweep - w) / (2 * π)) = -k := by
    apply roundAway_near
    have e2 : (a.start + 1 / 2 * a.sweep - w) / (2 * π) - ((-k : ℤ) : ℝ) = (1 / 2 - u) * a.sweep / (2 * π) := by
      rw [e]; push_cast; field_simp; ring
    rw [e2, abs_div, abs_mul, abs_of_pos (by positivity : 0 < 2 * π), div_lt_iff₀ (by positivity)]
    rcases hs with hs | ⟨hs, h1, h2⟩
    · have : |1 / 2 - u| ≤ 1 / 2 := abs_le.2 ⟨by linarith, by linarith⟩
      calc |1 / 2 - u| * |a.sweep| ≤ 1 / 2 * |a.sweep| := mul_le_mul_of_nonneg_right this (abs_nonneg _)
        _ < 1 / 2 * (2 * π) := by linarith
    · have : |1 / 2 - u| < 1 / 2 := abs_lt.2 ⟨by linarith, by linarith⟩
      rw [hs]; exact mul_lt_mul_of_pos_right this (by positivity)
  rw [this, e]; push_cast; ring

/-- **C78 (finding the ends of a full turn)** The ends of an arc that goes around once are found at the one or at the other end. -/
theorem tAt_turn (a : ArcR) (hx : 0 < a.rx) (hy : 0 < a.ry) (hs : |a.sweep| = 2 * π) {u tol : ℝ} (ht : 0 ≤ tol) (hu : u = 0 ∨ u = 1) :
    tAt a (Along a u) tol = some 0 ∨ tAt a (Along a u) tol = some 1 := by
  have hp := pi_pos
  have h0 : a.sweep ≠ 0 := by intro e; rw [e, abs_zero] at hs; linarith
  have ends : Along a 0 = Along a 1 := by
    have : ∃ k : ℤ, a.sweep = k * (2 * π) := by
      rcases abs_eq (by positivity : (0:ℝ) ≤ 2 * π) |>.1 hs with h | h
      · exact ⟨1, by rw [h]; simp⟩
      · exact ⟨-1, by rw [h]; simp⟩
    obtain ⟨k, e⟩ := this
    rw [← atAngle_along, ← atAngle_along, zero_mul, add_zero, one_mul]
    conv_rhs => rw [e, atAngle_period]
  have eu : Along a u = Along a 0 := by rcases hu with rfl | rfl <;> simp [ends]
  rw [eu]
  obtain ⟨w, k, hw, e⟩ := angleAt_on a hx hy (a.start + 0 * a.sweep) (wide_nonneg a ht)
  rw [atAngle_along] at hw
  -- the middle is half of a turn away
  obtain ⟨σ, hσ, es⟩ : ∃ σ : ℝ, (σ = 1 ∨ σ = -1) ∧ a.sweep = σ * (2 * π) := by
    rcases abs_eq (by positivity : (0:ℝ) ≤ 2 * π) |>.1 hs with h | h
    · exact ⟨1, Or.inl rfl, by rw [h]; ring⟩
    · exact ⟨-1, Or.inr rfl, by rw [h]; ring⟩
  have ex : (a.start + 1 / 2 * a.sweep - w) / (2 * π) = σ / 2 - k := by
    rw [e, es]; field_simp; ring
  have hr : roundAway (σ / 2 - (k : ℝ)) = -k ∨ ((roundAway (σ / 2 - (k : ℝ)) : ℤ) : ℝ) = σ - k := by
    unfold roundAway
    rcases hσ with rfl | rfl
    · split
      · right
        rw [show (1 : ℝ) / 2 - k + 1 / 2 = ((1 - k : ℤ) : ℝ) by push_cast; ring, Int.floor_intCast]; push_cast; rfl
      · left
        rw [show (1 : ℝ) / 2 - k - 1 / 2 = ((-k : ℤ) : ℝ) by push_cast; ring, Int.ceil_intCast]
    · split
      · left
        rw [show (-1 : ℝ) / 2 - k + 1 / 2 = ((-k : ℤ) : ℝ) by push_cast; ring, Int.floor_intCast]
      · right
        rw [show (-1 : ℝ) / 2 - k - 1 / 2 = ((-1 - k : ℤ) : ℝ) by push_cast; ring, Int.ceil_intCast]; push_cast; rfl
  rcases hr with hr | hr
  · left
    refine tAt_of_angle a hw h0 (le_refl _) zero_le_one ?_ (by rw [sq_self]; exact wide_nonneg a ht)
    rw [ex, hr, e]; push_cast; ring
  · right
    refine tAt_of_angle a hw h0 zero_le_one (le_refl _) ?_ (by rw [ends, sq_self]; exact wide_nonneg a ht)
    rw [ex, hr, e, es]; ring

/-- **C78 (dividing at a point)** The parts of an arc that is divided at a point run along the arc, and they meet not farther from the point than the
tolerance. -/
theorem subdivideAt_along (a : ArcR) (x : Pt ℝ) {tol : ℝ} {l r : ArcR} (h : subdivideAt a x tol = some (l, r)) :
    ∃ t, 0 ≤ t ∧ t ≤ 1 ∧ (∀ u, Along l u = Along a (u * t)) ∧ (∀ u, Along r u = Along a (t + u * (1 - t))) ∧
      Sq (Along r 0) x ≤ tol * (1 + max a.rx a.ry ^ 2) := by
  simp only [subdivideAt, Option.map_eq_some_iff] at h
  obtain ⟨t, ht, e⟩ := h
  obtain ⟨h0, h1, hs⟩ := tAt_sound a x tol ht
  have el : ∀ u, Along l u = Along a (u * t) := fun u => by
    rw [show l = (subdivide a t).1 by rw [e]]; simp only [Along, subdivide, mul_assoc]
  have er : ∀ u, Along r u = Along a (t + u * (1 - t)) := fun u => by
    rw [show r = (subdivide a t).2 by rw [e]]; simp only [Along, subdivide]
    rw [show a.start + t * a.sweep + u * (a.sweep * (1 - t)) = a.start + (t + u * (1 - t)) * a.sweep by ring]
  refine ⟨t, h0, h1, el, er, ?_⟩
  rw [er, zero_mul, add_zero]; exact hs

/-- **C78 (parts between points)** The part of an arc between two points runs along the arc, from the one to the other, up to the tolerance. -/
theorem clampAt_along (a : ArcR) (x y : Pt ℝ) {tol : ℝ} {b : ArcR} (h : clampAt a x y tol = some b) :
    ∃ t1 t2, 0 ≤ t1 ∧ t1 ≤ 1 ∧ 0 ≤ t2 ∧ t2 ≤ 1 ∧ (∀ u, Along b u = Along a (t1 + u * (t2 - t1))) ∧
      Sq (Along b 0) x ≤ tol * (1 + max a.rx a.ry ^ 2) ∧ Sq (Along b 1) y ≤ tol * (1 + max a.rx a.ry ^ 2) := by
  simp only [clampAt, Option.bind_eq_some_iff, Option.map_eq_some_iff] at h
  obtain ⟨t1, e1, t2, e2, rfl⟩ := h
  obtain ⟨h1, k1, s1⟩ := tAt_sound a x tol e1
  obtain ⟨h2, k2, s2⟩ := tAt_sound a y tol e2
  have el : ∀ u, Along (clamp a t1 t2) u = Along a (t1 + u * (t2 - t1)) := fun u => by
    simp only [Along, clamp]
    rw [show a.start + t1 * a.sweep + u * ((t2 - t1) * a.sweep) = a.start + (t1 + u * (t2 - t1)) * a.sweep by ring]
  refine ⟨t1, t2, h1, k1, h2, k2, el, ?_, ?_⟩
  · rw [el, zero_mul, add_zero]; exact s1
  · rw [el, one_mul, add_sub_cancel]; exact s2

/-! ## Lengths -/

theorem weights (n : ℕ) (hn : n % 2 = 0) (r : ℝ) :
    ((List.range n).map fun (i : ℕ) => if i % 2 = 0 then 2 * r else 4 * r).sum = 3 * n * r := by
  obtain ⟨m, rfl⟩ : ∃ m, n = 2 * m := ⟨n / 2, by omega⟩
  clear hn
  induction m with
  | zero => simp
  | succ m ih =>
    rw [show 2 * (m + 1) = 2 * m + 1 + 1 by ring, List.range_succ, List.range_succ, List.append_assoc, List.map_append, List.sum_append, ih]
    have h1 : 2 * m % 2 = 0 := by omega
    have h2 : (2 * m + 1) % 2 ≠ 0 := by omega
    simp only [List.map_append, List.map_cons, List.map_nil, List.sum_append, List.sum_cons, List.sum_nil, h1, h2, if_true, if_false]
    push_cast; ring

theorem even_count (n : ℕ) : (if n % 2 = 0 then max n 2 else n + 1) % 2 = 0 ∧ 2 ≤ (if n % 2 = 0 then max n 2 else n + 1) := by
  split
  · rcases le_total n 2 with h | h
    · rw [max_eq_right h]; exact ⟨rfl, le_refl _⟩
    · rw [max_eq_left h]; exact ⟨‹_›, h⟩
  · omega

/-- **C78 (the length of arcs of circles)** The length of an arc of a circle is exact, by any number of iterations. -/
theorem length_circle (a : ArcR) {r : ℝ} (hr : 0 < r) (hx : a.rx = r) (hy : a.ry = r) (n : ℕ) : length a n = r * |a.sweep| := by
  simp only [length]
  rw [if_neg (by rw [hx, hy]; simp [hr.ne'])]
  split
  · rename_i h; rw [h]; simp
  have hf : ∀ w : ℝ, √(a.rx ^ 2 * sin w ^ 2 + a.ry ^ 2 * cos w ^ 2) = r := fun w => by
    rw [hx, hy, ← mul_add, sin_sq_add_cos_sq, mul_one, sqrt_sq hr.le]
  simp only [hf]
  obtain ⟨he, h2⟩ := even_count n
  rw [weights _ he]
  set m := (if n % 2 = 0 then max n 2 else n + 1)
  have hm : (m : ℝ) ≠ 0 := by have : 0 < m := by omega
                              exact_mod_cast this.ne'
  rw [show 3 * (m : ℝ) * r * (a.sweep / m) / 3 = r * a.sweep by field_simp, abs_mul, abs_of_pos hr]

theorem sum_pos' {l : List ℝ} (h : ∀ x ∈ l, 0 ≤ x) : 0 ≤ l.sum := List.sum_nonneg h

theorem between_sqrt (a : ArcR) (hx : 0 < a.rx) (hy : 0 < a.ry) (w : ℝ) :
    min a.rx a.ry ≤ √(a.rx ^ 2 * sin w ^ 2 + a.ry ^ 2 * cos w ^ 2) ∧ √(a.rx ^ 2 * sin w ^ 2 + a.ry ^ 2 * cos w ^ 2) ≤ max a.rx a.ry := by
  have h1 := sin_sq_add_cos_sq w
  have s0 := sq_nonneg (sin w)
  have c0 := sq_nonneg (cos w)
  constructor
  · apply le_sqrt_of_sq_le
    have m1 : min a.rx a.ry ^ 2 ≤ a.rx ^ 2 := by gcongr; exact min_le_left _ _
    have m2 : min a.rx a.ry ^ 2 ≤ a.ry ^ 2 := by gcongr; exact min_le_right _ _
    nlinarith
  · apply sqrt_le_iff.2 ⟨by positivity, ?_⟩
    have m1 : a.rx ^ 2 ≤ max a.rx a.ry ^ 2 := by gcongr; exact le_max_left _ _
    have m2 : a.ry ^ 2 ≤ max a.rx a.ry ^ 2 := by gcongr; exact le_max_right _ _
    nlinarith

/-- **C78 (the length of arcs)** The length is between those of the arcs of the same angle of the circles with the smaller and with the greater radius. -/
theorem length_between (a : ArcR) (hx : 0 < a.rx) (hy : 0 < a.ry) (n : ℕ) :
    min a.rx a.ry * |a.sweep| ≤ length a n ∧ length a n ≤ max a.rx a.ry * |a.sweep| := by
  simp only [length]
  rw [if_neg (by simp [hx.ne', hy.ne'])]
  split
  · rename_i h; rw [h]; simp
  obtain ⟨he, h2⟩ := even_count n
  set m := (if n % 2 = 0 then max n 2 else n + 1)
  have hm : (0 : ℝ) < m := by have : 0 < m := by omega
                              exact_mod_cast this
  set f := fun w : ℝ => √(a.rx ^ 2 * sin w ^ 2 + a.ry ^ 2 * cos w ^ 2) with hf
  have lo : 3 * m * min a.rx a.ry ≤ ((List.range m).map fun (i : ℕ) => if i % 2 = 0 then 2 * f (a.start + i * (a.sweep / m)) else 4 * f (a.start + i * (a.sweep / m))).sum := by
    rw [← weights m he]
    apply List.sum_le_sum
    intro i _
    have := (between_sqrt a hx hy (a.start + i * (a.sweep / m))).1
    split <;> simp only [hf] <;> linarith
  have hi : ((List.range m).map fun (i : ℕ) => if i % 2 = 0 then 2 * f (a.start + i * (a.sweep / m)) else 4 * f (a.start + i * (a.sweep / m))).sum ≤ 3 * m * max a.rx a.ry := by
    rw [← weights m he]
    apply List.sum_le_sum
    intro i _
    have := (between_sqrt a hx hy (a.start + i * (a.sweep / m))).2
    split <;> simp only [hf] <;> linarith
  set S := ((List.range m).map fun (i : ℕ) => if i % 2 = 0 then 2 * f (a.start + i * (a.sweep / m)) else 4 * f (a.start + i * (a.sweep / m))).sum
  have hmin : 0 < min a.rx a.ry := lt_min hx hy
  have hS : 0 ≤ S := le_trans (by positivity) lo
  have e : |S * (a.sweep / m) / 3| = S / (3 * m) * |a.sweep| := by
    rw [show S * (a.sweep / m) / 3 = S / (3 * m) * a.sweep by field_simp, abs_mul, abs_of_nonneg (by positivity)]
  rw [e]
  constructor
  · apply mul_le_mul_of_nonneg_right _ (abs_nonneg _)
    rw [le_div_iff₀ (by positivity)]; linarith
  · apply mul_le_mul_of_nonneg_right _ (abs_nonneg _)
    rw [div_le_iff₀ (by positivity)]; linarith

/-! ## Tangents -/

/-- **C78 (tangents)** The tangent has the length one and the direction in which the arc runs. -/
theorem tangent_dir (a : ArcR) (t : ℝ) (h0 : a.sweep ≠ 0) (hx : 1 / 10 ^ 12 < a.rx) (hy : 1 / 10 ^ 12 < a.ry) :
    (tangent a t).1 ^ 2 + (tangent a t).2 ^ 2 = 1 ∧
    ∃ c > 0, HasDerivAt (fun u => (Along a u).1) (c * (tangent a t).1) t ∧ HasDerivAt (fun u => (Along a u).2) (c * (tangent a t).2) t := by
  set w := a.start + t * a.sweep with hw
  have hx0 : 0 < a.rx := lt_trans (by positivity) hx
  have hy0 : 0 < a.ry := lt_trans (by positivity) hy
  set r := rotate (-a.rx * sin w, a.ry * cos w) a.rot with hr
  have hrr : r.1 * r.1 + r.2 * r.2 = a.rx ^ 2 * sin w ^ 2 + a.ry ^ 2 * cos w ^ 2 := by
    have h1 := sin_sq_add_cos_sq a.rot
    simp only [hr, rotate]; linear_combination (a.rx ^ 2 * sin w ^ 2 + a.ry ^ 2 * cos w ^ 2) * h1
  have hl : 1 / 10 ^ 12 < √(r.1 * r.1 + r.2 * r.2) := by
    rw [hrr]; exact lt_of_lt_of_le (lt_min hx hy) (between_sqrt a hx0 hy0 w).1
  set L := √(r.1 * r.1 + r.2 * r.2) with hL
  have hL0 : 0 < L := lt_trans (by positivity) hl
  have hLs : L ^ 2 = r.1 * r.1 + r.2 * r.2 := sq_sqrt (by nlinarith [mul_self_nonneg r.1, mul_self_nonneg r.2])
  set σ : ℝ := if 0 ≤ a.sweep then 1 else -1 with hσ
  have hσs : σ * σ = 1 := by rw [hσ]; split <;> norm_num
  have hσa : σ * a.sweep = |a.sweep| := by
    rw [hσ]; split
    · rw [one_mul, abs_of_nonneg ‹_›]
    · rw [abs_of_neg (not_le.1 ‹_›)]; ring
  have e : tangent a t = (σ / L) • r := by
    simp only [tangent, ← hw, ← hr, ← hL]; rw [if_pos hl]
  rw [e]
  simp only [Prod.smul_fst, Prod.smul_snd, smul_eq_mul]
  refine ⟨?_, L * |a.sweep|, by positivity, ?_, ?_⟩
  · have : (σ / L * r.1) ^ 2 + (σ / L * r.2) ^ 2 = σ * σ * (r.1 * r.1 + r.2 * r.2) / L ^ 2 := by ring
    rw [this, hσs, hLs, one_mul, div_self]
    rw [← hLs]; positivity
  · have e1 : L * |a.sweep| * (σ / L * r.1) = a.sweep * r.1 := by
      rw [← hσa, show L * (σ * a.sweep) * (σ / L * r.1) = σ * σ * (a.sweep * r.1) * (L / L) by ring, hσs, div_self hL0.ne']; ring
    rw [e1]
    have hi : HasDerivAt (fun u => a.start + u * a.sweep) a.sweep t := by
      simpa using ((hasDerivAt_id t).mul_const a.sweep).const_add a.start
    have hc := hi.cos
    have hs := hi.sin
    have := (((hc.const_mul a.rx).const_mul (cos a.rot)).sub ((hs.const_mul a.ry).const_mul (sin a.rot))).add_const a.center.1
    refine this.congr_deriv ?_
    simp only [hr, rotate, ← hw]; ring
  · have e1 : L * |a.sweep| * (σ / L * r.2) = a.sweep * r.2 := by
      rw [← hσa, show L * (σ * a.sweep) * (σ / L * r.2) = σ * σ * (a.sweep * r.2) * (L / L) by ring, hσs, div_self hL0.ne']; ring
    rw [e1]
    have hi : HasDerivAt (fun u => a.start + u * a.sweep) a.sweep t := by
      simpa using ((hasDerivAt_id t).mul_const a.sweep).const_add a.start
    have hc := hi.cos
    have hs := hi.sin
    have := (((hc.const_mul a.rx).const_mul (sin a.rot)).add ((hs.const_mul a.ry).const_mul (cos a.rot))).add_const a.center.2
    refine this.congr_deriv ?_
    simp only [hr, rotate, ← hw]; ring

/-! ## Curves -/

/-- **C78 (arcs as curves)** The curve for an arc starts in the start of the arc, ends in its end, and has the same point in the middle, if the arc does
not go around once. -/
theorem toCurve_points (a : ArcR) {c : Curve} (h : toCurve a = some c) (hs : |a.sweep| < 2 * π) :
    at_ (Along a 0) c 0 = Along a 0 ∧ at_ (Along a 0) c 1 = Along a 1 ∧ at_ (Along a 0) c (1 / 2) = Along a (1 / 2) := by
  simp only [toCurve] at h
  split at h
  · cases h
  obtain rfl := Option.some.inj h
  refine ⟨?_, ?_, ?_⟩
  · apply Prod.ext <;> simp [at_]
  · apply Prod.ext <;> simp [at_, pointAt_along]
  · obtain ⟨s1, s2⟩ := abs_lt.1 hs
    set q := a.sweep / 4 with hq
    have hcq : cos q ≠ 0 := (cos_pos_of_mem_Ioo ⟨by rw [hq]; linarith, by rw [hq]; linarith⟩).ne'
    have htan : tan q * cos q = sin q := tan_mul_cos hcq
    obtain ⟨m, hm⟩ : ∃ m, m = a.start + 1 / 2 * a.sweep := ⟨_, rfl⟩
    have e0 : a.start + 0 * a.sweep = m - 2 * q := by rw [hm, hq]; ring
    have e1 : a.start + 1 * a.sweep = m + 2 * q := by rw [hm, hq]; ring
    have e2 : a.start = m - 2 * q := by rw [hm, hq]; ring
    have e3 : a.start + a.sweep = m + 2 * q := by rw [hm, hq]; ring
    have hs2 : sin (2 * q) = 2 * sin q * cos q := sin_two_mul q
    have hc2 : cos (2 * q) = 2 * cos q ^ 2 - 1 := cos_two_mul q
    have hsc := sin_sq_add_cos_sq q
    have key : 1 = cos (2 * q) + tan q * sin (2 * q) := by
      rw [hs2, hc2]; linear_combination -2 * hsc - 2 * sin q * htan
    apply Prod.ext <;> simp only [at_, pointAt_along, Along, Prod.fst_add, Prod.snd_add, Prod.fst_sub, Prod.snd_sub, Prod.smul_fst, Prod.smul_snd, smul_eq_mul]
    all_goals
      rw [e0, e1, e3, ← hm, e2, cos_sub m (2 * q), sin_sub m (2 * q), cos_add m (2 * q), sin_add m (2 * q)]
    · linear_combination -(cos a.rot * (a.rx * cos m) - sin a.rot * (a.ry * sin m)) * key
    · linear_combination -(sin a.rot * (a.rx * cos m) + cos a.rot * (a.ry * sin m)) * key

end Verif.Arcs
