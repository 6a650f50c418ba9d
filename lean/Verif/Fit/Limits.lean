import Verif.Fit.Exact

/-!
# Theorems: paths; limits and examples
-/

namespace Verif.Fit

open Real Verif.Gjk Verif.ArcTo

variable {e : Env}

/-- No curve of the path returns to its start at once. -/
def Open : Pt ℝ → List Item → Prop
  | _, [] => True
  | s, .curve c :: l => s ≠ c.p ∧ Open c.p l
  | _, d :: l => Open d.stop l

/-- Of two paths, the second has the commands of the first, but for curves that are arcs of circles with the same ends, through the middle of the
curve or opposite to it. -/
inductive Alike : Pt ℝ → List Item → List Item → Prop
  | nil {s} : Alike s [] []
  | keep {s d l l'} : Alike d.stop l l' → Alike s (d :: l) (d :: l')
  | turn {s c l l'} (a : ArcR) : a.rot = 0 → a.rx = a.ry → ArcTo.pointAt a 0 = s → ArcTo.pointAt a 1 = c.p → |a.sweep| ≤ π →
      far a.center (bezier s c (1 / 2)) = a.rx → Alike c.p l l' → Alike s (.curve c :: l) (.arc a c.p :: l')

/-- **C76 (paths).** Whichever arcs are taken, the commands of a path end where they did, and a curve that becomes an arc has the same ends and is on the
circle with its middle. -/
theorem arcCurves_alike (he : e.Sound) (takes : ℕ → Bool) : ∀ (l : List Item) (s : Pt ℝ) (i : ℕ), Open s l → Alike s l (arcCurves e takes s i l)
  | [], s, i, _ => by simp only [arcCurves]; exact .nil
  | .line p :: l, s, i, h => by simp only [arcCurves]; exact .keep (arcCurves_alike he takes l _ _ h)
  | .arc a p :: l, s, i, h => by simp only [arcCurves]; exact .keep (arcCurves_alike he takes l _ _ h)
  | .curve c :: l, s, i, h => by
    simp only [arcCurves]
    cases hf : fit e s c with
    | none => exact .keep (d := .curve c) (arcCurves_alike he takes l _ _ h.2)
    | some a =>
      cases takes i with
      | false => exact .keep (d := .curve c) (arcCurves_alike he takes l _ _ h.2)
      | true =>
        obtain ⟨p0, p1, hw, -⟩ := fit_ends he h.1 hf
        obtain ⟨c0, c1, -, -, -, c2, -⟩ := fit_circle he h.1 hf
        exact .turn a c0 c1 p0 p1 hw c2 (arcCurves_alike he takes l _ _ h.2)

/-! ## Limits -/

/-- More than half of a circle. -/
def around (k : ℝ) : Pt ℝ × Curve := ((-36 * k, -27 * k), ⟨(-76 * k, 69 * k), (76 * k, 69 * k), (36 * k, -27 * k)⟩)

/-- A loop. -/
def loop (k : ℝ) : Pt ℝ × Curve := ((-528 * k, 171 * k), ⟨(1872 * k, 683 * k), (-1872 * k, 683 * k), (528 * k, 171 * k)⟩)

/-- Half of a circle. -/
def bow (k : ℝ) : Pt ℝ × Curve := ((-54 * k, 0), ⟨(-49 * k, -72 * k), (49 * k, -72 * k), (54 * k, 0)⟩)

theorem far_of {p q : Pt ℝ} {r : ℝ} (hr : 0 ≤ r) (h : (p.1 - q.1) ^ 2 + (p.2 - q.2) ^ 2 = r ^ 2) : far p q = r := by
  rw [far, h, sqrt_sq hr]

theorem far_le {p q : Pt ℝ} {r : ℝ} (hr : 0 ≤ r) (h : (p.1 - q.1) ^ 2 + (p.2 - q.2) ^ 2 ≤ r ^ 2) : far p q ≤ r := by
  rw [far]; exact sqrt_le_iff.mpr ⟨hr, h⟩

theorem le_far {p q : Pt ℝ} {r : ℝ} (h : r ^ 2 ≤ (p.1 - q.1) ^ 2 + (p.2 - q.2) ^ 2) : r ≤ far p q := by
  rw [far]; exact le_sqrt_of_sq_le h

/-- The factor of the length of the bisectors is never small. -/
theorem one_le_reach {x : ℝ} (hx : 0 < x) : 1 ≤ max (12 / 10 * x ^ 2) (1 / x ^ 2) := by
  rcases le_total 1 (12 / 10 * x ^ 2) with h | h
  · exact le_trans h (le_max_left _ _)
  · refine le_trans ?_ (le_max_right _ _)
    rw [le_div_iff₀ (by positivity)]; linarith

/-- Enough for a circle to be found. -/
theorem lies_of {tol : ℝ} {s : Pt ℝ} {c : Curve} {o : Pt ℝ} {r : ℝ} (hs : s ≠ c.p) (h0 : 0 < r) (h1 : r < 10 ^ 15) (h2 : far o s = r)
    (h3 : far o (bezier s c (1 / 2)) = r) (h4 : far o c.p = r) (h5 : |far o (bezier s c (1 / 4)) - r| ≤ tol * r)
    (h6 : |far o (bezier s c (3 / 4)) - r| ≤ tol * r) (h7 : far o (mid s (bezier s c (1 / 2))) ≤ far s (bezier s c (1 / 2)))
    (h8 : far o (mid (bezier s c (1 / 2)) c.p) ≤ far (bezier s c (1 / 2)) c.p) : Lies tol s c o r := by
  have hx : 0 < far s c.p := lt_of_le_of_ne (far_nonneg _ _) fun h => hs (far_zero h.symm)
  have h1' := one_le_reach hx
  exact ⟨h0, h1, h2, h3, h4, h5, h6, le_trans h7 (le_mul_of_one_le_left (far_nonneg _ _) h1'), le_trans h8 (le_mul_of_one_le_left (far_nonneg _ _) h1')⟩

/-- **C76 (the wrong way around, violated).** A curve of any size that goes around more than half of a circle becomes the other part of the circle. -/
theorem turn_violated (he : e.Sound) (ht : 0 ≤ e.tol) {k : ℝ} (h0 : 0 < k) (h1 : 45 * k < 10 ^ 15) :
    ∃ a, fit e (around k).1 (around k).2 = some a ∧ ∀ x, a.On x → 72 * k ≤ far x (bezier (around k).1 (around k).2 (1 / 2)) := by
  have hs : (around k).1 ≠ (around k).2.p := fun h => by
    have := congrArg Prod.fst h
    simp only [around] at this
    linarith
  have hm : bezier (around k).1 (around k).2 (1 / 2) = (0, 45 * k) := by
    simp only [bezier, around, Prod.mk.injEq]; constructor <;> ring
  have hL : Lies e.tol (around k).1 (around k).2 (0, 0) (45 * k) := by
    have f1 : ∀ {x : ℝ}, x = 45 * k → |x - 45 * k| ≤ e.tol * (45 * k) := fun h => by
      rw [h, sub_self, abs_zero]; positivity
    refine lies_of hs (by linarith) h1 (far_of (by linarith) (by simp only [around]; ring)) (by rw [hm]; exact far_of (by linarith) (by ring))
      (far_of (by linarith) (by simp only [around]; ring)) (f1 (far_of (by linarith) (by simp only [bezier, around]; ring)))
      (f1 (far_of (by linarith) (by simp only [bezier, around]; ring))) ?_ ?_
    · rw [hm]; simp only [far, mid, around]; apply sqrt_le_sqrt; nlinarith
    · rw [hm]; simp only [far, mid, around]; apply sqrt_le_sqrt; nlinarith
  obtain ⟨a, ha, ho, hr⟩ := fit_lies he hs hL (Or.inl (by simp only [side, around]; constructor <;> intro h <;> nlinarith))
  refine ⟨a, ha, fun x hx => ?_⟩
  obtain ⟨x1, x2⟩ := (fit_shorter he hs ha x).1 hx
  rw [ho, hr] at x1
  have e1 : x.1 ^ 2 + x.2 ^ 2 = (45 * k) ^ 2 := by rw [← x1, far_sq]; ring
  have e2 : x.2 ≤ -27 * k := by
    simp only [sight, around] at x2
    nlinarith
  rw [hm]
  apply le_far
  simp only
  nlinarith [sq_nonneg x.1]

/-- **C76 (loops, violated).** A loop of any size that crosses a circle often enough becomes an arc of it. -/
theorem loop_violated (he : e.Sound) (ht : 0 ≤ e.tol) {k : ℝ} (h0 : 0 < k) (h1 : 555 * k < 10 ^ 15) :
    ∃ a, fit e (loop k).1 (loop k).2 = some a ∧ ∀ x, a.On x → 240 * k ≤ far x (bezier (loop k).1 (loop k).2 (9 / 10)) := by
  have hs : (loop k).1 ≠ (loop k).2.p := fun h => by
    have := congrArg Prod.fst h
    simp only [loop] at this
    linarith
  have hm : bezier (loop k).1 (loop k).2 (1 / 2) = (0, 555 * k) := by
    simp only [bezier, loop, Prod.mk.injEq]; constructor <;> ring
  have hL : Lies e.tol (loop k).1 (loop k).2 (0, 0) (555 * k) := by
    have f1 : ∀ {x : ℝ}, x = 555 * k → |x - 555 * k| ≤ e.tol * (555 * k) := fun h => by
      rw [h, sub_self, abs_zero]; positivity
    refine lies_of hs (by linarith) h1 (far_of (by linarith) (by simp only [loop]; ring)) (by rw [hm]; exact far_of (by linarith) (by ring))
      (far_of (by linarith) (by simp only [loop]; ring)) (f1 (far_of (by linarith) (by simp only [bezier, loop]; ring)))
      (f1 (far_of (by linarith) (by simp only [bezier, loop]; ring))) ?_ ?_
    · rw [hm]; simp only [far, mid, loop]; apply sqrt_le_sqrt; nlinarith
    · rw [hm]; simp only [far, mid, loop]; apply sqrt_le_sqrt; nlinarith
  obtain ⟨a, ha, ho, hr⟩ := fit_lies he hs hL (Or.inl (by simp only [side, loop]; constructor <;> intro h <;> nlinarith))
  refine ⟨a, ha, fun x hx => ?_⟩
  obtain ⟨x1, -⟩ := (fit_shorter he hs ha x).1 hx
  rw [ho, hr] at x1
  -- the point of the curve is near the centre
  have hn : far (0, 0) (bezier (loop k).1 (loop k).2 (9 / 10)) ≤ 315 * k := by
    refine far_le (by linarith) ?_
    simp only [bezier, loop]
    nlinarith [sq_nonneg k]
  have tri : far (0, 0) x ≤ far (0, 0) (bezier (loop k).1 (loop k).2 (9 / 10)) + far x (bezier (loop k).1 (loop k).2 (9 / 10)) := by
    generalize bezier (loop k).1 (loop k).2 (9 / 10) = y
    have ny := far_nonneg ((0, 0) : Pt ℝ) y
    have nx := far_nonneg x y
    refine far_le (add_nonneg ny nx) ?_
    have q1 := far_sq ((0, 0) : Pt ℝ) y
    have q2 := far_sq x y
    simp only at q1 ⊢
    have q3 : (y.1 * (x.1 - y.1) + y.2 * (x.2 - y.2)) ^ 2 ≤ (far (0, 0) y * far x y) ^ 2 := by
      rw [mul_pow, q1, q2]
      nlinarith [sq_nonneg (y.1 * (x.2 - y.2) - y.2 * (x.1 - y.1))]
    have q4 := abs_le_of_sq_le_sq q3 (mul_nonneg ny nx)
    have q5 := le_trans (le_abs_self _) q4
    nlinarith
  linarith

/-- **C76 (half of a circle, violated).** Which half of a circle a curve of any size becomes does not depend on the half that it is: from left to right it is
always the lower one. -/
theorem half_violated (he : e.Sound) (ht : 1 / 10000 ≤ e.tol) {k : ℝ} (h0 : 0 < k) (h1 : 54 * k < 10 ^ 15) :
    ∃ a, fit e (bow k).1 (bow k).2 = some a ∧ ∀ x, a.On x → 76 * k ≤ far x (bezier (bow k).1 (bow k).2 (1 / 2)) := by
  have hs : (bow k).1 ≠ (bow k).2.p := fun h => by
    have := congrArg Prod.fst h
    simp only [bow] at this
    linarith
  have hm : bezier (bow k).1 (bow k).2 (1 / 2) = (0, -54 * k) := by
    simp only [bezier, bow, Prod.mk.injEq]; constructor <;> ring
  have hL : Lies e.tol (bow k).1 (bow k).2 (0, 0) (54 * k) := by
    have f1 : ∀ {p : Pt ℝ}, (54 * k) ^ 2 ≤ p.1 ^ 2 + p.2 ^ 2 → p.1 ^ 2 + p.2 ^ 2 ≤ (54 * k * (1 + 1 / 10000)) ^ 2 →
        |far (0, 0) p - 54 * k| ≤ e.tol * (54 * k) := fun {p} l1 l2 => by
      have g1 : 54 * k ≤ far (0, 0) p := le_far (by simp only; linarith)
      have g2 : far (0, 0) p ≤ 54 * k * (1 + 1 / 10000) := far_le (by linarith) (by simp only; linarith)
      rw [abs_le]
      constructor
      · nlinarith
      · nlinarith
    refine lies_of hs (by linarith) h1 (far_of (by linarith) (by simp only [bow]; ring)) (by rw [hm]; exact far_of (by linarith) (by ring))
      (far_of (by linarith) (by simp only [bow]; ring)) (f1 (by simp only [bezier, bow]; nlinarith) (by simp only [bezier, bow]; nlinarith))
      (f1 (by simp only [bezier, bow]; nlinarith) (by simp only [bezier, bow]; nlinarith)) ?_ ?_
    · rw [hm]; simp only [far, mid, bow]; apply sqrt_le_sqrt; nlinarith
    · rw [hm]; simp only [far, mid, bow]; apply sqrt_le_sqrt; nlinarith
  obtain ⟨a, ha, ho, hr⟩ := fit_lies he hs hL (Or.inl (by simp only [side, bow]; constructor <;> intro h <;> nlinarith))
  refine ⟨a, ha, fun x hx => ?_⟩
  obtain ⟨o, r, rfl, -⟩ := fit_parts he hs ha
  simp only at ho hr
  subst ho hr
  have w0 : angle ((((bow k).1.1 - 0) / (54 * k), ((bow k).1.2 - 0) / (54 * k)) : Pt ℝ) = π := by
    have : ((((bow k).1.1 - 0) / (54 * k), ((bow k).1.2 - 0) / (54 * k)) : Pt ℝ) = (-1, 0) := by
      simp only [bow, Prod.mk.injEq]; constructor
      · field_simp; norm_num
      · simp
    rw [this, angle, show (⟨((-1, 0) : Pt ℝ).1, ((-1, 0) : Pt ℝ).2⟩ : ℂ) = -1 by apply Complex.ext <;> simp]
    exact Complex.arg_neg_one
  have w1 : angle ((((bow k).2.p.1 - 0) / (54 * k), ((bow k).2.p.2 - 0) / (54 * k)) : Pt ℝ) = 0 := by
    have : ((((bow k).2.p.1 - 0) / (54 * k), ((bow k).2.p.2 - 0) / (54 * k)) : Pt ℝ) = (1, 0) := by
      simp only [bow, Prod.mk.injEq]; constructor
      · field_simp; norm_num
      · simp
    rw [this, angle, show (⟨((1, 0) : Pt ℝ).1, ((1, 0) : Pt ℝ).2⟩ : ℂ) = 1 by apply Complex.ext <;> simp]
    exact Complex.arg_one
  rw [w0, w1, zero_sub, shorter, if_neg (by linarith [pi_pos]), if_neg (lt_irrefl _), on_eq] at hx
  obtain ⟨u, u0, u1, rfl⟩ := hx
  rw [hm]
  apply le_far
  simp only [Prod.fst_add, Prod.snd_add, zero_add]
  have hsin : 0 ≤ sin (π + -π * u) := sin_nonneg_of_nonneg_of_le_pi (by nlinarith [pi_pos]) (by nlinarith [pi_pos])
  have hsc := sin_sq_add_cos_sq (π + -π * u)
  generalize sin (π + -π * u) = y at *
  generalize cos (π + -π * u) = x at *
  have : 0 ≤ k ^ 2 * y := by positivity
  have e1 : (54 * k * x - 0) ^ 2 + (54 * k * y - -54 * k) ^ 2 = 54 ^ 2 * k ^ 2 * (y ^ 2 + x ^ 2) + 54 ^ 2 * k ^ 2 + 2 * 54 ^ 2 * (k ^ 2 * y) := by ring
  rw [e1, hsc]
  nlinarith [sq_nonneg k]

/-! ## Examples -/

open Classical in
/-- Lines are intersected exactly. -/
noncomputable def exact (tol : ℝ) : Env where
  tol := tol
  meet l m := if h : (∃ x, OnLine l x ∧ OnLine m x) ∧ (l.2.1 - l.1.1) * (m.2.2 - m.1.2) - (l.2.2 - l.1.2) * (m.2.1 - m.1.1) ≠ 0 then some h.1.choose else none
  closed _ _ := none

theorem exact_sound (tol : ℝ) : (exact tol).Sound where
  sound {l m x} h := by
    simp only [exact] at h
    split at h
    · next hx => rw [Option.some.injEq] at h; rw [← h]; exact hx.1.choose_spec
    · cases h
  complete {l m x} hl hm hd := by
    simp only [exact]
    have hx : ∃ x, OnLine l x ∧ OnLine m x := ⟨x, hl, hm⟩
    rw [dif_pos ⟨hx, hd⟩, Option.some.injEq]
    -- there is only one point
    obtain ⟨⟨u, -, -, e1⟩, ⟨v, -, -, e2⟩⟩ := hx.choose_spec
    obtain ⟨u', -, -, e3⟩ := hl
    obtain ⟨v', -, -, e4⟩ := hm
    generalize hx.choose = y at *
    have c1 := congrArg Prod.fst e1
    have c2 := congrArg Prod.snd e1
    have c3 := congrArg Prod.fst e2
    have c4 := congrArg Prod.snd e2
    have c5 := congrArg Prod.fst e3
    have c6 := congrArg Prod.snd e3
    have c7 := congrArg Prod.fst e4
    have c8 := congrArg Prod.snd e4
    simp only [Prod.fst_add, Prod.snd_add, Prod.smul_fst, Prod.smul_snd, smul_eq_mul] at c1 c2 c3 c4 c5 c6 c7 c8
    have hu : (u - u') * ((l.2.1 - l.1.1) * (m.2.2 - m.1.2) - (l.2.2 - l.1.2) * (m.2.1 - m.1.1)) = 0 := by
      linear_combination (m.2.2 - m.1.2) * (c3 - c1 + c5 - c7) - (m.2.1 - m.1.1) * (c4 - c2 + c6 - c8)
    have hu' : u = u' := by
      have := (mul_eq_zero.mp hu).resolve_right hd
      linarith
    rw [e1, e3, hu']

/-- A curve that goes around most of a circle becomes an arc, with the tolerance of the defaults. -/
example : ∃ a, fit (exact (1 / 1000)) (-36, -27) (around 1).2 = some a := by
  have := turn_violated (exact_sound (1 / 1000)) (by norm_num [exact]) (k := 1) (by norm_num) (by norm_num)
  simp only [around, mul_one] at this ⊢
  obtain ⟨a, ha, -⟩ := this
  exact ⟨a, ha⟩

/-- A line is not recognised. -/
example : fit (exact (1 / 1000)) (0, 0) ⟨(1, 0), (2, 0), (3, 0)⟩ = none := by
  by_contra h
  obtain ⟨a, ha⟩ := Option.ne_none_iff_exists'.mp h
  have hs : ((0, 0) : Pt ℝ) ≠ (⟨(1, 0), (2, 0), (3, 0)⟩ : Curve).p := fun h => by
    have := congrArg Prod.fst h
    norm_num at this
  obtain ⟨⟨o, r, hL⟩, -⟩ := (fit_iff (exact_sound _) hs).mp ⟨a, ha⟩
  obtain ⟨d1, d2⟩ := hL.distinct
  exact hs (not_straight hL.start hL.middle hL.stop d1 d2 (by norm_num [bezier]))

/-- In a path, the curve that goes around becomes an arc and the line stays. -/
example : ∃ a, arcCurves (exact 0) (fun _ => true) (-36, -27) 0 [.curve (around 1).2, .line (0, 0)] = [.arc a (36, -27), .line (0, 0)] := by
  obtain ⟨a, ha, -⟩ := turn_violated (exact_sound 0) le_rfl (k := 1) (by norm_num) (by norm_num)
  have hp : (around 1).2.p = (36, -27) := by simp [around]
  have h1 : (around 1).1 = (-36, -27) := by simp [around]
  refine ⟨a, ?_⟩
  rw [h1] at ha
  simp only [arcCurves, ha, hp, if_true]

end Verif.Fit
