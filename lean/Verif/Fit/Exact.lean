import Verif.Fit.Props

/-!
# Theorems: when a curve is recognised, and how near the curve is to the circle
-/

namespace Verif.Fit

open Real Verif.Gjk Verif.ArcTo

variable {e : Env} {s : Pt ℝ} {c : Curve} {a : ArcR}

theorem bisector_reach {p q x : Pt ℝ} {k : ℝ} (hk : 0 < k) (h : OnLine (bisector p q k) x) : far x (mid p q) ≤ k * far p q := by
  obtain ⟨u, u0, u1, hx⟩ := h
  have h1 := congrArg Prod.fst hx
  have h2 := congrArg Prod.snd hx
  simp only [bisector, mid, Prod.fst_add, Prod.snd_add, Prod.smul_fst, Prod.smul_snd, smul_eq_mul, Prod.fst_sub, Prod.snd_sub] at h1 h2
  rw [show k * far p q = √(k ^ 2 * ((p.1 - q.1) ^ 2 + (p.2 - q.2) ^ 2)) by rw [sqrt_mul (sq_nonneg k), sqrt_sq hk.le, far], far]
  apply sqrt_le_sqrt
  simp only [mid]
  rw [h1, h2]
  have : (2 * u - 1) ^ 2 ≤ 1 := by nlinarith
  have hd : 0 ≤ k ^ 2 * ((p.1 - q.1) ^ 2 + (p.2 - q.2) ^ 2) := by positivity
  nlinarith [mul_le_mul_of_nonneg_right this hd]

/-- Three points of a circle are not on a line. -/
theorem not_straight {o s m p : Pt ℝ} {r : ℝ} (h1 : far o s = r) (h2 : far o m = r) (h3 : far o p = r) (hsm : m ≠ s) (hmp : m ≠ p)
    (h0 : (m.1 - s.1) * (p.2 - s.2) - (m.2 - s.2) * (p.1 - s.1) = 0) : s = p := by
  by_contra hsp
  have e1 : (o.1 - s.1) ^ 2 + (o.2 - s.2) ^ 2 = r ^ 2 := by rw [← far_sq, h1]
  have e2 : (o.1 - m.1) ^ 2 + (o.2 - m.2) ^ 2 = r ^ 2 := by rw [← far_sq, h2]
  have e3 : (o.1 - p.1) ^ 2 + (o.2 - p.2) ^ 2 = r ^ 2 := by rw [← far_sq, h3]
  have pos : ∀ {x y : Pt ℝ}, x ≠ y → 0 < (x.1 - y.1) ^ 2 + (x.2 - y.2) ^ 2 := fun {x y} hxy => by
    rcases (by positivity : 0 ≤ (x.1 - y.1) ^ 2 + (x.2 - y.2) ^ 2).lt_or_eq with hd | hd
    · exact hd
    · exact absurd (far_zero (by rw [far, ← hd, sqrt_zero])) hxy
  have d1 := pos hsp
  have d2 := pos hsm
  have d3 := pos hmp
  -- the chord to the middle and that to the end
  have f1 : ((m.1 - s.1) ^ 2 + (m.2 - s.2) ^ 2) * ((s.1 - p.1) ^ 2 + (s.2 - p.2) ^ 2) =
      ((m.1 - s.1) * (p.1 - s.1) + (m.2 - s.2) * (p.2 - s.2)) * ((s.1 - p.1) ^ 2 + (s.2 - p.2) ^ 2) := by
    linear_combination (((s.1 - p.1) ^ 2 + (s.2 - p.2) ^ 2)) * (e2 - e1) - ((m.1 - s.1) * (p.1 - s.1) + (m.2 - s.2) * (p.2 - s.2)) * (e3 - e1) +
      2 * ((o.1 - s.1) * (p.2 - s.2) - (o.2 - s.2) * (p.1 - s.1)) * h0
  have f2 := mul_right_cancel₀ d1.ne' f1
  have f3 : ((m.1 - s.1) ^ 2 + (m.2 - s.2) ^ 2) * ((m.1 - p.1) ^ 2 + (m.2 - p.2) ^ 2) = 0 := by
    have g1 : (m.1 - s.1) * (m.1 - p.1) + (m.2 - s.2) * (m.2 - p.2) = 0 := by linear_combination f2
    have g2 : (m.1 - s.1) * (m.2 - p.2) - (m.2 - s.2) * (m.1 - p.1) = 0 := by linear_combination -h0
    linear_combination ((m.1 - s.1) * (m.1 - p.1) + (m.2 - s.2) * (m.2 - p.2)) * g1 + ((m.1 - s.1) * (m.2 - p.2) - (m.2 - s.2) * (m.1 - p.1)) * g2
  have := mul_pos d2 d3
  linarith

theorem reach_pos {s p : Pt ℝ} (h : s ≠ p) : 0 < reach s p := by
  refine lt_of_lt_of_le (inv_pos.mpr ?_) (le_max_right _ _)
  rw [dist2_eq, ← far_sq]
  have : far s p ≠ 0 := fun h0 => h (far_zero h0)
  positivity

/-- The circle on which a curve is found to be. -/
structure Lies (tol : ℝ) (s : Pt ℝ) (c : Curve) (o : Pt ℝ) (r : ℝ) : Prop where
  pos : 0 < r
  small : r < 10 ^ 15
  /-- The ends and the middle are on it. -/
  start : far o s = r
  middle : far o (bezier s c (1 / 2)) = r
  stop : far o c.p = r
  /-- The quarters are near it. -/
  quarter : |far o (bezier s c (1 / 4)) - r| ≤ tol * r
  quarters : |far o (bezier s c (3 / 4)) - r| ≤ tol * r
  /-- Its centre is not too far from the chords of the halves. -/
  near : far o (mid s (bezier s c (1 / 2))) ≤ max (12 / 10 * far s c.p ^ 2) (1 / far s c.p ^ 2) * far s (bezier s c (1 / 2))
  near' : far o (mid (bezier s c (1 / 2)) c.p) ≤ max (12 / 10 * far s c.p ^ 2) (1 / far s c.p ^ 2) * far (bezier s c (1 / 2)) c.p

theorem reach_eq (s p : Pt ℝ) : reach s p = max (12 / 10 * far s p ^ 2) (1 / far s p ^ 2) := by
  rw [reach, dist2_eq, ← far_sq, mul_comm, one_div]

theorem far_self (x : Pt ℝ) : far x x = 0 := by rw [far]; simp

theorem Lies.distinct {tol : ℝ} {o : Pt ℝ} {r : ℝ} (h : Lies tol s c o r) : bezier s c (1 / 2) ≠ s ∧ bezier s c (1 / 2) ≠ c.p := by
  have hm : ∀ x : Pt ℝ, mid x x = x := fun x => by ext <;> simp only [mid] <;> ring
  constructor <;> intro h0
  · have n := h.near
    rw [h0, hm, far_self, mul_zero, h.start] at n
    exact absurd h.pos (not_lt.mpr n)
  · have n := h.near'
    rw [h0, hm, far_self, mul_zero, h.stop] at n
    exact absurd h.pos (not_lt.mpr n)

/-- **C76 (which curves).** A curve becomes an arc exactly if it is on a circle, as far as ends, middle and quarters tell, and its controls are not on
different sides of the chord. -/
theorem fit_iff (he : e.Sound) (hs : s ≠ c.p) :
    (∃ a, fit e s c = some a) ↔
      (∃ o r, Lies e.tol s c o r) ∧ ((0 ≤ side s c.p c.a ↔ 0 ≤ side s c.p c.b) ∨ (side s c.p c.a ≤ e.tol ∧ side s c.p c.b ≤ e.tol)) := by
  have hap : Apart e.tol s c ↔ ¬ ((0 ≤ side s c.p c.a ↔ 0 ≤ side s c.p c.b) ∨ (side s c.p c.a ≤ e.tol ∧ side s c.p c.b ≤ e.tol)) := by
    simp only [Apart, side, cross, not_or, not_and_or, not_le]
  constructor
  · rintro ⟨a, h⟩
    obtain ⟨o, r, ha, h1, h2, h3, h4, h5, h6, h7⟩ := fit_parts he hs h
    refine ⟨⟨o, r, h1, h5, h2, h3, h4, h7 _ (by simp), h7 _ (by simp), ?_, ?_⟩, by rw [hap, not_not] at h6; exact h6⟩
    all_goals
      -- where the bisectors meet
      simp only [fit, Option.bind_eq_some_iff] at h
      obtain ⟨⟨o', r'⟩, hc, w0, -, w1, -, ha'⟩ := h
      rw [ha, Option.some.injEq, ArcR.mk.injEq] at ha'
      obtain ⟨ho, -⟩ := ha'
      simp only at ho
      subst ho
      simp only [circle, if_neg h6, Option.bind_eq_some_iff] at hc
      obtain ⟨o2, hm, hc⟩ := hc
      split at hc
      swap
      · cases hc
      rw [Option.some.injEq, Prod.mk.injEq] at hc
      rw [hc.1] at hm
      simp only [centre, if_neg hs] at hm
      obtain ⟨l1, l2⟩ := he.sound hm
      rw [at_eq] at l1 l2
      rw [← reach_eq]
    · exact bisector_reach (reach_pos hs) l1
    · exact bisector_reach (reach_pos hs) l2
  · rintro ⟨⟨o, r, hL⟩, h6⟩
    rw [← not_not (a := _ ∨ _), ← hap] at h6
    have hk := reach_pos hs
    have n1 := hL.near
    have n2 := hL.near'
    rw [← reach_eq] at n1 n2
    obtain ⟨hsm, hmp⟩ := hL.distinct
    have sq : ∀ {x y k z : ℝ}, 0 ≤ x → x ≤ k * z → x ^ 2 ≤ k ^ 2 * z ^ 2 := fun {x y k z} h0 h => by
      rw [← mul_pow]; exact pow_le_pow_left₀ h0 h 2
    have l1 : OnLine (bisector s (bezier s c (1 / 2)) (reach s c.p)) o := by
      refine bisector_on hsm.symm hk (hL.start.trans hL.middle.symm) ?_
      have := sq (y := 0) (far_nonneg _ _) n1
      rw [far_sq, far_sq] at this
      exact this
    have l2 : OnLine (bisector (bezier s c (1 / 2)) c.p (reach s c.p)) o := by
      refine bisector_on hmp hk (hL.middle.trans hL.stop.symm) ?_
      have := sq (y := 0) (far_nonneg _ _) n2
      rw [far_sq, far_sq] at this
      exact this
    have hm : e.meet (bisector s (bezier s c (1 / 2)) (reach s c.p)) (bisector (bezier s c (1 / 2)) c.p (reach s c.p)) = some o := by
      refine he.complete l1 l2 fun h0 => hs (not_straight hL.start hL.middle hL.stop hsm hmp ?_)
      simp only [bisector, mid, Prod.fst_add, Prod.snd_add, Prod.smul_fst, Prod.smul_snd, smul_eq_mul, Prod.fst_sub, Prod.snd_sub] at h0
      generalize reach s c.p = k at *
      have : 4 * k ^ 2 * (((bezier s c (1 / 2)).1 - s.1) * (c.p.2 - s.2) - ((bezier s c (1 / 2)).2 - s.2) * (c.p.1 - s.1)) = 0 := by
        linear_combination h0
      exact (mul_eq_zero.mp this).resolve_left (by positivity)
    have hc : circle e s c = some (o, r) := by
      simp only [circle, if_neg h6, centre, if_neg hs]
      rw [at_eq, hm, Option.bind_some, dist_eq, hL.start, if_pos]
      refine ⟨hL.small, fun t ht => ?_⟩
      rw [dist_eq, at_eq, far_comm]
      simp only [List.mem_cons, List.not_mem_nil, or_false] at ht
      rcases ht with rfl | rfl
      · exact hL.quarter
      · exact hL.quarters
    simp only [fit, hc, Option.bind_some, angleAt_on hL.pos hL.start, angleAt_on hL.pos hL.stop]
    exact ⟨_, rfl⟩

/-- The circle is the only one. -/
theorem fit_lies (he : e.Sound) (hs : s ≠ c.p) {o : Pt ℝ} {r : ℝ} (hL : Lies e.tol s c o r)
    (h6 : (0 ≤ side s c.p c.a ↔ 0 ≤ side s c.p c.b) ∨ (side s c.p c.a ≤ e.tol ∧ side s c.p c.b ≤ e.tol)) :
    ∃ a, fit e s c = some a ∧ a.center = o ∧ a.rx = r := by
  obtain ⟨a, h⟩ := (fit_iff he hs).mpr ⟨⟨o, r, hL⟩, h6⟩
  refine ⟨a, h, ?_⟩
  obtain ⟨o', r', rfl, h1, h2, h3, h4, -, -⟩ := fit_parts he hs h
  have e1 : (o.1 - s.1) ^ 2 + (o.2 - s.2) ^ 2 = (o.1 - (bezier s c (1 / 2)).1) ^ 2 + (o.2 - (bezier s c (1 / 2)).2) ^ 2 := by
    rw [← far_sq, ← far_sq, hL.start, hL.middle]
  have e2 : (o.1 - s.1) ^ 2 + (o.2 - s.2) ^ 2 = (o.1 - c.p.1) ^ 2 + (o.2 - c.p.2) ^ 2 := by
    rw [← far_sq, ← far_sq, hL.start, hL.stop]
  have e3 : (o'.1 - s.1) ^ 2 + (o'.2 - s.2) ^ 2 = (o'.1 - (bezier s c (1 / 2)).1) ^ 2 + (o'.2 - (bezier s c (1 / 2)).2) ^ 2 := by
    rw [← far_sq, ← far_sq, h2, h3]
  have e4 : (o'.1 - s.1) ^ 2 + (o'.2 - s.2) ^ 2 = (o'.1 - c.p.1) ^ 2 + (o'.2 - c.p.2) ^ 2 := by
    rw [← far_sq, ← far_sq, h2, h4]
  obtain ⟨hsm, hmp⟩ := hL.distinct
  have hd : ((bezier s c (1 / 2)).1 - s.1) * (c.p.2 - s.2) - ((bezier s c (1 / 2)).2 - s.2) * (c.p.1 - s.1) ≠ 0 := fun h0 =>
    hs (not_straight hL.start hL.middle hL.stop hsm hmp h0)
  generalize bezier s c (1 / 2) = m at *
  have f1 : (o'.1 - o.1) * ((m.1 - s.1) * (c.p.2 - s.2) - (m.2 - s.2) * (c.p.1 - s.1)) = 0 := by
    linear_combination (1 / 2) * (c.p.2 - s.2) * (e3 - e1) - (1 / 2) * (m.2 - s.2) * (e4 - e2)
  have f2 : (o'.2 - o.2) * ((m.1 - s.1) * (c.p.2 - s.2) - (m.2 - s.2) * (c.p.1 - s.1)) = 0 := by
    linear_combination (1 / 2) * (m.1 - s.1) * (e4 - e2) - (1 / 2) * (c.p.1 - s.1) * (e3 - e1)
  have g1 := (mul_eq_zero.mp f1).resolve_right hd
  have g2 := (mul_eq_zero.mp f2).resolve_right hd
  have : o' = o := Prod.ext (by linarith) (by linarith)
  subst this
  exact ⟨rfl, h2.symm.trans hL.start⟩

/-! ## How near the curve is to the circle -/

/-- How far a point of the curve is from the circle, in squares. -/
def gap (s : Pt ℝ) (c : Curve) (o : Pt ℝ) (r t : ℝ) : ℝ := ((bezier s c t).1 - o.1) ^ 2 + ((bezier s c t).2 - o.2) ^ 2 - r ^ 2

/-- The gap is a polynomial of degree six, whose values are known at five places, and its leading coefficient and its slope at the start. -/
theorem gap_eq (s : Pt ℝ) (c : Curve) (o : Pt ℝ) (r t : ℝ) (h0 : gap s c o r 0 = 0) (h2 : gap s c o r (1 / 2) = 0) (h4 : gap s c o r 1 = 0) :
    gap s c o r t = t * (t - 1 / 4) * (t - 1 / 2) * (t - 3 / 4) * (t - 1) *
        (((c.p.1 - s.1 + 3 * (c.a.1 - c.b.1)) ^ 2 + (c.p.2 - s.2 + 3 * (c.a.2 - c.b.2)) ^ 2) * t +
          64 * ((s.1 - o.1) * (c.a.1 - s.1) + (s.2 - o.2) * (c.a.2 - s.2))) -
      512 / 3 * (t ^ 2 * (t - 1 / 2) * (t - 3 / 4) * (t - 1)) * gap s c o r (1 / 4) -
      512 / 9 * (t ^ 2 * (t - 1 / 4) * (t - 1 / 2) * (t - 1)) * gap s c o r (3 / 4) := by
  simp only [gap, bezier] at *
  linear_combination 32 / 3 * (t - 1 / 4) * (t - 1 / 2) * (t - 3 / 4) * (t - 1) * (1 + 25 / 3 * t) * h0 +
    128 * t ^ 2 * (t - 1 / 4) * (t - 3 / 4) * (t - 1) * h2 + 32 / 3 * t ^ 2 * (t - 1 / 4) * (t - 1 / 2) * (t - 3 / 4) * h4

theorem node_bound {t : ℝ} (h0 : 0 ≤ t) (h1 : t ≤ 1) : |t * (t - 1 / 4) * (t - 1 / 2) * (t - 3 / 4) * (t - 1)| ≤ 1 / 256 := by
  apply abs_le_of_sq_le_sq _ (by norm_num)
  obtain ⟨w, hw⟩ : ∃ w, w = 16 * (t - 1 / 2) ^ 2 := ⟨_, rfl⟩
  have w0 : 0 ≤ w := by rw [hw]; positivity
  have w4 : w ≤ 4 := by rw [hw]; nlinarith
  have e : (t * (t - 1 / 4) * (t - 1 / 2) * (t - 3 / 4) * (t - 1)) ^ 2 = w * ((w - 1) * (4 - w)) ^ 2 / 16 ^ 5 := by rw [hw]; ring
  rw [e]
  have : w * ((w - 1) * (4 - w)) ^ 2 ≤ 16 := by
    have u1 : w * (4 - w) ≤ 4 := by nlinarith [sq_nonneg (w - 2)]
    have u2 : (4 - w) * (w - 1) ^ 2 ≤ 4 := by nlinarith [mul_nonneg w0 (sq_nonneg (w - 3))]
    have u3 : 0 ≤ w * (4 - w) := mul_nonneg w0 (by linarith)
    nlinarith [mul_le_mul u1 u2 (mul_nonneg (by linarith) (sq_nonneg _)) (by norm_num : (0 : ℝ) ≤ 4)]
  linarith

/-- Products of three bounded factors. -/
theorem three {x y z a b c : ℝ} (hx : |x| ≤ a) (hy : |y| ≤ b) (hz : |z| ≤ c) : |x * y * z| ≤ a * b * c := by
  rw [abs_mul, abs_mul]
  have h1 := mul_le_mul hx hy (abs_nonneg _) (le_trans (abs_nonneg _) hx)
  exact mul_le_mul h1 hz (abs_nonneg _) (le_trans (mul_nonneg (abs_nonneg _) (abs_nonneg _)) h1)

theorem first_bound {t : ℝ} (h0 : 0 ≤ t) (h1 : t ≤ 1) : |512 / 3 * (t ^ 2 * (t - 1 / 2) * (t - 3 / 4) * (t - 1))| ≤ 2 := by
  rw [abs_mul, abs_of_pos (by norm_num : (0 : ℝ) < 512 / 3)]
  rcases le_total t (1 / 2) with h | h
  · have := three (x := t * (t - 1 / 2)) (y := t * (t - 3 / 4)) (z := t - 1) (a := 1 / 16) (b := 9 / 64) (c := 1)
      (abs_le.mpr ⟨by nlinarith [sq_nonneg (t - 1 / 4)], by nlinarith⟩) (abs_le.mpr ⟨by nlinarith [sq_nonneg (t - 3 / 8)], by nlinarith⟩) (abs_le.mpr ⟨by linarith, by linarith⟩)
    rw [show t ^ 2 * (t - 1 / 2) * (t - 3 / 4) * (t - 1) = t * (t - 1 / 2) * (t * (t - 3 / 4)) * (t - 1) by ring]
    linarith
  rcases le_total t (3 / 4) with h' | h'
  · have := three (x := (t - 1 / 2) * (t - 3 / 4)) (y := t ^ 2) (z := t - 1) (a := 1 / 64) (b := 9 / 16) (c := 1 / 2)
      (abs_le.mpr ⟨by nlinarith [sq_nonneg (t - 5 / 8)], by nlinarith⟩) (abs_le.mpr ⟨by nlinarith, by nlinarith⟩) (abs_le.mpr ⟨by linarith, by linarith⟩)
    rw [show t ^ 2 * (t - 1 / 2) * (t - 3 / 4) * (t - 1) = (t - 1 / 2) * (t - 3 / 4) * t ^ 2 * (t - 1) by ring]
    linarith
  · have := three (x := (t - 3 / 4) * (t - 1)) (y := t ^ 2) (z := t - 1 / 2) (a := 1 / 64) (b := 1) (c := 1 / 2)
      (abs_le.mpr ⟨by nlinarith [sq_nonneg (t - 7 / 8)], by nlinarith⟩) (abs_le.mpr ⟨by nlinarith, by nlinarith⟩) (abs_le.mpr ⟨by linarith, by linarith⟩)
    rw [show t ^ 2 * (t - 1 / 2) * (t - 3 / 4) * (t - 1) = (t - 3 / 4) * (t - 1) * t ^ 2 * (t - 1 / 2) by ring]
    linarith

theorem third_bound {t : ℝ} (h0 : 0 ≤ t) (h1 : t ≤ 1) : |512 / 9 * (t ^ 2 * (t - 1 / 4) * (t - 1 / 2) * (t - 1))| ≤ 3 := by
  rw [abs_mul, abs_of_pos (by norm_num : (0 : ℝ) < 512 / 9)]
  rcases le_total t (1 / 4) with h | h
  · have := three (x := (t - 1 / 4) * (t - 1 / 2)) (y := t ^ 2) (z := t - 1) (a := 1 / 8) (b := 1 / 16) (c := 1)
      (abs_le.mpr ⟨by nlinarith, by nlinarith⟩) (abs_le.mpr ⟨by nlinarith, by nlinarith⟩) (abs_le.mpr ⟨by linarith, by linarith⟩)
    rw [show t ^ 2 * (t - 1 / 4) * (t - 1 / 2) * (t - 1) = (t - 1 / 4) * (t - 1 / 2) * t ^ 2 * (t - 1) by ring]
    linarith
  rcases le_total t (1 / 2) with h' | h'
  · have := three (x := (t - 1 / 4) * (t - 1 / 2)) (y := t ^ 2) (z := t - 1) (a := 1 / 64) (b := 1 / 4) (c := 1)
      (abs_le.mpr ⟨by nlinarith [sq_nonneg (t - 3 / 8)], by nlinarith⟩) (abs_le.mpr ⟨by nlinarith, by nlinarith⟩) (abs_le.mpr ⟨by linarith, by linarith⟩)
    rw [show t ^ 2 * (t - 1 / 4) * (t - 1 / 2) * (t - 1) = (t - 1 / 4) * (t - 1 / 2) * t ^ 2 * (t - 1) by ring]
    linarith
  · have := three (x := (t - 1 / 2) * (t - 1)) (y := t ^ 2) (z := t - 1 / 4) (a := 1 / 16) (b := 1) (c := 3 / 4)
      (abs_le.mpr ⟨by nlinarith [sq_nonneg (t - 3 / 4)], by nlinarith⟩) (abs_le.mpr ⟨by nlinarith, by nlinarith⟩) (abs_le.mpr ⟨by linarith, by linarith⟩)
    rw [show t ^ 2 * (t - 1 / 4) * (t - 1 / 2) * (t - 1) = (t - 1 / 2) * (t - 1) * t ^ 2 * (t - 1 / 4) by ring]
    linarith

/-- **C76 (how near, partial).** All of the curve is near the circle, in squared distances, if it is near to a quadratic curve and starts
perpendicular to the radius. -/
theorem fit_near_partial (he : e.Sound) (ht : 0 ≤ e.tol) (hs : s ≠ c.p) (h : fit e s c = some a) {t : ℝ} (h0 : 0 ≤ t) (h1 : t ≤ 1) :
    |far a.center (bezier s c t) ^ 2 - a.rx ^ 2| ≤
      ((c.p.1 - s.1 + 3 * (c.a.1 - c.b.1)) ^ 2 + (c.p.2 - s.2 + 3 * (c.a.2 - c.b.2)) ^ 2) / 256 +
        |(s.1 - a.center.1) * (c.a.1 - s.1) + (s.2 - a.center.2) * (c.a.2 - s.2)| / 4 + 5 * (2 * e.tol + e.tol ^ 2) * a.rx ^ 2 := by
  obtain ⟨-, -, hr, -, p0, p2, p4, p1, p3⟩ := fit_circle he hs h
  have hg : ∀ t, gap s c a.center a.rx t = far a.center (bezier s c t) ^ 2 - a.rx ^ 2 := fun t => by rw [far_sq, gap]; ring
  have hb0 : bezier s c 0 = s := by ext <;> simp [bezier]
  have hb1 : bezier s c 1 = c.p := by ext <;> simp [bezier]
  have g0 : gap s c a.center a.rx 0 = 0 := by rw [hg, hb0, p0, sub_self]
  have g2 : gap s c a.center a.rx (1 / 2) = 0 := by rw [hg, p2, sub_self]
  have g4 : gap s c a.center a.rx 1 = 0 := by rw [hg, hb1, p4, sub_self]
  have dev : ∀ {f : ℝ}, |f - a.rx| ≤ e.tol * a.rx → |f ^ 2 - a.rx ^ 2| ≤ (2 * e.tol + e.tol ^ 2) * a.rx ^ 2 := fun {f} hf => by
    have h2 : |f + a.rx| ≤ e.tol * a.rx + 2 * a.rx := by
      rw [show f + a.rx = (f - a.rx) + 2 * a.rx by ring]
      refine le_trans (abs_add_le _ _) (add_le_add hf (le_of_eq (abs_of_pos (by linarith))))
    rw [show f ^ 2 - a.rx ^ 2 = (f - a.rx) * (f + a.rx) by ring, abs_mul]
    refine le_trans (mul_le_mul hf h2 (abs_nonneg _) (by positivity)) (le_of_eq (by ring))
  have d1 := dev p1
  have d3 := dev p3
  rw [← hg] at d1 d3 ⊢
  rw [gap_eq s c a.center a.rx t g0 g2 g4]
  have nb := node_bound h0 h1
  have fb := first_bound h0 h1
  have tb := third_bound h0 h1
  set δ := (2 * e.tol + e.tol ^ 2) * a.rx ^ 2 with hδ
  have hδ0 : 0 ≤ δ := le_trans (abs_nonneg _) d1
  generalize gap s c a.center a.rx (1 / 4) = y1 at *
  generalize gap s c a.center a.rx (3 / 4) = y3 at *
  generalize t * (t - 1 / 4) * (t - 1 / 2) * (t - 3 / 4) * (t - 1) = q at *
  generalize 512 / 3 * (t ^ 2 * (t - 1 / 2) * (t - 3 / 4) * (t - 1)) = m1 at *
  generalize 512 / 9 * (t ^ 2 * (t - 1 / 4) * (t - 1 / 2) * (t - 1)) = m3 at *
  have hA : 0 ≤ (c.p.1 - s.1 + 3 * (c.a.1 - c.b.1)) ^ 2 + (c.p.2 - s.2 + 3 * (c.a.2 - c.b.2)) ^ 2 := by positivity
  generalize (c.p.1 - s.1 + 3 * (c.a.1 - c.b.1)) ^ 2 + (c.p.2 - s.2 + 3 * (c.a.2 - c.b.2)) ^ 2 = A at *
  generalize (s.1 - a.center.1) * (c.a.1 - s.1) + (s.2 - a.center.2) * (c.a.2 - s.2) = v at *
  have k1 : |q * (A * t + 64 * v)| ≤ 1 / 256 * (A + 64 * |v|) := by
    rw [abs_mul]
    refine mul_le_mul nb ?_ (abs_nonneg _) (by norm_num)
    refine le_trans (abs_add_le _ _) (add_le_add ?_ (le_of_eq ?_))
    · rw [abs_mul, abs_of_nonneg hA, abs_of_nonneg h0]; nlinarith
    · rw [abs_mul, abs_of_pos (by norm_num : (0 : ℝ) < 64)]
  have k2 : |m1 * y1| ≤ 2 * δ := by rw [abs_mul]; exact mul_le_mul fb d1 (abs_nonneg _) (by norm_num)
  have k3 : |m3 * y3| ≤ 3 * δ := by rw [abs_mul]; exact mul_le_mul tb d3 (abs_nonneg _) (by norm_num)
  have k4 : |q * (A * t + 64 * v) - m1 * y1 - m3 * y3| ≤ |q * (A * t + 64 * v)| + |m1 * y1| + |m3 * y3| :=
    le_trans (abs_sub _ _) (add_le_add (abs_sub _ _) le_rfl)
  linarith

end Verif.Fit
