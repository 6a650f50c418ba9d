import Mathlib.Tactic.LinearCombination
import Verif.Fit.Spec

/-!
# Lemmas on circles through points
-/

namespace Verif.Fit

open Real Verif.Gjk Verif.ArcTo

theorem at_eq (s : Pt ℝ) (c : Curve) (t : ℝ) : at_ s c t = bezier s c t := by
  simp only [at_, bezier, Prod.ext_iff, Prod.fst_add, Prod.snd_add, Prod.smul_fst, Prod.smul_snd, smul_eq_mul]
  constructor <;> ring

theorem dist2_eq (p q : Pt ℝ) : dist2 p q = (p.1 - q.1) ^ 2 + (p.2 - q.2) ^ 2 := by simp only [dist2]; ring

theorem dist_eq (p q : Pt ℝ) : dist p q = far p q := by rw [dist, far, dist2_eq]

theorem far_comm (p q : Pt ℝ) : far p q = far q p := by
  rw [far, far]; congr 1; ring

theorem far_sq (p q : Pt ℝ) : far p q ^ 2 = (p.1 - q.1) ^ 2 + (p.2 - q.2) ^ 2 := by
  rw [far, sq_sqrt (by positivity)]

theorem far_nonneg (p q : Pt ℝ) : 0 ≤ far p q := sqrt_nonneg _

theorem far_zero {p q : Pt ℝ} (h : far p q = 0) : p = q := by
  have h1 := far_sq p q
  rw [h] at h1
  have h2 : p.1 - q.1 = 0 := by nlinarith [sq_nonneg (p.1 - q.1), sq_nonneg (p.2 - q.2)]
  have h3 : p.2 - q.2 = 0 := by nlinarith [sq_nonneg (p.1 - q.1), sq_nonneg (p.2 - q.2)]
  exact Prod.ext (by linarith) (by linarith)

theorem far_eq {o p q : Pt ℝ} (h : (o.1 - p.1) ^ 2 + (o.2 - p.2) ^ 2 = (o.1 - q.1) ^ 2 + (o.2 - q.2) ^ 2) : far o p = far o q := by
  rw [far, far, h]

/-- The points of a bisector are as far from the one point as from the other. -/
theorem bisector_even {p q x : Pt ℝ} {k : ℝ} (h : OnLine (bisector p q k) x) : far x p = far x q := by
  obtain ⟨u, -, -, hx⟩ := h
  apply far_eq
  have h1 := congrArg Prod.fst hx
  have h2 := congrArg Prod.snd hx
  simp only [bisector, mid, Prod.fst_add, Prod.snd_add, Prod.smul_fst, Prod.smul_snd, smul_eq_mul, Prod.fst_sub, Prod.snd_sub] at h1 h2
  rw [h1, h2]; ring

/-- A point that is as far from the one point as from the other is on the bisector if that reaches it. -/
theorem bisector_on {p q x : Pt ℝ} {k : ℝ} (hpq : p ≠ q) (hk : 0 < k) (h : far x p = far x q)
    (hr : (x.1 - (p.1 + q.1) / 2) ^ 2 + (x.2 - (p.2 + q.2) / 2) ^ 2 ≤ k ^ 2 * ((p.1 - q.1) ^ 2 + (p.2 - q.2) ^ 2)) : OnLine (bisector p q k) x := by
  have hd : 0 < (p.1 - q.1) ^ 2 + (p.2 - q.2) ^ 2 := by
    rcases (by positivity : 0 ≤ (p.1 - q.1) ^ 2 + (p.2 - q.2) ^ 2).lt_or_eq with hd | hd
    · exact hd
    · refine absurd (far_zero ?_) hpq
      rw [far, ← hd, sqrt_zero]
  have he : (x.1 - p.1) ^ 2 + (x.2 - p.2) ^ 2 = (x.1 - q.1) ^ 2 + (x.2 - q.2) ^ 2 := by rw [← far_sq, ← far_sq, h]
  -- the way from the middle is along the normal
  set d := (p.1 - q.1) ^ 2 + (p.2 - q.2) ^ 2 with hdd
  set j := ((x.1 - (p.1 + q.1) / 2) * (q.2 - p.2) - (x.2 - (p.2 + q.2) / 2) * (q.1 - p.1)) / d with hj
  have hjd : j * d = (x.1 - (p.1 + q.1) / 2) * (q.2 - p.2) - (x.2 - (p.2 + q.2) / 2) * (q.1 - p.1) := by rw [hj]; field_simp
  have e1 : x.1 = (p.1 + q.1) / 2 + j * (q.2 - p.2) := by
    have : (x.1 - (p.1 + q.1) / 2 - j * (q.2 - p.2)) * d = 0 := by
      rw [sub_mul, mul_right_comm, hjd, hdd]; linear_combination (-1 / 2) * (p.1 - q.1) * he
    rcases mul_eq_zero.mp this with h0 | h0
    · linarith
    · exact absurd h0 hd.ne'
  have e2 : x.2 = (p.2 + q.2) / 2 - j * (q.1 - p.1) := by
    have : (x.2 - (p.2 + q.2) / 2 + j * (q.1 - p.1)) * d = 0 := by
      rw [add_mul, mul_right_comm, hjd, hdd]; linear_combination (-1 / 2) * (p.2 - q.2) * he
    rcases mul_eq_zero.mp this with h0 | h0
    · linarith
    · exact absurd h0 hd.ne'
  have hjk : j ^ 2 ≤ k ^ 2 := by
    have h1 : j ^ 2 * d ≤ k ^ 2 * d := by
      refine le_trans (le_of_eq ?_) hr
      rw [e1, e2, hdd]; ring
    exact le_of_mul_le_mul_right h1 hd
  obtain ⟨j1, j2⟩ := abs_le.mp (abs_le_of_sq_le_sq hjk hk.le)
  refine ⟨(j + k) / (2 * k), by apply div_nonneg <;> linarith, by rw [div_le_one (by linarith)]; linarith, ?_⟩
  simp only [bisector, mid, Prod.ext_iff, Prod.fst_add, Prod.snd_add, Prod.smul_fst, Prod.smul_snd, smul_eq_mul, Prod.fst_sub, Prod.snd_sub]
  constructor
  · rw [e1]; field_simp; ring
  · rw [e2]; field_simp; ring

theorem rotate_zero (p : Pt ℝ) : rotate p 0 = p := by simp [rotate]

/-- The direction of a point of the circle. -/
theorem angle_on {o x : Pt ℝ} {r : ℝ} (hr : 0 < r) (h : far o x = r) :
    o + (r * cos (angle ((x.1 - o.1) / r, (x.2 - o.2) / r)), r * sin (angle ((x.1 - o.1) / r, (x.2 - o.2) / r))) = x := by
  have h1 : (o.1 - x.1) ^ 2 + (o.2 - x.2) ^ 2 = r ^ 2 := by rw [← far_sq, h]
  have hu : (((x.1 - o.1) / r, (x.2 - o.2) / r) : Pt ℝ).1 ^ 2 + (((x.1 - o.1) / r, (x.2 - o.2) / r) : Pt ℝ).2 ^ 2 = 1 := by
    simp only; field_simp; linarith
  rw [cos_angle hu, sin_angle hu]
  refine Prod.ext ?_ ?_ <;> simp only [Prod.fst_add, Prod.snd_add] <;> field_simp <;> ring

theorem angleAt_on {tol : ℝ} {o x : Pt ℝ} {r : ℝ} (hr : 0 < r) (h : far o x = r) :
    angleAt tol o r x = some (angle ((x.1 - o.1) / r, (x.2 - o.2) / r)) := by
  have h1 := angle_on hr h
  simp only [angleAt, onCircle, neg_zero, rotate_zero, Prod.fst_sub, Prod.snd_sub, h1]
  rw [if_pos]
  rw [dist2_eq, sub_self, sub_self]
  have : 0 ≤ tol * tol := mul_self_nonneg _
  refine le_trans (le_of_eq (by ring)) (by positivity : 0 ≤ tol * tol * (1 + max r r ^ 2))

theorem shorter_spec {w : ℝ} (h : |w| < 2 * π) : |shorter w| ≤ π ∧ (∀ x, cos (x + shorter w) = cos (x + w)) ∧ ∀ x, sin (x + shorter w) = sin (x + w) := by
  obtain ⟨h1, h2⟩ := abs_lt.mp h
  unfold shorter
  split
  · next h3 => exact ⟨abs_le.mpr ⟨by linarith, by linarith [pi_pos]⟩, fun x => by rw [← add_sub_assoc, cos_sub_two_pi], fun x => by rw [← add_sub_assoc, sin_sub_two_pi]⟩
  · split
    · exact ⟨abs_le.mpr ⟨by linarith [pi_pos], by linarith⟩, fun x => by rw [← add_assoc, cos_add_two_pi], fun x => by rw [← add_assoc, sin_add_two_pi]⟩
    · exact ⟨abs_le.mpr ⟨by linarith, by linarith⟩, fun _ => rfl, fun _ => rfl⟩

/-- Parts of the answer. -/
theorem fit_parts {e : Env} (he : e.Sound) {s : Pt ℝ} {c : Curve} {a : ArcR} (hs : s ≠ c.p) (h : fit e s c = some a) :
    ∃ o r, a = ⟨o, r, r, 0, angle ((s.1 - o.1) / r, (s.2 - o.2) / r), shorter (angle ((c.p.1 - o.1) / r, (c.p.2 - o.2) / r) - angle ((s.1 - o.1) / r, (s.2 - o.2) / r))⟩ ∧
      0 < r ∧ far o s = r ∧ far o (bezier s c (1 / 2)) = r ∧ far o c.p = r ∧ r < 10 ^ 15 ∧ ¬ Apart e.tol s c ∧
      ∀ t ∈ ([1 / 4, 3 / 4] : List ℝ), |far o (bezier s c t) - r| ≤ e.tol * r := by
  simp only [fit, Option.bind_eq_some_iff] at h
  obtain ⟨⟨o, r⟩, hc, w0, h0, w1, h1, ha⟩ := h
  simp only [circle] at hc
  split at hc
  · cases hc
  next hap =>
  rw [Option.bind_eq_some_iff] at hc
  obtain ⟨o', hm, hc⟩ := hc
  split at hc
  · next hck =>
    rw [Option.some.injEq, Prod.mk.injEq] at hc
    obtain ⟨ho, hr⟩ := hc
    subst ho
    rw [hr] at hck
    rw [dist_eq] at hr
    simp only [centre, if_neg hs] at hm
    obtain ⟨l1, l2⟩ := he.sound hm
    have b1 := bisector_even l1
    have b2 := bisector_even l2
    rw [at_eq] at b1 b2
    have hpos : 0 < r := by
      rcases (hr ▸ far_nonneg _ _ : 0 ≤ r).lt_or_eq with h2 | h2
      · exact h2
      · exfalso
        apply hs
        have e1 := far_zero (hr.trans h2.symm)
        have e2 := far_zero ((b2.symm.trans b1.symm).trans (hr.trans h2.symm))
        rw [← e1, ← e2]
    rw [angleAt_on hpos hr, Option.some.injEq] at h0
    rw [angleAt_on hpos (b2.symm.trans (b1.symm.trans hr)), Option.some.injEq] at h1
    rw [Option.some.injEq] at ha
    refine ⟨o', r, ?_, hpos, hr, b1.symm.trans hr, b2.symm.trans (b1.symm.trans hr), hck.1, hap, fun t ht => ?_⟩
    · rw [← ha, ← h0, ← h1]
    · have := hck.2 t ht
      rwa [dist_eq, at_eq, far_comm] at this
  · cases hc

end Verif.Fit
