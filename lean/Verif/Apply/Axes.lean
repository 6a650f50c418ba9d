import Verif.Apply.Geometry

/-!
# The axes computed for the image of an ellipse
-/

namespace Verif.Apply

open Real Verif.Transform

/-- The Gram matrix of a linear map. -/
def Lin.gram (n : Lin) : Gram := ⟨n.p ^ 2 + n.r ^ 2, n.p * n.q + n.r * n.s, n.q ^ 2 + n.s ^ 2⟩

def Lin.det (n : Lin) : ℝ := n.p * n.s - n.q * n.r

theorem root_sq (n : Lin) : n.root ^ 2 = n.squareSum ^ 2 - 4 * n.det ^ 2 := by
  rw [Lin.root, mul_pow, hypot_sq, hypot_sq, Lin.squareSum, Lin.lastCol, Lin.det]
  ring

theorem root_nonneg (n : Lin) : 0 ≤ n.root := mul_nonneg (sqrt_nonneg _) (sqrt_nonneg _)

theorem squareSum_nonneg (n : Lin) : 0 ≤ n.squareSum := by
  unfold Lin.squareSum Lin.lastCol
  linarith [mul_self_nonneg n.p, mul_self_nonneg n.q, mul_self_nonneg n.r, mul_self_nonneg n.s]

theorem minor_nonneg (n : Lin) : 0 ≤ n.minorSquare := by
  unfold Lin.minorSquare
  have h1 := root_sq n
  have h2 := root_nonneg n
  have h3 := squareSum_nonneg n
  have : n.root ≤ n.squareSum := by
    by_contra h
    nlinarith [sq_nonneg n.det]
  linarith

theorem major_nonneg (n : Lin) : 0 ≤ n.majorSquare := by
  unfold Lin.majorSquare
  linarith [root_nonneg n, squareSum_nonneg n]

/-- The squares of the axes are the eigenvalues. -/
theorem eigenvalue (n : Lin) (l : ℝ) (h : l = n.majorSquare ∨ l = n.minorSquare) :
    l ^ 2 - n.squareSum * l + n.det ^ 2 = 0 := by
  have := root_sq n
  rcases h with rfl | rfl
  · unfold Lin.majorSquare; linear_combination this / 4
  · unfold Lin.minorSquare; linear_combination this / 4

/-- The vector of the two terms is an eigenvector of the Gram matrix. -/
theorem eigenvector (n : Lin) (l : ℝ) (hl : l ^ 2 - n.squareSum * l + n.det ^ 2 = 0) (hs : n.sub = l - n.lastCol) :
    n.gram.xx * n.term1 + n.gram.xy * n.term2 = l * n.term1 ∧
    n.gram.xy * n.term1 + n.gram.yy * n.term2 = l * n.term2 := by
  unfold Lin.term1 Lin.term2 Lin.rowsSum Lin.gram
  rw [hs]
  unfold Lin.squareSum Lin.det Lin.lastCol at *
  constructor
  · linear_combination (-n.p) * hl
  · linear_combination (-n.q) * hl

theorem hypot_ne {x y : ℝ} (h : hypot x y ≠ 0) : x ^ 2 + y ^ 2 ≠ 0 := by
  intro h0
  apply h
  unfold hypot
  rw [h0, sqrt_zero]

/-- An ellipse with an eigenvector as first axis has the Gram matrix. -/
theorem gram_of_eigen {g : Gram} {l1 l2 c s : ℝ} (hcs : c ^ 2 + s ^ 2 = 1) (h1 : g.xx * c + g.xy * s = l1 * c)
    (h2 : g.xy * c + g.yy * s = l1 * s) (ht : l1 + l2 = g.xx + g.yy) {rx ry : ℝ} (hx : rx ^ 2 = l1) (hy : ry ^ 2 = l2) :
    gram rx ry c s = g := by
  obtain ⟨xx, xy, yy⟩ := g
  simp only at h1 h2 ht
  have e : l2 = xx + yy - l1 := by linarith
  unfold gram
  rw [hx, hy, e]
  congr 1
  · linear_combination xx * hcs - c * h1 + s * h2
  · linear_combination xy * hcs - s * h1 - c * h2
  · linear_combination yy * hcs + c * h1 - s * h2

theorem axes_gram (n : Lin) (x : ℝ × ℝ × ℝ) (h : axes n = some x) :
    gram x.1 x.2.1 (cos (x.2.2 * π / 180)) (sin (x.2.2 * π / 180)) = n.gram := by
  unfold axes at h
  split at h
  · next h0 =>
    simp only [Option.some.injEq] at h
    subst h
    have hs := squareSum_nonneg n
    simp only [zero_mul, zero_div, cos_zero, sin_zero, gram]
    rw [sq_sqrt (by linarith)]
    have hz : (n.p = n.s ∧ n.q = -n.r) ∨ (n.p = -n.s ∧ n.q = n.r) := by
      rw [Lin.root, mul_eq_zero] at h0
      rcases h0 with h0 | h0
      · left
        have := hypot_sq (n.p - n.s) (n.q + n.r)
        rw [h0] at this
        constructor <;> nlinarith [sq_nonneg (n.p - n.s), sq_nonneg (n.q + n.r)]
      · right
        have := hypot_sq (n.p + n.s) (n.q - n.r)
        rw [h0] at this
        constructor <;> nlinarith [sq_nonneg (n.p + n.s), sq_nonneg (n.q - n.r)]
    unfold Lin.gram Lin.squareSum Lin.lastCol
    rcases hz with ⟨e1, e2⟩ | ⟨e1, e2⟩ <;> rw [e1, e2] <;> congr 1 <;> ring
  · rw [Option.map_eq_some_iff] at h
    obtain ⟨φ, h1, rfl⟩ := h
    unfold Lin.angle at h1
    split at h1
    · simp at h1
    next hne =>
    simp only [Option.some.injEq] at h1
    have hpi := pi_ne_zero
    have tr : n.majorSquare + n.minorSquare = n.gram.xx + n.gram.yy := by
      unfold Lin.majorSquare Lin.minorSquare Lin.gram Lin.squareSum Lin.lastCol
      ring
    have hsum := hypot_ne hne
    have hh := hypot_sq n.term1 n.term2
    by_cases hmaj : n.major
    · simp only [hmaj, true_and, not_true_eq_false, false_and, or_false, if_true] at h1
      have hang := angle_qrab (a := n.term1) (b := n.term2) hne
      have hφ : φ * π / 180 = if n.term2 < 0 then arccos (n.term1 / hypot n.term1 n.term2) * -1
          else arccos (n.term1 / hypot n.term1 n.term2) := by
        rw [← h1]
        split <;> field_simp
      dsimp only
      rw [hφ, hang.1, hang.2]
      obtain ⟨v1, v2⟩ := eigenvector n n.majorSquare (eigenvalue n _ (.inl rfl)) (by rw [Lin.sub, if_pos hmaj])
      apply gram_of_eigen (l1 := n.majorSquare) (l2 := n.minorSquare) _ _ _ tr (sq_sqrt (major_nonneg n))
        (sq_sqrt (minor_nonneg n))
      · rw [div_pow, div_pow, ← add_div, hh, div_self hsum]
      · field_simp; linarith
      · field_simp; linarith
    · simp only [hmaj, false_and, not_false_eq_true, true_and, false_or, if_false] at h1
      have hne' : hypot n.term2 (-n.term1) ≠ 0 := by
        rwa [show hypot n.term2 (-n.term1) = hypot n.term1 n.term2 by unfold hypot; congr 1; ring]
      have hang := angle_qrab (a := n.term2) (b := -n.term1) hne'
      rw [show hypot n.term2 (-n.term1) = hypot n.term1 n.term2 by unfold hypot; congr 1; ring] at hang
      have hφ : φ * π / 180 = if -n.term1 < 0 then arccos (n.term2 / hypot n.term1 n.term2) * -1
          else arccos (n.term2 / hypot n.term1 n.term2) := by
        rw [← h1]
        simp only [neg_lt_zero, gt_iff_lt]
        split <;> field_simp
      dsimp only
      rw [hφ, hang.1, hang.2]
      obtain ⟨v1, v2⟩ := eigenvector n n.minorSquare (eigenvalue n _ (.inr rfl)) (by rw [Lin.sub, if_neg hmaj])
      have e1 : n.majorSquare = n.gram.xx + n.gram.yy - n.minorSquare := by linarith
      apply gram_of_eigen (l1 := n.majorSquare) (l2 := n.minorSquare) _ _ _ tr (sq_sqrt (major_nonneg n))
        (sq_sqrt (minor_nonneg n))
      · rw [div_pow, div_pow, neg_sq, ← add_div, hh, add_comm, div_self hsum]
      · field_simp
        rw [e1]
        linear_combination -v2
      · field_simp
        rw [e1]
        linear_combination v1

theorem upright_gram (x : ℝ × ℝ × ℝ) :
    gram (upright x).1 (upright x).2.1 (cos ((upright x).2.2 * π / 180)) (sin ((upright x).2.2 * π / 180)) =
      gram x.1 x.2.1 (cos (x.2.2 * π / 180)) (sin (x.2.2 * π / 180)) := by
  unfold upright
  split
  · split
    · rw [show (x.2.2 + -90) * π / 180 = x.2.2 * π / 180 - π / 2 by ring, cos_sub_pi_div_two, sin_sub_pi_div_two]
      unfold gram
      congr 1 <;> ring
    · rw [show (x.2.2 + 90) * π / 180 = x.2.2 * π / 180 + π / 2 by ring, cos_add_pi_div_two, sin_add_pi_div_two]
      unfold gram
      congr 1 <;> ring
  · rfl

theorem enlarge_pos (a b c s : ℝ) (p : Pt) : 0 < enlarge a b c s p := by
  unfold enlarge
  split
  · dsimp only
    split
    · next h => exact sqrt_pos.mpr (by linarith)
    · norm_num
  · norm_num

/-- The arc computed has the Gram matrix of the image. -/
theorem transformArc_gram (m : M) (a a' : Arc) (p : Pt) (h : transformArc m a p = some a') :
    a'.gram = a.gram.push m (enlarge a.rx a.ry (cos (a.rot * π / 180)) (sin (a.rot * π / 180)) p) ∧
    a'.large = a.large ∧ a'.sweep = if flips m then !a.sweep else a.sweep := by
  rw [transformArc, Option.map_eq_some_iff] at h
  obtain ⟨x, h1, rfl⟩ := h
  refine ⟨?_, rfl, rfl⟩
  rw [Arc.gram]
  dsimp only
  rw [upright_gram, axes_gram _ _ h1]
  simp only [Lin.gram, multiply, ellipse, Gram.push, Arc.gram, gram]
  congr 1 <;> ring

/-- The factor is 1, or the one that is needed. -/
theorem enlarge_reach (a : Arc) (p q : Pt) :
    enlarge a.rx a.ry (cos (a.rot * π / 180)) (sin (a.rot * π / 180)) (q - p) = 1 ∨
    enlarge a.rx a.ry (cos (a.rot * π / 180)) (sin (a.rot * π / 180)) (q - p) = max 1 (reach a p q) := by
  unfold enlarge
  split
  · next h =>
    right
    dsimp only
    have e : ((q - p).1 * cos (a.rot * π / 180) + (q - p).2 * sin (a.rot * π / 180)) ^ 2 / (4 * a.rx * a.rx) +
        ((q - p).2 * cos (a.rot * π / 180) - (q - p).1 * sin (a.rot * π / 180)) ^ 2 / (4 * a.ry * a.ry) =
        ((cos (a.rot * π / 180) * ((p.1 - q.1) / 2) + sin (a.rot * π / 180) * ((p.2 - q.2) / 2)) / |a.rx|) ^ 2 +
        ((-sin (a.rot * π / 180) * ((p.1 - q.1) / 2) + cos (a.rot * π / 180) * ((p.2 - q.2) / 2)) / |a.ry|) ^ 2 := by
      rw [div_pow, div_pow, sq_abs, sq_abs, Prod.fst_sub, Prod.snd_sub]
      have := h.1.ne'
      have := h.2.ne'
      field_simp
      ring
    rw [e]
    unfold reach
    split
    · next h1 => rw [max_eq_right]; exact (one_le_sqrt.mpr h1.le)
    · next h1 => rw [max_eq_left]; exact (sqrt_le_one.mpr (not_lt.mp h1))
  · left; rfl

end Verif.Apply
