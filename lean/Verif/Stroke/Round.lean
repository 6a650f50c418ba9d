import Verif.Stroke.Spec

/-!
# Round strokes scale with the plane
-/

namespace Verif.Stroke

open Real Verif.Transform Verif.Apply

noncomputable section

theorem dist_flat (γ : ℝ → Pt) (t u : ℝ) : dist (flat γ t) (flat γ u) = distance (γ t) (γ u) := by
  rw [EuclideanSpace.dist_eq]
  simp [flat, distance, Fin.sum_univ_two, Real.dist_eq, sq_abs]

theorem edist_flat (γ : ℝ → Pt) (t u : ℝ) : edist (flat γ t) (flat γ u) = ENNReal.ofReal (distance (γ t) (γ u)) := by
  rw [edist_dist, dist_flat]

theorem variation_similar {f : Pt → Pt} {s : ℝ} (hs : 0 ≤ s) (h : Similar f s) (γ : ℝ → Pt) (S : Set ℝ) :
    eVariationOn (flat fun t => f (γ t)) S = ENNReal.ofReal s * eVariationOn (flat γ) S := by
  simp only [eVariationOn]
  rw [ENNReal.mul_iSup]
  congr 1
  funext p
  rw [Finset.mul_sum]
  refine Finset.sum_congr rfl fun i _ => ?_
  rw [edist_flat, edist_flat, h, ENNReal.ofReal_mul hs]

theorem lengthTo_similar {f : Pt → Pt} {s : ℝ} (hs : 0 ≤ s) (h : Similar f s) (γ : ℝ → Pt) (t : ℝ) :
    lengthTo (fun t => f (γ t)) t = s * lengthTo γ t := by
  simp only [lengthTo]
  rw [variation_similar hs h, ENNReal.toReal_mul, ENNReal.toReal_ofReal hs]

theorem dashed_scale {s : ℝ} (hs : 0 < s) (ds : List ℝ) (x : ℝ) : dashed (ds.map (s * ·)) (s * x) ↔ dashed ds x := by
  have hsum : ∀ l : List ℝ, (l.map (s * ·)).sum = s * l.sum := fun l => by simpa using List.sum_map_mul_left l id s
  simp only [dashed, ← List.map_append, ← List.map_take, List.length_map, hsum]
  constructor
  · rintro (h | ⟨n, i, hi, h1, h2⟩)
    · exact Or.inl (by nlinarith)
    · exact Or.inr ⟨n, i, hi, by nlinarith, by nlinarith⟩
  · rintro (h | ⟨n, i, hi, h1, h2⟩)
    · exact Or.inl (by nlinarith)
    · exact Or.inr ⟨n, i, hi, by nlinarith, by nlinarith⟩

theorem onDash_similar {f : Pt → Pt} {s : ℝ} (hs : 0 < s) (h : Similar f s) (ds : List ℝ) (o : ℝ) :
    ∀ (γs : Curves) (x : ℝ), onDash (ds.map (s * ·)) (s * o) (s * x) (image f γs) = f '' onDash ds o x γs
  | [], x => by simp [image, onDash]
  | (k, γ) :: γs, x => by
    have key : ({p | ∃ t, 0 ≤ t ∧ t ≤ 1 ∧ p = f (γ t) ∧
          dashed (ds.map (s * ·)) (s * x + lengthTo (fun t => f (γ t)) t + s * o)} ∪
        onDash (ds.map (s * ·)) (s * o) (s * x + lengthTo (fun t => f (γ t)) 1) (image f γs)) =
        f '' ({p | ∃ t, 0 ≤ t ∧ t ≤ 1 ∧ p = γ t ∧ dashed ds (x + lengthTo γ t + o)} ∪ onDash ds o (x + lengthTo γ 1) γs) := by
      rw [Set.image_union, lengthTo_similar hs.le h, ← mul_add, onDash_similar hs h ds o γs]
      congr 1
      ext p
      simp only [Set.mem_ofPred_eq, Set.mem_image]
      constructor
      · rintro ⟨t, h0, h1, rfl, hd⟩
        rw [lengthTo_similar hs.le h, ← mul_add, ← mul_add, dashed_scale hs] at hd
        exact ⟨γ t, ⟨t, h0, h1, rfl, hd⟩, rfl⟩
      · rintro ⟨q, ⟨t, h0, h1, rfl, hd⟩, rfl⟩
        refine ⟨t, h0, h1, rfl, ?_⟩
        rw [lengthTo_similar hs.le h, ← mul_add, ← mul_add, dashed_scale hs]
        exact hd
    cases k with
    | move =>
      have := onDash_similar hs h ds o γs 0
      rw [mul_zero] at this
      simpa [image, onDash] using this
    | drawn => simpa [image, onDash] using key
    | close => simpa [image, onDash] using key

theorem distance_nonneg (p q : Pt) : 0 ≤ distance p q := Real.sqrt_nonneg _

theorem distance_sq (p q : Pt) : distance p q ^ 2 = (p.1 - q.1) ^ 2 + (p.2 - q.2) ^ 2 := Real.sq_sqrt (by positivity)

theorem similar_iff {m : M} {s : ℝ} (hs : 0 ≤ s) : Similar m.apply s ↔
    m.a ^ 2 + m.b ^ 2 = s ^ 2 ∧ m.c ^ 2 + m.d ^ 2 = s ^ 2 ∧ m.a * m.c + m.b * m.d = 0 := by
  constructor
  · intro h
    have h1 := congrArg (· ^ 2) (h (1, 0) 0)
    have h2 := congrArg (· ^ 2) (h (0, 1) 0)
    have h3 := congrArg (· ^ 2) (h (1, 1) 0)
    simp only [mul_pow, distance_sq, M.apply, Prod.fst_zero, Prod.snd_zero] at h1 h2 h3
    refine ⟨by linarith, by linarith, by nlinarith⟩
  · rintro ⟨h1, h2, h3⟩ p q
    rw [← Real.sqrt_sq hs, ← Real.sqrt_sq (distance_nonneg (m.apply p) (m.apply q)), distance_sq, distance,
      ← Real.sqrt_mul (sq_nonneg s)]
    congr 1
    simp only [M.apply]
    linear_combination (p.1 - q.1) ^ 2 * h1 + (p.2 - q.2) ^ 2 * h2 + 2 * (p.1 - q.1) * (p.2 - q.2) * h3

/-- A matrix that stretches all distances reaches all points. -/
theorem similar_surjective {m : M} {s : ℝ} (hs : 0 < s) (h : Similar m.apply s) : Function.Surjective m.apply := by
  obtain ⟨h1, h2, h3⟩ := (similar_iff hs.le).1 h
  have hs2 : s ^ 2 ≠ 0 := by positivity
  have h4 : (m.a * m.d - m.b * m.c) ^ 2 = (s ^ 2) ^ 2 := by
    linear_combination (m.c ^ 2 + m.d ^ 2) * h1 + s ^ 2 * h2 - (m.a * m.c + m.b * m.d) * h3
  have h5 : m.a * m.d - m.b * m.c ≠ 0 := by
    intro h0
    rw [h0] at h4
    exact pow_ne_zero 2 hs2 (by simpa using h4.symm)
  intro q
  refine ⟨((m.d * (q.1 - m.e) - m.c * (q.2 - m.f)) / (m.a * m.d - m.b * m.c),
    (m.a * (q.2 - m.f) - m.b * (q.1 - m.e)) / (m.a * m.d - m.b * m.c)), ?_⟩
  simp only [M.apply]
  ext
  · show m.a * (_ / _) + m.c * (_ / _) + m.e = q.1
    rw [← mul_div_assoc, ← mul_div_assoc, ← add_div, ← eq_sub_iff_add_eq, div_eq_iff h5]; ring
  · show m.b * (_ / _) + m.d * (_ / _) + m.f = q.2
    rw [← mul_div_assoc, ← mul_div_assoc, ← add_div, ← eq_sub_iff_add_eq, div_eq_iff h5]; ring

theorem roundInk_similar (m : M) (s : ℝ) (hs : 0 < s) (h : Similar m.apply s) (γs : Curves) (w : ℝ) (ds : List ℝ) (o : ℝ) :
    roundInk (image m.apply γs) (s * w) (ds.map (s * ·)) (s * o) = m.apply '' roundInk γs w ds o := by
  have hd := onDash_similar hs h ds o γs 0
  rw [mul_zero] at hd
  ext p
  simp only [roundInk, Set.mem_ofPred_eq, Set.mem_image, hd]
  constructor
  · rintro ⟨_, ⟨q, hq, rfl⟩, hp⟩
    obtain ⟨p, rfl⟩ := similar_surjective hs h p
    refine ⟨p, ⟨q, hq, ?_⟩, rfl⟩
    rw [h] at hp
    nlinarith
  · rintro ⟨p, ⟨q, hq, hp⟩, rfl⟩
    refine ⟨_, ⟨q, hq, rfl⟩, ?_⟩
    rw [h]
    nlinarith

/-- The round pen. -/
def round : Brush := ⟨roundInk, roundInk_similar⟩

end

end Verif.Stroke
