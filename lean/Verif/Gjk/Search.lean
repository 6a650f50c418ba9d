import Mathlib.Data.List.Basic
import Verif.Gjk.Support

/-!
# The search for a simplex around the origin
-/

namespace Verif.Gjk

variable {K : Type} [Field K] [LinearOrder K] [IsStrictOrderedRing K]

/-- All points are on one side of a line through the origin. -/
def Sep (V : List (Pt K)) : Prop := ∃ d : Pt K, d ≠ 0 ∧ ∀ u ∈ V, dot d u ≤ 0

/-- The origin is in a triangle of the points. -/
def Meets (V : List (Pt K)) : Prop :=
  ∃ a ∈ V, ∃ b ∈ V, ∃ c ∈ V, ∃ x y z : K, 0 ≤ x ∧ 0 ≤ y ∧ 0 ≤ z ∧ x + y + z = 1 ∧ x * a.1 + y * b.1 + z * c.1 = 0 ∧ x * a.2 + y * b.2 + z * c.2 = 0

theorem orth_perp (s f : Pt K) : dot (orth s f) s = 0 := by
  simp only [orth]
  split <;> simp only [dot, Prod.fst_neg, Prod.snd_neg] <;> ring

theorem orth_away (s f : Pt K) : dot (orth s f) f ≤ 0 := by
  simp only [orth]
  split
  · next h => simp only [dot, Prod.fst_neg, Prod.snd_neg] at h ⊢; linarith
  · next h => simp only [dot, Prod.fst_neg, Prod.snd_neg, not_lt] at h ⊢; linarith

/-- The product of two vectors, in the plane. -/
def wedge (u v : Pt K) : K := u.1 * v.2 - u.2 * v.1

/-- The sign that `orth` chooses. -/
theorem orth_sign (s f : Pt K) : ∃ e : K, e * e = 1 ∧ ∀ v, dot (orth s f) v = e * wedge s v := by
  simp only [orth]
  split
  · exact ⟨-1, by ring, fun v => by simp only [dot, wedge, Prod.fst_neg, Prod.snd_neg]; ring⟩
  · exact ⟨1, by ring, fun v => by simp only [dot, wedge]; ring⟩

theorem sq_pos_of_ne {d : Pt K} (h : d ≠ 0) : 0 < dot d d := by
  simp only [dot]
  by_cases h1 : d.1 = 0
  · by_cases h2 : d.2 = 0
    · exact absurd (Prod.ext h1 h2) h
    · have := mul_self_pos.mpr h2
      have := mul_self_nonneg d.1
      linarith
  · have := mul_self_pos.mpr h1
    have := mul_self_nonneg d.2
    linarith

/-- An edge that faces the origin, which is seen from there under more than a right angle, and a point on the other side of the origin. -/
structure Edge (b c a d : Pt K) : Prop where
  ne : d ≠ 0
  eq : dot d b = dot d c
  face : dot d b ≤ 0
  wide : dot b c < 0
  new : 0 < dot d a

theorem Edge.symm {b c a d : Pt K} (h : Edge b c a d) : Edge c b a d :=
  ⟨h.ne, h.eq.symm, h.eq ▸ h.face, by have := h.wide; simp only [dot] at this ⊢; linarith, h.new⟩

section
variable {b c a d : Pt K}

/-- The coordinate along the edge. -/
def along (d v : Pt K) : K := d.2 * v.1 - d.1 * v.2

theorem scale_dot (d u v : Pt K) : dot d d * dot u v = along d u * along d v + dot d u * dot d v := by simp only [dot, along]; ring

theorem scale_wedge (d u v : Pt K) : dot d d * wedge u v = along d u * dot d v - dot d u * along d v := by simp only [dot, along, wedge]; ring

theorem along_sub (d u v : Pt K) : along d (u - v) = along d u - along d v := by simp only [along, Prod.fst_sub, Prod.snd_sub]; ring

theorem dot_sub (d u v : Pt K) : dot d (u - v) = dot d u - dot d v := by simp only [dot, Prod.fst_sub, Prod.snd_sub]; ring

theorem along_neg (d u : Pt K) : along d (-u) = -along d u := by simp only [along, Prod.fst_neg, Prod.snd_neg]; ring

theorem dot_neg_right (d u : Pt K) : dot d (-u) = -dot d u := by simp only [dot, Prod.fst_neg, Prod.snd_neg]; ring

theorem Edge.sides (h : Edge b c a d) : along d b * along d c < 0 := by
  have h1 := scale_dot d b c
  have h2 := mul_neg_of_pos_of_neg (sq_pos_of_ne h.ne) h.wide
  rw [← h.eq] at h1
  nlinarith [mul_self_nonneg (dot d b)]

/-- Twice the area of the triangle, scaled. -/
theorem Edge.area (h : Edge b c a d) : dot d d * wedge (b - a) (c - a) = (dot d a - dot d b) * (along d c - along d b) := by
  rw [scale_wedge, along_sub, along_sub, dot_sub, dot_sub, ← h.eq]; ring

theorem Edge.area_ne (h : Edge b c a d) : wedge (b - a) (c - a) ≠ 0 := by
  intro e
  have := h.area
  rw [e, mul_zero] at this
  rcases mul_eq_zero.mp this.symm with h' | h'
  · have := h.face; have := h.new; linarith
  · have := h.sides
    rw [sub_eq_zero.mp h'] at this
    nlinarith [mul_self_nonneg (along d b)]

/-- What holds if the origin is beyond the new edge from `b` to `a`. -/
theorem Edge.beyond (h : Edge b c a d) (hb : 0 < dot (orth (b - a) (c - a)) (-a)) :
    dot b a < 0 ∧ 0 < dot (b - a) (-a) ∧ ∃ x y : K, 0 ≤ x ∧ 0 ≤ y ∧ c.1 = x * b.1 + y * a.1 ∧ c.2 = x * b.2 + y * a.2 := by
  obtain ⟨e, he, hs⟩ := orth_sign (b - a) (c - a)
  have hD := sq_pos_of_ne h.ne
  have haway := orth_away (b - a) (c - a)
  rw [hs] at hb haway
  have hT := h.area_ne
  have hTR : wedge (b - a) (c - a) * wedge (b - a) (-a) < 0 := by
    have h1 : e * wedge (b - a) (c - a) < 0 := lt_of_le_of_ne haway (mul_ne_zero (by rintro rfl; simp at he) hT)
    have := mul_neg_of_neg_of_pos h1 hb
    nlinarith
  have hR : dot d d * wedge (b - a) (-a) = -(dot d a * along d b - dot d b * along d a) := by
    rw [scale_wedge, along_sub, dot_sub, along_neg, dot_neg_right]; ring
  have hA := h.area
  have key : 0 < (along d c - along d b) * (dot d a * along d b - dot d b * along d a) := by
    have h1 : 0 < dot d a - dot d b := by have := h.face; have := h.new; linarith
    have h2 : 0 < (dot d a - dot d b) * ((along d c - along d b) * (dot d a * along d b - dot d b * along d a)) := by
      have : dot d d * wedge (b - a) (c - a) * (dot d d * wedge (b - a) (-a)) < 0 := by
        have := mul_neg_of_pos_of_neg (mul_pos hD hD) hTR
        nlinarith
      rw [hA, hR] at this
      nlinarith
    exact (mul_pos_iff_of_pos_left h1).mp h2
  have hsides := h.sides
  have hface := h.face
  have hnew := h.new
  generalize hB : along d b = B at *
  generalize hC : along d c = C at *
  generalize hA' : along d a = A at *
  generalize ht : dot d a = t at *
  generalize hh : dot d b = m at *
  -- in both cases `a` is on the side of `c`
  have hAB : A * B < 0 ∧ 0 < C * (t * B - m * A) ∧ 0 ≤ (C * t - m * A) * (t * B - m * A) := by
    rcases lt_trichotomy B 0 with hBn | hBz | hBp
    · have hCp : 0 < C := by nlinarith
      have h1 : 0 < t * B - m * A := by
        by_contra hcon
        nlinarith [mul_nonneg (by linarith : 0 ≤ C - B) (not_lt.mp hcon |> sub_nonneg.mpr)]
      have h2 : 0 < A := by
        by_contra hcon
        nlinarith [mul_nonneg (neg_nonneg.mpr hface) (neg_nonneg.mpr (not_lt.mp hcon)), mul_pos hnew (neg_pos.mpr hBn)]
      refine ⟨mul_neg_of_pos_of_neg h2 hBn, mul_pos hCp h1, mul_nonneg ?_ (le_of_lt h1)⟩
      nlinarith [mul_pos hCp hnew, mul_nonneg (neg_nonneg.mpr hface) (le_of_lt h2)]
    · rw [hBz] at hsides; simp at hsides
    · have hCn : C < 0 := by nlinarith
      have h1 : t * B - m * A < 0 := by
        by_contra hcon
        nlinarith [mul_nonneg (by linarith : 0 ≤ B - C) (not_lt.mp hcon)]
      have h2 : A < 0 := by
        by_contra hcon
        nlinarith [mul_nonneg (neg_nonneg.mpr hface) (not_lt.mp hcon), mul_pos hnew hBp]
      refine ⟨mul_neg_of_neg_of_pos h2 hBp, mul_pos_of_neg_of_neg hCn h1, mul_nonneg_of_nonpos_of_nonpos ?_ (le_of_lt h1)⟩
      nlinarith [mul_pos (neg_pos.mpr hCn) hnew, mul_nonneg (neg_nonneg.mpr hface) (le_of_lt (neg_pos.mpr h2))]
  have hba : dot b a < 0 := by
    have := scale_dot d b a
    rw [hB, hA', hh, ht] at this
    by_contra hcon
    nlinarith [mul_nonneg (le_of_lt hD) (not_lt.mp hcon), mul_nonneg (neg_nonneg.mpr hface) (le_of_lt hnew), hAB.1]
  refine ⟨hba, ?_, wedge c a / wedge b a, wedge b c / wedge b a, ?_, ?_, ?_, ?_⟩
  · have := mul_self_nonneg a.1
    have := mul_self_nonneg a.2
    simp only [dot, Prod.fst_sub, Prod.snd_sub, Prod.fst_neg, Prod.snd_neg] at hba ⊢
    nlinarith
  all_goals
    have w1 : dot d d * wedge b a = t * B - m * A := by rw [scale_wedge, hB, ht, hh, hA']; ring
    have w0 : wedge b a ≠ 0 := by
      intro h0
      rw [h0, mul_zero] at w1
      rw [← w1] at hAB
      simp at hAB
  · have w2 : dot d d * wedge c a = C * t - m * A := by rw [scale_wedge, hC, ht, ← h.eq, hh, hA']
    have : 0 ≤ (dot d d * wedge c a) / (dot d d * wedge b a) := by
      rw [w1, w2]
      exact div_nonneg_iff.mpr (mul_nonneg_iff.mp hAB.2.2)
    rwa [mul_div_mul_left _ _ (ne_of_gt hD)] at this
  · have w2 : dot d d * wedge b c = -m * (C - B) := by rw [scale_wedge, hC, hB, ← h.eq, hh]; ring
    have : 0 ≤ (dot d d * wedge b c) / (dot d d * wedge b a) := by
      rw [w1, w2]
      refine div_nonneg_iff.mpr (mul_nonneg_iff.mp ?_)
      have := mul_nonneg (neg_nonneg.mpr hface) (le_of_lt key)
      linarith
    rwa [mul_div_mul_left _ _ (ne_of_gt hD)] at this
  · field_simp
    simp only [wedge]
    ring
  · field_simp
    simp only [wedge]
    ring

/-- What holds if the origin is on the inner side of both new edges. -/
theorem Edge.inside (h : Edge b c a d) (hb : dot (orth (b - a) (c - a)) (-a) ≤ 0) (hc : dot (orth (c - a) (b - a)) (-a) ≤ 0) :
    ∃ x y z : K, 0 ≤ x ∧ 0 ≤ y ∧ 0 ≤ z ∧ x + y + z = 1 ∧ x * a.1 + y * b.1 + z * c.1 = 0 ∧ x * a.2 + y * b.2 + z * c.2 = 0 := by
  have side : ∀ s f : Pt K, dot (orth s f) (-a) ≤ 0 → 0 ≤ wedge s f * wedge s (-a) := by
    intro s f hs
    obtain ⟨e, he, hw⟩ := orth_sign s f
    have := orth_away s f
    rw [hw] at hs this
    nlinarith [mul_nonneg_of_nonpos_of_nonpos this hs]
  have hD := sq_pos_of_ne h.ne
  have hT := h.area_ne
  have h1 := side _ _ hb
  have h2 := side _ _ hc
  have h3 : 0 ≤ wedge b c * wedge (b - a) (c - a) := by
    have w : dot d d * wedge b c = -dot d b * (along d c - along d b) := by rw [scale_wedge, ← h.eq]; ring
    have hA := h.area
    have : 0 ≤ (dot d d * wedge b c) * (dot d d * wedge (b - a) (c - a)) := by
      rw [w, hA]
      have hf := h.face
      have hn := h.new
      have e1 : 0 ≤ -dot d b * (dot d a - dot d b) := mul_nonneg (by linarith) (by linarith)
      have := mul_nonneg e1 (mul_self_nonneg (along d c - along d b))
      linarith
    by_contra hcon
    have := mul_neg_of_pos_of_neg (mul_pos hD hD) (not_le.mp hcon)
    nlinarith
  have nonneg : ∀ u : K, 0 ≤ u * wedge (b - a) (c - a) → 0 ≤ u / wedge (b - a) (c - a) := by
    intro u hu
    exact div_nonneg_iff.mpr (mul_nonneg_iff.mp hu)
  refine ⟨wedge b c / wedge (b - a) (c - a), wedge (-a) (c - a) / wedge (b - a) (c - a), wedge (b - a) (-a) / wedge (b - a) (c - a),
    nonneg _ h3, nonneg _ ?_, nonneg _ (by linarith), ?_, ?_, ?_⟩
  · have e1 : wedge (c - a) (b - a) = -wedge (b - a) (c - a) := by simp only [wedge]; ring
    have e2 : wedge (c - a) (-a) = -wedge (-a) (c - a) := by simp only [wedge]; ring
    rw [e1, e2] at h2
    linarith
  all_goals
    field_simp
    simp only [wedge, Prod.fst_sub, Prod.snd_sub, Prod.fst_neg, Prod.snd_neg]
    ring
end

/-- The support of the points `V`. -/
def IsSup (V : List (Pt K)) (sup : Pt K → Option (Pt K)) : Prop := ∀ d, ∃ v ∈ V, sup d = some v ∧ ∀ u ∈ V, dot d u ≤ dot d v

/-- The search with an edge: the points `Z` that were visited are seen from the origin within the edge. -/
theorem loop_edge {V : List (Pt K)} {sup : Pt K → Option (Pt K)} (hsup : IsSup V sup) : ∀ (n : Nat) (Z : List (Pt K)) (c b d : Pt K),
    c ∈ V → b ∈ V → d ≠ 0 → dot d b = dot d c → dot d b ≤ 0 → dot b c < 0 → Z.Nodup → (∀ z ∈ Z, z ∈ V) →
    (∀ z ∈ Z, ∃ x y : K, 0 ≤ x ∧ 0 ≤ y ∧ z.1 = x * b.1 + y * c.1 ∧ z.2 = x * b.2 + y * c.2) →
    ∃ r, loop sup n [c, b] d = some r ∧ (r = false → Sep V) ∧ (r = true → n + Z.length ≤ V.length ∨ Meets V)
  | 0, Z, c, b, d, _, _, _, _, _, _, hZ, hZV, _ => by
    refine ⟨true, rfl, by simp, fun _ => .inl ?_⟩
    rw [Nat.zero_add]
    exact (List.subperm_of_subset hZ hZV).length_le
  | n + 1, Z, c, b, d, hc, hb, hd, heq, hface, hwide, hZ, hZV, hcone => by
    obtain ⟨a, ha, hs, hmax⟩ := hsup d
    simp only [loop, hs]
    split
    · next hle => exact ⟨false, rfl, fun _ => ⟨d, hd, fun u hu => le_trans (hmax u hu) hle⟩, by simp⟩
    · next hlt =>
      have hedge : Edge b c a d := ⟨hd, heq, hface, hwide, not_le.mp hlt⟩
      -- the new point was not visited
      have hnew : a ∉ Z := by
        intro haZ
        obtain ⟨x, y, hx, hy, e1, e2⟩ := hcone a haZ
        apply hlt
        have : dot d a = x * dot d b + y * dot d c := by simp only [dot, e1, e2]; ring
        rw [this, ← heq]
        nlinarith [mul_nonneg hx (neg_nonneg.mpr hface), mul_nonneg hy (neg_nonneg.mpr hface)]
      have hZ' : (a :: Z).Nodup := List.nodup_cons.mpr ⟨hnew, hZ⟩
      have hZV' : ∀ z ∈ a :: Z, z ∈ V := by
        intro z hz
        rcases List.mem_cons.mp hz with rfl | hz
        · exact ha
        · exact hZV z hz
      have perp : ∀ s f : Pt K, s ≠ 0 → orth s f ≠ 0 := by
        intro s f hs0 h0
        apply hs0
        simp only [orth] at h0
        split at h0
        · simp only [Prod.ext_iff, Prod.fst_neg, Prod.snd_neg, Prod.fst_zero, Prod.snd_zero, neg_eq_zero] at h0 ⊢
          tauto
        · simp only [Prod.ext_iff, Prod.fst_zero, Prod.snd_zero, neg_eq_zero] at h0 ⊢
          tauto
      -- what follows for the edge from `b` to `a` if the origin is beyond it
      have go : ∀ b c : Pt K, b ∈ V → Edge b c a d → (∀ z ∈ Z, ∃ x y : K, 0 ≤ x ∧ 0 ≤ y ∧ z.1 = x * b.1 + y * c.1 ∧ z.2 = x * b.2 + y * c.2) →
          0 < dot (orth (b - a) (c - a)) (-a) →
          0 < dot (b - a) (-a) ∧ ∃ r, loop sup n [b, a] (orth (b - a) (c - a)) = some r ∧ (r = false → Sep V) ∧
            (r = true → n + 1 + Z.length ≤ V.length ∨ Meets V) := by
        intro b c hb he hcone hbey
        obtain ⟨h1, h2, x, y, hx, hy, e1, e2⟩ := he.beyond hbey
        have hperp := orth_perp (b - a) (c - a)
        rw [dot_sub] at hperp
        rw [dot_neg_right] at hbey
        have hab : b - a ≠ 0 := by
          intro h0
          rw [sub_eq_zero.mp h0] at h1
          simp only [dot] at h1
          nlinarith [mul_self_nonneg a.1, mul_self_nonneg a.2]
        obtain ⟨r, k1, k2, k3⟩ := loop_edge hsup n (a :: Z) b a (orth (b - a) (c - a)) hb ha (perp _ _ hab) (by linarith) (by linarith)
          (by simp only [dot] at h1 ⊢; linarith) hZ' hZV' (by
            intro z hz
            rcases List.mem_cons.mp hz with rfl | hz
            · exact ⟨1, 0, zero_le_one, le_refl _, by ring, by ring⟩
            · obtain ⟨x', y', hx', hy', f1, f2⟩ := hcone z hz
              refine ⟨y' * y, x' + y' * x, mul_nonneg hy' hy, add_nonneg hx' (mul_nonneg hy' hx), ?_, ?_⟩
              · rw [f1, e1]; ring
              · rw [f2, e2]; ring)
        refine ⟨h2, r, k1, k2, fun hr => (k3 hr).imp (fun h => ?_) id⟩
        rw [List.length_cons] at h
        omega
      have hcone' : ∀ z ∈ Z, ∃ x y : K, 0 ≤ x ∧ 0 ≤ y ∧ z.1 = x * c.1 + y * b.1 ∧ z.2 = x * c.2 + y * b.2 := by
        intro z hz
        obtain ⟨x, y, hx, hy, e1, e2⟩ := hcone z hz
        exact ⟨y, x, hy, hx, by rw [e1]; ring, by rw [e2]; ring⟩
      simp only [List.cons_append, List.nil_append, process]
      by_cases h1 : 0 < dot (orth (b - a) (c - a)) (-a)
      · obtain ⟨h2, hr⟩ := go b c hb hedge hcone h1
        simp only [if_pos h1, if_pos h2]
        exact hr
      · by_cases h3 : 0 < dot (orth (c - a) (b - a)) (-a)
        · obtain ⟨h2, hr⟩ := go c b hc hedge.symm hcone' h3
          simp only [if_neg h1, if_pos h3, if_pos h2]
          exact hr
        · simp only [if_neg h1, if_neg h3]
          refine ⟨true, rfl, by simp, fun _ => .inr ?_⟩
          obtain ⟨x, y, z, hh⟩ := hedge.inside (not_lt.mp h1) (not_lt.mp h3)
          exact ⟨a, ha, b, hb, c, hc, x, y, z, hh⟩

/-- The whole search. -/
theorem loop_start {V : List (Pt K)} {sup : Pt K → Option (Pt K)} (hsup : IsSup V sup) (n : Nat) {p : Pt K} (hp : sup (1, 0) = some p) :
    ∃ r, loop sup (n + 1) [p] (-p) = some r ∧ (r = false → Sep V) ∧ (r = true → n + 2 ≤ V.length ∨ Meets V) := by
  obtain ⟨p', hpV, hp', hpmax⟩ := hsup (1, 0)
  rw [hp, Option.some.injEq] at hp'
  subst hp'
  obtain ⟨a, ha, hs, hmax⟩ := hsup (-p)
  simp only [loop, hs]
  split
  · next hle =>
    refine ⟨false, rfl, fun _ => ?_, by simp⟩
    by_cases h0 : p = 0
    · refine ⟨(1, 0), by simp, fun u hu => ?_⟩
      have := hpmax u hu
      rw [h0] at this
      simpa [dot] using this
    · exact ⟨-p, by simpa using h0, fun u hu => le_trans (hmax u hu) hle⟩
  · next hlt =>
    have hpa : dot a p < 0 := by
      have := not_le.mp hlt
      simp only [dot, Prod.fst_neg, Prod.snd_neg] at this ⊢
      linarith
    have hab : p - a ≠ 0 := by
      intro h0
      rw [sub_eq_zero.mp h0] at hpa
      simp only [dot] at hpa
      nlinarith [mul_self_nonneg a.1, mul_self_nonneg a.2]
    have hne : a ≠ p := fun e => hab (by rw [e, sub_self])
    have h1 : 0 < dot (-a) (p - a) := by
      simp only [dot, Prod.fst_sub, Prod.snd_sub, Prod.fst_neg, Prod.snd_neg] at hpa ⊢
      nlinarith [mul_self_nonneg a.1, mul_self_nonneg a.2]
    simp only [List.cons_append, List.nil_append, process, if_pos h1]
    have hperp := orth_perp (p - a) a
    rw [dot_sub] at hperp
    have haway := orth_away (p - a) a
    obtain ⟨r, k1, k2, k3⟩ := loop_edge hsup n [p, a] p a (orth (p - a) a) hpV ha (by
      intro h0
      apply hab
      simp only [orth] at h0
      split at h0
      · simp only [Prod.ext_iff, Prod.fst_neg, Prod.snd_neg, Prod.fst_zero, Prod.snd_zero, neg_eq_zero] at h0 ⊢
        tauto
      · simp only [Prod.ext_iff, Prod.fst_zero, Prod.snd_zero, neg_eq_zero] at h0 ⊢
        tauto) (by linarith) (by linarith) hpa (by simp [Ne.symm hne]) (by simp [hpV, ha]) (by
        intro z hz
        rcases List.mem_cons.mp hz with rfl | hz
        · exact ⟨0, 1, le_refl _, zero_le_one, by ring, by ring⟩
        · rw [List.mem_singleton.mp hz]; exact ⟨1, 0, zero_le_one, le_refl _, by ring, by ring⟩)
    exact ⟨r, k1, k2, k3⟩

end Verif.Gjk
