import Verif.Arcs.Props

/-!
# The coordinates along an arc
-/

namespace Verif.Arcs

open Real Verif.Gjk Verif.ArcTo Verif.Fit

theorem halvings_le (a : ArcR) (ang tol : ℝ) (n : ℕ) (h : ℝ) : halvings a ang tol n h ≤ n := by
  induction n generalizing h with
  | zero => exact le_refl _
  | succ n ih => simp only [halvings]; split <;> [omega; exact Nat.succ_le_succ (ih _)]

theorem halvings_iff (a : ArcR) (ang tol : ℝ) (n m : ℕ) (h : ℝ) : m ≤ halvings a ang tol n h ↔
    m ≤ n ∧ ∀ i < m, ang < |h / 2 ^ i * a.sweep| ∧ tol < Sq (Along a 0) (atAngle a (h / 2 ^ i)) := by
  induction n generalizing h m with
  | zero => simp only [halvings]; constructor <;> rintro h <;> simp_all
  | succ n ih =>
    cases m with
    | zero => simp
    | succ m =>
      simp only [halvings, dist2_eq, pointAt_along]
      split
      · rename_i hl
        refine ⟨fun h => by omega, fun ⟨_, k⟩ => absurd (k 0 (by omega)) ?_⟩
        rw [pow_zero, div_one]; rintro ⟨h1, h2⟩
        rcases hl with hl | hl
        · exact absurd hl (not_le.2 h1)
        · exact absurd hl (not_le.2 h2)
      · rename_i hl
        rw [not_or, not_le, not_le] at hl
        rw [Nat.succ_le_succ_iff, ih, Nat.succ_le_succ_iff]
        refine and_congr_right fun _ => ⟨fun k i hi => ?_, fun k i hi => ?_⟩
        · cases i with
          | zero => rw [pow_zero, div_one]; exact hl
          | succ i => rw [pow_succ', ← div_div]; exact k i (by omega)
        · rw [div_div, ← pow_succ']; exact k (i + 1) (by omega)

theorem items_from (a : ArcR) (n : ℕ) (hn : 0 < n) (m i : ℕ) (h : i + m = n + 1) :
    items a (1 / n : ℝ) (m + 1) (i / n) = some ((List.range' i m).map fun j : ℕ => Along a ((j : ℝ) / n)) := by
  have hn' : (0 : ℝ) < n := Nat.cast_pos.2 hn
  induction m generalizing i with
  | zero =>
    have : (1 : ℝ) < i / n := by rw [lt_div_iff₀ hn', one_mul]; exact_mod_cast (by omega : n < i)
    simp [items, next, this]
  | succ m ih =>
    have h1 : ¬ (1 : ℝ) < i / n := by
      rw [not_lt, div_le_one hn']; exact_mod_cast (by omega : i ≤ n)
    have e : (i : ℝ) / n + 1 / n = ((i + 1 : ℕ) : ℝ) / n := by rw [← add_div]; push_cast; rfl
    have ex : (if (i : ℝ) / n = 1 ∨ 1 < (i : ℝ) / n + 1 / n then pointAt a 1 else pointAt a (i / n)) = Along a ((i : ℝ) / n) := by
      rw [e, pointAt_along, pointAt_along]
      split
      · rename_i hc
        have : n ≤ i := by
          rcases hc with hc | hc
          · rw [div_eq_one_iff_eq hn'.ne'] at hc; exact (Nat.cast_injective hc).ge
          · rw [lt_div_iff₀ hn', one_mul] at hc
            exact Nat.lt_succ_iff.1 (Nat.cast_lt.1 hc)
        obtain rfl : i = n := by omega
        rw [div_self hn'.ne']
      · rfl
    rw [items]
    simp only [next, h1, if_false, ex]
    rw [e, ih (i + 1) (by omega), List.range'_succ]
    rfl

theorem items_mono (a : ArcR) (n : ℕ) (h t : ℝ) (l : List (Pt ℝ)) (e : items a h n t = some l) (k : ℕ) : items a h (n + k) t = some l := by
  induction n generalizing t l with
  | zero => cases e
  | succ n ih =>
    rw [show n + 1 + k = (n + k) + 1 by omega, items]
    rw [items] at e
    cases hx : next a h t with
    | none => rw [hx] at e; exact e
    | some x =>
      rw [hx] at e
      simp only [Option.map_eq_some_iff] at e ⊢
      obtain ⟨l', e', rfl⟩ := e
      exact ⟨l', ih _ _ e', rfl⟩

/-- The coordinates, by how often the step is halved. -/
theorem coords_of (a : ArcR) (ang tol : ℝ) (f : ℕ) (hf : 2 ^ halvings a ang tol 7 1 + 2 ≤ f) : items a (step a ang tol) f 0 =
    some ((List.range (2 ^ halvings a ang tol 7 1 + 1)).map fun i : ℕ => Along a ((i : ℝ) / 2 ^ halvings a ang tol 7 1)) := by
  set j := halvings a ang tol 7 1 with hj
  have := items_from a (2 ^ j) (by positivity) (2 ^ j + 1) 0 (by omega)
  push_cast at this
  rw [zero_div] at this
  rw [step, ← hj]
  have := items_mono _ _ _ _ _ this (f - (2 ^ j + 2))
  rw [show 2 ^ j + 1 + 1 + (f - (2 ^ j + 2)) = f by omega] at this
  rw [this, List.range_eq_range']

/-- **C78 (coordinates along an arc)** The coordinates along an arc are the points of the arc at 1, 2, 4, … or 128 equal steps, from the start
to the end. There are more than `2 ^ m` steps exactly if none of the angles of 1, 1/2, 1/4, …, `1 / 2 ^ m`, as parts of the arc, is within the
tolerance for angles, and the points of the ellipse at the angles of 1, 1/2, 1/4, …, `1 / 2 ^ m` are all away from the start of the arc. -/
theorem coords_points (a : ArcR) (ang tol : ℝ) : ∃ j ≤ 7,
    (∀ f, 2 ^ j + 2 ≤ f → items a (step a ang tol) f 0 = some ((List.range (2 ^ j + 1)).map fun i : ℕ => Along a ((i : ℝ) / 2 ^ j))) ∧
    ∀ m < 7, m < j ↔ ∀ i ≤ m, ang < |1 / 2 ^ i * a.sweep| ∧ tol < Sq (Along a 0) (atAngle a (1 / 2 ^ i)) := by
  refine ⟨halvings a ang tol 7 1, halvings_le _ _ _ _ _, coords_of a ang tol, fun m hm => ?_⟩
  rw [← Nat.succ_le_iff, halvings_iff]
  exact ⟨fun h i hi => h.2 i (by omega), fun h => ⟨by omega, fun i hi => h i (by omega)⟩⟩

theorem piece {n : ℕ} (hn : 0 < n) {x : ℝ} (h0 : 0 ≤ x) (h1 : x ≤ n) : ∃ i < n, (i : ℝ) ≤ x ∧ x ≤ i + 1 := by
  induction n with
  | zero => omega
  | succ n ih =>
    by_cases hx : x ≤ n
    · cases n with
      | zero => exact ⟨0, by omega, by simpa using h0, by simpa using h1⟩
      | succ n => obtain ⟨i, hi, h⟩ := ih (by omega) hx; exact ⟨i, by omega, h⟩
    · exact ⟨n, by omega, (not_le.1 hx).le, by push_cast at h1; exact h1⟩

/-- The point between two others. -/
def Between (p q : Pt ℝ) (w : ℝ) : Pt ℝ := ((1 - w) * p.1 + w * q.1, (1 - w) * p.2 + w * q.2)

/-- A point of the unit circle and the chord: in the direction of the middle it is at most `1 - cos d` away. -/
theorem chord_unit {d p : ℝ} (hd : 0 ≤ d) (hd2 : d ≤ π / 2) (hp1 : -d ≤ p) (hp2 : p ≤ d) :
    ∃ w, 0 ≤ w ∧ w ≤ 1 ∧ sin p = (1 - w) * sin (-d) + w * sin d ∧ 0 ≤ cos p - cos d ∧ cos p - cos d ≤ 1 - cos d := by
  have hpi := pi_pos
  have hc : cos d ≤ cos p := by
    rw [← cos_abs p]
    exact cos_le_cos_of_nonneg_of_le_pi (abs_nonneg _) (by linarith) (abs_le.2 ⟨hp1, hp2⟩)
  have s1 : sin p ≤ sin d := sin_le_sin_of_le_of_le_pi_div_two (by linarith) hd2 hp2
  have s2 : -sin d ≤ sin p := by
    rw [← sin_neg]; exact sin_le_sin_of_le_of_le_pi_div_two (by linarith) (by linarith) hp1
  rcases hd.eq_or_lt with rfl | hd0
  · obtain rfl : p = 0 := by linarith
    exact ⟨0, le_refl _, zero_le_one, by simp, by simp, by simp⟩
  · have hs : 0 < sin d := sin_pos_of_pos_of_lt_pi hd0 (by linarith)
    refine ⟨(sin p + sin d) / (2 * sin d), div_nonneg (by linarith) (by linarith), ?_, ?_, by linarith, by linarith [cos_le_one p]⟩
    · rw [div_le_one (by linarith)]; linarith
    · rw [sin_neg]; field_simp; ring

/-- **C78 (the line along the coordinates)** Every point of the arc is close to a point of the line through the coordinates: the distance is at most
the greater radius times `1 - cos` of half of a step. -/
theorem coords_near (a : ArcR) (ang tol : ℝ) (hx : 0 ≤ a.rx) (hy : 0 ≤ a.ry) :
    ∃ (l : List (Pt ℝ)) (n : ℕ), 1 ≤ n ∧ l.length = n + 1 ∧ (∀ f, n + 2 ≤ f → items a (step a ang tol) f 0 = some l) ∧ (|a.sweep| ≤ n * π →
      ∀ u, 0 ≤ u → u ≤ 1 → ∃ i p q w, l[i]? = some p ∧ l[i + 1]? = some q ∧ 0 ≤ w ∧ w ≤ 1 ∧
        Sq (Along a u) (Between p q w) ≤ (max a.rx a.ry * (1 - cos (a.sweep / (2 * n)))) ^ 2) := by
  obtain ⟨j, -, hl, -⟩ := coords_points a ang tol
  refine ⟨_, 2 ^ j, Nat.one_le_two_pow, by simp, hl, fun hs u u0 u1 => ?_⟩
  push_cast at hs ⊢
  have hn' : (0 : ℝ) < 2 ^ j := by positivity
  set N : ℝ := 2 ^ j with hN
  obtain ⟨i, hi, hi0, hi1⟩ := piece (n := 2 ^ j) (by positivity) (x := u * N) (by positivity)
    (by push_cast; exact mul_le_of_le_one_left hn'.le u1)
  set d := a.sweep / (2 * N) with hd
  obtain ⟨m, hm⟩ : ∃ m, m = a.start + (i + 1 / 2) * (a.sweep / N) := ⟨_, rfl⟩
  obtain ⟨p, hp⟩ : ∃ p, p = (2 * (u * N - i) - 1) * d := ⟨_, rfl⟩
  have habs : |d| ≤ π / 2 := by
    rw [hd, abs_div, abs_of_pos (by positivity : 0 < 2 * N), div_le_iff₀ (by positivity)]; nlinarith
  have hpd : |p| ≤ |d| := by
    rw [hp, abs_mul]
    have : |2 * (u * N - i) - 1| ≤ 1 := abs_le.2 ⟨by linarith, by linarith⟩
    exact mul_le_of_le_one_left (abs_nonneg _) this
  obtain ⟨hp1, hp2⟩ := abs_le.1 hpd
  obtain ⟨w0, h0, h1, hsin, hc0, hc1⟩ := chord_unit (abs_nonneg d) habs hp1 hp2
  -- for a negative sweep the chord is turned around
  obtain ⟨w, h0, h1, hsin⟩ : ∃ w, 0 ≤ w ∧ w ≤ 1 ∧ sin p = (1 - w) * sin (-d) + w * sin d := by
    rcases le_total 0 d with h | h
    · rw [abs_of_nonneg h] at hsin; exact ⟨w0, h0, h1, hsin⟩
    · rw [abs_of_nonpos h, neg_neg] at hsin; exact ⟨1 - w0, by linarith, by linarith, by rw [hsin]; ring⟩
  rw [cos_abs] at hc0 hc1
  refine ⟨i, Along a (i / N), Along a (((i + 1 : ℕ) : ℝ) / N), w, ?_, ?_, h0, h1, ?_⟩
  · rw [List.getElem?_map, List.getElem?_range (by omega)]; rfl
  · rw [List.getElem?_map, List.getElem?_range (by omega)]; rfl
  have eu : a.start + u * a.sweep = m + p := by rw [hm, hp, hd]; field_simp; ring
  have ei : a.start + i / N * a.sweep = m + -d := by rw [hm, hd]; field_simp; ring
  have ei1 : a.start + ((i + 1 : ℕ) : ℝ) / N * a.sweep = m + d := by rw [hm, hd]; push_cast; field_simp; ring
  have hsr := sin_sq_add_cos_sq a.rot
  have hsm := sin_sq_add_cos_sq m
  obtain ⟨e, he⟩ : ∃ e, e = cos p - cos d := ⟨_, rfl⟩
  have ecp : cos p = cos d + e := by linarith
  have key : Sq (Along a u) (Between (Along a (i / N)) (Along a (((i + 1 : ℕ) : ℝ) / N)) w) =
      e ^ 2 * ((a.rx * cos m) ^ 2 + (a.ry * sin m) ^ 2) := by
    simp only [Sq, Between, Along, eu, ei, ei1]
    simp only [cos_add, sin_add, hsin, ecp, cos_neg, sin_neg]
    linear_combination e ^ 2 * ((a.rx * cos m) ^ 2 + (a.ry * sin m) ^ 2) * hsr
  rw [key, mul_pow (max a.rx a.ry), mul_comm (e ^ 2)]
  have hR : (a.rx * cos m) ^ 2 + (a.ry * sin m) ^ 2 ≤ max a.rx a.ry ^ 2 := by
    have m1 : a.rx ^ 2 ≤ max a.rx a.ry ^ 2 := by gcongr; exact le_max_left _ _
    have m2 : a.ry ^ 2 ≤ max a.rx a.ry ^ 2 := by gcongr; exact le_max_right _ _
    nlinarith [sq_nonneg (sin m), sq_nonneg (cos m)]
  have hE : e ^ 2 ≤ (1 - cos d) ^ 2 := by rw [← he] at hc0 hc1; gcongr
  exact mul_le_mul hR hE (sq_nonneg _) (sq_nonneg _)

end Verif.Arcs
