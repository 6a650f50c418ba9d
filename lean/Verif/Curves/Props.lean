import Verif.Curves.Spec

/-!
# Parts of curves, and points along them
-/

namespace Verif.Curves

open Verif.Gjk

variable {K : Type} [Field K] [LinearOrder K] [IsStrictOrderedRing K]

omit [LinearOrder K] [IsStrictOrderedRing K] in
theorem pointAt_eq (c : Cubic K) (t : K) : pointAt c t = c.curve t := by
  apply Prod.ext <;> simp only [pointAt, Cubic.curve, Bez, Prod.smul_fst, Prod.smul_snd, Prod.fst_add, Prod.snd_add, smul_eq_mul] <;> ring

omit [LinearOrder K] [IsStrictOrderedRing K] in
theorem curve_zero (c : Cubic K) : c.curve 0 = c.s := by
  apply Prod.ext <;> simp [Cubic.curve, Bez]

omit [LinearOrder K] [IsStrictOrderedRing K] in
theorem curve_one (c : Cubic K) : c.curve 1 = c.p := by
  apply Prod.ext <;> simp [Cubic.curve, Bez]

omit [LinearOrder K] [IsStrictOrderedRing K] in
theorem dist2_eq (p q : Pt K) : dist2 p q = Sq p q := by simp only [dist2, Sq]; ring

/-- **C77 (dividing a curve)** The two parts of a divided curve run along the curve, up to the place of the division and from there on. -/
theorem subdivide_along (c : Cubic K) (t : K) :
    Along (subdivide c t).1 c 0 t ∧ Along (subdivide c t).2 c t 1 := by
  constructor <;> intro w <;> apply Prod.ext <;>
    simp only [subdivide, lerp, Cubic.curve, Bez, Prod.smul_fst, Prod.smul_snd, Prod.fst_add, Prod.snd_add, Prod.fst_sub, Prod.snd_sub,
      smul_eq_mul] <;> ring

/-- **C77 (reversing a curve)** A reversed curve runs along all of the curve, from the end to the start. -/
theorem reverse_along (c : Cubic K) : Along (reverse c) c 1 0 := by
  intro w; apply Prod.ext <;> simp only [reverse, Cubic.curve, Bez] <;> ring

/-- **C77 (quadratic curves)** The curve of a quadratic control is the quadratic curve. -/
theorem newQuad_curve (q s p : Pt K) (t : K) :
    (newQuad q s p).curve t =
      ((1 - t) ^ 2 * s.1 + 2 * (1 - t) * t * q.1 + t ^ 2 * p.1, (1 - t) ^ 2 * s.2 + 2 * (1 - t) * t * q.2 + t ^ 2 * p.2) := by
  apply Prod.ext <;>
    simp only [newQuad, Cubic.curve, Bez, Prod.smul_fst, Prod.smul_snd, Prod.fst_add, Prod.snd_add, Prod.fst_sub, Prod.snd_sub, smul_eq_mul] <;>
    field_simp <;> ring

omit [LinearOrder K] [IsStrictOrderedRing K] in
theorem Along.trans {a b c : Cubic K} {u v x y : K} (h : Along a b u v) (k : Along b c x y) :
    Along a c (x + u * (y - x)) (x + v * (y - x)) := by
  intro w; rw [h w, k]; congr 1; ring

omit [LinearOrder K] [IsStrictOrderedRing K] in
theorem Along.ends {a b : Cubic K} {u v : K} (h : Along a b u v) : a.s = b.curve u ∧ a.p = b.curve v := by
  constructor
  · rw [← curve_zero, h]; congr 1; ring
  · rw [← curve_one, h]; congr 1; ring

theorem clampT_eq (c : Cubic K) (t1 t2 : K) :
    clampT c t1 t2 = (subdivide (subdivide c t1).2 (if |1 - t1| < 1 / 10 ^ 10 then 1 else (t2 - t1) / (1 - t1))).1 := by
  have e : pointAt c t1 = (subdivide c t1).2.s := by rw [pointAt_eq]; exact ((subdivide_along c t1).2.ends.1).symm
  simp only [clampT, e]; rfl

/-- **C77 (parts of a curve)** The part of a curve between two places runs along the curve from the one to the other, if the first one is not the end. -/
theorem clampT_along (c : Cubic K) {t1 : K} (t2 : K) (h : 1 / 10 ^ 10 ≤ |1 - t1|) : Along (clampT c t1 t2) c t1 t2 := by
  rw [clampT_eq, if_neg (not_lt.2 h)]
  have := (subdivide_along (subdivide c t1).2 ((t2 - t1) / (1 - t1))).1.trans (subdivide_along c t1).2
  have h0 : (1 - t1) ≠ 0 := by
    intro e; rw [e, abs_zero] at h
    exact absurd (lt_of_lt_of_le (by positivity : (0 : K) < 1 / 10 ^ 10) h) (lt_irrefl _)
  rwa [zero_mul, add_zero, div_mul_cancel₀ _ h0, add_sub_cancel] at this

/-- **C77 (parts of a curve, at the end)** If the first place is close to the end, then the part runs up to the end. -/
theorem clampT_end (c : Cubic K) {t1 : K} (t2 : K) (h : |1 - t1| < 1 / 10 ^ 10) : Along (clampT c t1 t2) c t1 1 := by
  rw [clampT_eq, if_pos h]
  have := (subdivide_along (subdivide c t1).2 1).1.trans (subdivide_along c t1).2
  rwa [zero_mul, add_zero, one_mul, add_sub_cancel] at this

omit [IsStrictOrderedRing K] in
theorem better_some (c : Cubic K) (x : Pt K) (l : List K) (b : K) : ∃ t ∈ b :: l, l.foldl (better c x) (some b) = some t ∧
    ∀ u ∈ b :: l, dist2 (pointAt c t) x ≤ dist2 (pointAt c u) x := by
  induction l generalizing b with
  | nil => exact ⟨b, by simp, rfl, by simp⟩
  | cons u l ih =>
    simp only [List.foldl_cons, better]
    split
    · rename_i h
      obtain ⟨t, ht, e, m⟩ := ih u
      refine ⟨t, List.mem_cons_of_mem _ ht, e, ?_⟩
      intro v hv
      rcases List.mem_cons.1 hv with rfl | hv
      · exact (m u (by simp)).trans h.le
      · exact m v hv
    · rename_i h
      obtain ⟨t, ht, e, m⟩ := ih b
      refine ⟨t, by rcases List.mem_cons.1 ht with h | h <;> simp [h], e, ?_⟩
      intro v hv
      rcases List.mem_cons.1 hv with rfl | hv
      · exact m v (by simp)
      rcases List.mem_cons.1 hv with rfl | hv
      · exact (m b (by simp)).trans (not_lt.1 h)
      · exact m v (List.mem_cons_of_mem _ hv)

omit [IsStrictOrderedRing K] in
/-- What `t_at` gives: the best of the candidates, if it is close enough. -/
theorem tAt_best (c : Cubic K) (x : Pt K) (tol : K) : ∃ k ∈ (seeds : List K), ∀ t, t = newton c x 8 k →
    (∀ u ∈ (seeds : List K), Sq (c.curve t) x ≤ Sq (c.curve (newton c x 8 u)) x) ∧
    tAt c x tol = if Sq (c.curve t) x ≤ tol then some t else none := by
  obtain ⟨t, ht, e, m⟩ := better_some c x ((seeds.tail).map (newton c x 8)) (newton c x 8 0)
  have e' : (seeds.map (newton c x 8)).foldl (better c x) none = some t := e
  have ht' : t ∈ seeds.map (newton c x 8) := ht
  obtain ⟨k, hk, rfl⟩ := List.mem_map.1 ht'
  refine ⟨k, hk, ?_⟩
  rintro t rfl
  refine ⟨fun u hu => ?_, ?_⟩
  · have := m _ (show newton c x 8 u ∈ (seeds.map (newton c x 8) : List K) from List.mem_map.2 ⟨u, hu, rfl⟩)
    rwa [dist2_eq, dist2_eq, pointAt_eq, pointAt_eq] at this
  · simp only [tAt, e', dist2_eq, pointAt_eq]

theorem unit_bounds (t : K) : 0 ≤ unit t ∧ unit t ≤ 1 := by
  unfold unit; split
  · exact ⟨le_refl _, zero_le_one⟩
  split
  · exact ⟨zero_le_one, le_refl _⟩
  · exact ⟨not_lt.1 ‹_›, not_lt.1 ‹_›⟩

omit [IsStrictOrderedRing K] in
theorem unit_of {t : K} (h : 0 ≤ t) (k : t ≤ 1) : unit t = t := by
  rw [unit, if_neg (not_lt.2 h), if_neg (not_lt.2 k)]

theorem newton_bounds (c : Cubic K) (x : Pt K) (n : ℕ) {t : K} (h : 0 ≤ t ∧ t ≤ 1) : 0 ≤ newton c x n t ∧ newton c x n t ≤ 1 := by
  induction n generalizing t with
  | zero => exact h
  | succ n ih =>
    simp only [newton]
    split
    · exact h
    split
    · exact unit_bounds _
    · exact ih (unit_bounds _)

theorem seed_bounds {k : K} (h : k ∈ (seeds : List K)) : 0 ≤ k ∧ k ≤ 1 := by
  simp only [seeds, List.mem_cons, List.not_mem_nil, or_false] at h
  rcases h with rfl | rfl | rfl | rfl | rfl <;> constructor <;> norm_num

/-- **C77 (finding a point is sound)** The place that is found for a point is on the curve, and the curve is there not farther from the point than the
tolerance. -/
theorem tAt_sound (c : Cubic K) (x : Pt K) (tol : K) {t : K} (h : tAt c x tol = some t) :
    0 ≤ t ∧ t ≤ 1 ∧ Sq (c.curve t) x ≤ tol := by
  obtain ⟨k, hk, hb⟩ := tAt_best c x tol
  obtain ⟨_, e⟩ := hb _ rfl
  rw [e] at h
  split at h
  · obtain rfl := Option.some.inj h
    exact ⟨(newton_bounds c x 8 (seed_bounds hk)).1, (newton_bounds c x 8 (seed_bounds hk)).2, ‹_›⟩
  · cases h

/-- **C77 (tolerance)** A greater tolerance does not change the place that is found. -/
theorem tAt_mono (c : Cubic K) (x : Pt K) {tol tol' : K} (h : tol ≤ tol') {t : K} (e : tAt c x tol = some t) : tAt c x tol' = some t := by
  simp only [tAt] at *
  split at e
  · cases e
  · split at e
    · rename_i h' ; rw [if_pos (h'.trans h)]; exact e
    · cases e

omit [LinearOrder K] [IsStrictOrderedRing K] in
theorem sq_zero_of (p : Pt K) : Sq p p = 0 := by simp [Sq]

theorem sq_nonneg' (p q : Pt K) : 0 ≤ Sq p q := by unfold Sq; positivity

theorem eq_of_sq {p q : Pt K} (h : Sq p q ≤ 0) : p = q := by
  have h1 := sq_nonneg (p.1 - q.1)
  have h2 := sq_nonneg (p.2 - q.2)
  unfold Sq at h
  have e1 : (p.1 - q.1) ^ 2 = 0 := by linarith
  have e2 : (p.2 - q.2) ^ 2 = 0 := by linarith
  rw [sq_eq_zero_iff, sub_eq_zero] at e1 e2
  exact Prod.ext e1 e2

/-- If one of the candidates is exact, then an exact place is found. -/
theorem tAt_exact (c : Cubic K) (x : Pt K) {tol : K} (ht : 0 ≤ tol) {u : K} (hu : u ∈ (seeds : List K)) (e : c.curve (newton c x 8 u) = x) :
    ∃ t, tAt c x tol = some t ∧ c.curve t = x := by
  obtain ⟨k, hk, hb⟩ := tAt_best c x tol
  obtain ⟨m, e'⟩ := hb _ rfl
  have := m u hu
  rw [e, sq_zero_of] at this
  exact ⟨_, by rw [e', if_pos (this.trans ht)], eq_of_sq this⟩

theorem newton_stay (c : Cubic K) (n : ℕ) {t : K} (h : 0 ≤ t ∧ t ≤ 1) : newton c (c.curve t) n t = t := by
  cases n with
  | zero => rfl
  | succ n =>
    have : dot (pointAt c t - c.curve t) (first' c t) = 0 := by rw [pointAt_eq, sub_self]; simp [dot]
    simp only [newton, this, zero_div, sub_zero, unit_of h.1 h.2, abs_zero]
    split
    · rfl
    · rw [if_pos (by positivity)]

/-- **C77 (finding a point of the curve, five places)** The point a quarter, half or three quarters along the curve and the ends are found. -/
theorem tAt_seed (c : Cubic K) {tol : K} (ht : 0 ≤ tol) {u : K} (hu : u ∈ ([0, 1 / 4, 1 / 2, 3 / 4, 1] : List K)) :
    ∃ t, 0 ≤ t ∧ t ≤ 1 ∧ tAt c (c.curve u) tol = some t ∧ c.curve t = c.curve u := by
  obtain ⟨t, e, h⟩ := tAt_exact c (c.curve u) ht (u := u) hu (by rw [newton_stay c 8 (seed_bounds hu)])
  obtain ⟨h1, h2, _⟩ := tAt_sound _ _ _ e
  exact ⟨t, h1, h2, e, h⟩

/-- **C77 (dividing at a point)** The parts of a curve that is divided at a point run along the curve, and they meet not farther from the point than
the tolerance. -/
theorem subdivideAt_along (c : Cubic K) (x : Pt K) {tol : K} {l r : Cubic K} (h : subdivideAt c x tol = some (l, r)) :
    ∃ t, 0 ≤ t ∧ t ≤ 1 ∧ Along l c 0 t ∧ Along r c t 1 ∧ l.p = r.s ∧ Sq r.s x ≤ tol := by
  simp only [subdivideAt, Option.map_eq_some_iff] at h
  obtain ⟨t, ht, e⟩ := h
  obtain ⟨h0, h1, hs⟩ := tAt_sound c x tol ht
  have := subdivide_along c t
  rw [e] at this
  refine ⟨t, h0, h1, this.1, this.2, ?_, ?_⟩
  · rw [this.1.ends.2, this.2.ends.1]
  · rw [this.2.ends.1]; exact hs

/-- **C77 (parts between points)** The part of a curve between two points runs along the curve, and it starts not farther from the first point than the
tolerance; it ends not farther from the second one, unless it starts at the end of the curve. -/
theorem clampAt_along (c : Cubic K) (x y : Pt K) {tol : K} {d : Cubic K} (h : clampAt c x y tol = some d) :
    ∃ t1 t2, 0 ≤ t1 ∧ t1 ≤ 1 ∧ 0 ≤ t2 ∧ t2 ≤ 1 ∧ Along d c t1 t2 ∧ Sq d.s x ≤ tol ∧ (t1 ≤ 1 - 1 / 10 ^ 10 → Sq d.p y ≤ tol) := by
  simp only [clampAt, Option.bind_eq_some_iff, Option.map_eq_some_iff] at h
  obtain ⟨t1, e1, t2, e2, rfl⟩ := h
  obtain ⟨h1, k1, s1⟩ := tAt_sound c x tol e1
  obtain ⟨h2, k2, s2⟩ := tAt_sound c y tol e2
  by_cases hh : 1 / 10 ^ 10 ≤ |1 - t1|
  · have := clampT_along c t2 hh
    refine ⟨t1, t2, h1, k1, h2, k2, this, by rw [this.ends.1]; exact s1, fun _ => by rw [this.ends.2]; exact s2⟩
  · have := clampT_end c t2 (not_le.1 hh)
    refine ⟨t1, 1, h1, k1, zero_le_one, le_refl _, this, by rw [this.ends.1]; exact s1, fun hle => ?_⟩
    exact absurd (by rw [abs_of_nonneg (by linarith)]; linarith) hh

/-! ## Lines -/

/-- The curve that runs along a line with constant speed. -/
def straight (s v : Pt K) : Cubic K := ⟨s, s + v, s + (2 : K) • v, s + (3 : K) • v⟩

omit [LinearOrder K] [IsStrictOrderedRing K] in
theorem straight_curve (s v : Pt K) (t : K) : (straight s v).curve t = (s.1 + 3 * t * v.1, s.2 + 3 * t * v.2) := by
  apply Prod.ext <;> simp only [straight, Cubic.curve, Bez, Prod.smul_fst, Prod.smul_snd, Prod.fst_add, Prod.snd_add, smul_eq_mul] <;> ring

omit [LinearOrder K] [IsStrictOrderedRing K] in
theorem straight_first (s v : Pt K) (t : K) : first' (straight s v) t = (3 : K) • v := by
  apply Prod.ext <;>
    simp only [straight, first', Prod.smul_fst, Prod.smul_snd, Prod.fst_add, Prod.snd_add, Prod.fst_sub, Prod.snd_sub, smul_eq_mul] <;> ring

omit [LinearOrder K] [IsStrictOrderedRing K] in
theorem straight_second (s v : Pt K) (t : K) : second (straight s v) t = 0 := by
  apply Prod.ext <;>
    simp only [straight, second, Prod.smul_fst, Prod.smul_snd, Prod.fst_add, Prod.snd_add, Prod.fst_sub, Prod.snd_sub, smul_eq_mul, Prod.fst_zero,
      Prod.snd_zero] <;> ring

theorem newton_straight (s v : Pt K) (n : ℕ) {u t : K} (hu : 0 ≤ u ∧ u ≤ 1) (hv : 1 / 10 ^ 12 ≤ 9 * (v.1 ^ 2 + v.2 ^ 2)) :
    newton (straight s v) ((straight s v).curve u) (n + 1) t = u := by
  have hp : 0 < 9 * (v.1 ^ 2 + v.2 ^ 2) := lt_of_lt_of_le (by positivity) hv
  have f2 : dot ((3 : K) • v) ((3 : K) • v) + dot (pointAt (straight s v) t - (straight s v).curve u) 0 = 9 * (v.1 ^ 2 + v.2 ^ 2) := by
    simp [dot]; ring
  have f1 : dot (pointAt (straight s v) t - (straight s v).curve u) ((3 : K) • v) = (t - u) * (9 * (v.1 ^ 2 + v.2 ^ 2)) := by
    rw [pointAt_eq, straight_curve, straight_curve]
    simp only [dot, Prod.fst_sub, Prod.snd_sub, Prod.smul_fst, Prod.smul_snd, smul_eq_mul]; ring
  simp only [newton, straight_first, straight_second, f1, f2]
  rw [if_neg (by rw [abs_of_pos hp]; exact not_lt.2 hv), mul_div_cancel_right₀ _ hp.ne', sub_sub_cancel, unit_of hu.1 hu.2]
  rw [newton_stay _ _ hu, ite_self]

/-- **C77 (finding a point of a line)** Each point of a curve that runs along a line with constant speed is found, if the line is not too short. -/
theorem tAt_straight (s v : Pt K) {tol u : K} (ht : 0 ≤ tol) (hu : 0 ≤ u ∧ u ≤ 1)
    (hv : (1 / 10 ^ 6) ^ 2 ≤ Sq (straight s v).s (straight s v).p) :
    tAt (straight s v) ((straight s v).curve u) tol = some u := by
  have hv' : 1 / 10 ^ 12 ≤ 9 * (v.1 ^ 2 + v.2 ^ 2) := by
    have : Sq (straight s v).s (straight s v).p = 9 * (v.1 ^ 2 + v.2 ^ 2) := by
      simp only [Sq, straight, Prod.fst_add, Prod.snd_add, Prod.smul_fst, Prod.smul_snd, smul_eq_mul]; ring
    rw [← this]; exact le_trans (le_of_eq (by ring)) hv
  obtain ⟨k, hk, hb⟩ := tAt_best (straight s v) ((straight s v).curve u) tol
  obtain ⟨_, e⟩ := hb _ rfl
  rw [e, newton_straight s v 7 hu hv', if_pos (by rw [sq_zero_of]; exact ht)]

/-! ## The distance from the chord -/

/-- **C77 (the distance from the chord)** The distance of a control from the chord is that of the closest point of the chord. -/
theorem chordDist2_least (x s p : Pt K) :
    (∃ w, 0 ≤ w ∧ w ≤ 1 ∧ chordDist2 x s p = Sq x (Between s p w)) ∧
      ∀ w, 0 ≤ w → w ≤ 1 → chordDist2 x s p ≤ Sq x (Between s p w) := by
  simp only [chordDist2, dist2_eq]
  by_cases hd : dot (p - s) (p - s) = 0
  · rw [if_pos hd]
    have h12 : p = s := by
      have h1 := sq_nonneg (p.1 - s.1)
      have h2 := sq_nonneg (p.2 - s.2)
      simp only [dot, Prod.fst_sub, Prod.snd_sub] at hd
      exact eq_of_sq (by unfold Sq; nlinarith)
    subst h12
    have : ∀ w : K, Between p p w = p := fun w => by apply Prod.ext <;> simp only [Between] <;> ring
    exact ⟨⟨0, le_refl _, zero_le_one, by rw [this]⟩, fun w _ _ => by rw [this]⟩
  · rw [if_neg hd]
    have hp : 0 < dot (p - s) (p - s) := lt_of_le_of_ne (add_nonneg (mul_self_nonneg _) (mul_self_nonneg _)) (Ne.symm hd)
    set d := dot (p - s) (p - s) with hdd
    set t0 := ((x.1 - s.1) * (p - s).1 + (x.2 - s.2) * (p - s).2) / d with ht0
    have e0 : t0 * d = (x.1 - s.1) * (p - s).1 + (x.2 - s.2) * (p - s).2 := div_mul_cancel₀ _ hd
    have key : ∀ w, Sq x (s.1 + w * (p - s).1, s.2 + w * (p - s).2) = Sq x s - t0 ^ 2 * d + (w - t0) ^ 2 * d := by
      intro w
      have : Sq x (s.1 + w * (p - s).1, s.2 + w * (p - s).2) =
          Sq x s - 2 * w * ((x.1 - s.1) * (p - s).1 + (x.2 - s.2) * (p - s).2) + w ^ 2 * d := by
        simp only [hdd, Sq, dot]; ring
      rw [this, ← e0]; ring
    have eb : ∀ w, Between s p w = (s.1 + w * (p - s).1, s.2 + w * (p - s).2) := fun w => by
      apply Prod.ext <;> simp only [Between, Prod.fst_sub, Prod.snd_sub] <;> ring
    refine ⟨⟨unit t0, (unit_bounds t0).1, (unit_bounds t0).2, by rw [eb]⟩, fun w h0 h1 => ?_⟩
    rw [eb, key, key]
    have : (unit t0 - t0) ^ 2 ≤ (w - t0) ^ 2 := by
      rw [sq_le_sq]
      unfold unit
      split
      · rw [abs_of_nonneg (by linarith), abs_of_nonneg (by linarith)]; linarith
      split
      · rw [abs_of_nonpos (by linarith), abs_of_nonpos (by linarith)]; linarith
      · simp
    nlinarith

end Verif.Curves
