import Mathlib.Analysis.SpecialFunctions.Trigonometric.Bounds
import Mathlib.Algebra.Order.Floor.Semiring
import Verif.Gjk.Props

/-!
# Arcs, over the real numbers

`crates/oxvg_path/src/gjk_intersection.rs` 248-278: the points that are to cover an arc. Sines, cosines and tangents are exact.
-/

namespace Verif.Gjk

open Real

/-- geometry/arc.rs 16-31, `Arc`, without the memoised end. -/
structure ArcR where
  center : Pt ℝ
  rx : ℝ
  ry : ℝ
  rot : ℝ
  start : ℝ
  sweep : ℝ

/-- geometry/point.rs 443-446, `rotate_radian`. -/
noncomputable def rotate (p : Pt ℝ) (a : ℝ) : Pt ℝ := (p.1 * cos a - p.2 * sin a, p.1 * sin a + p.2 * cos a)

/-- gjk_intersection.rs 259-262, `point_at`. -/
noncomputable def ArcR.pointAt (a : ArcR) (t : ℝ) : Pt ℝ := rotate (a.rx * cos t, a.ry * sin t) a.rot + a.center

/-- gjk_intersection.rs 263-266, `tangent_at`. -/
noncomputable def ArcR.tangentAt (a : ArcR) (t : ℝ) : Pt ℝ := rotate (-a.rx * sin t, a.ry * cos t) a.rot

/-- gjk_intersection.rs 255. -/
noncomputable def ArcR.count (a : ArcR) : ℕ := max ⌈|a.sweep| / (π / 2)⌉₊ 1

/-- gjk_intersection.rs 248-278: the points for an arc. -/
noncomputable def ArcR.nest (a : ArcR) : List (Pt ℝ) :=
  let n := a.count
  let step := a.sweep / n
  let k := 4 / 3 * tan (step / 4)
  (List.range n).flatMap fun (i : ℕ) =>
    let t1 := a.start + step * i
    let t2 := t1 + step
    let subEnd := a.pointAt t2
    [a.pointAt t1 + k • a.tangentAt t1, subEnd - k • a.tangentAt t2, subEnd]

/-! ## What an arc draws -/

/-- SVG F.6.3: the points of the arc. -/
def ArcR.On (a : ArcR) (x : Pt ℝ) : Prop := ∃ u : ℝ, 0 ≤ u ∧ u ≤ 1 ∧
  x.1 = cos a.rot * (a.rx * cos (a.start + u * a.sweep)) - sin a.rot * (a.ry * sin (a.start + u * a.sweep)) + a.center.1 ∧
  x.2 = sin a.rot * (a.rx * cos (a.start + u * a.sweep)) + cos a.rot * (a.ry * sin (a.start + u * a.sweep)) + a.center.2

theorem ArcR.on_iff (a : ArcR) (x : Pt ℝ) : a.On x ↔ ∃ u : ℝ, 0 ≤ u ∧ u ≤ 1 ∧ x = a.pointAt (a.start + u * a.sweep) := by
  simp only [ArcR.On, ArcR.pointAt, rotate, Prod.ext_iff, Prod.fst_add, Prod.snd_add]
  constructor
  · rintro ⟨u, h0, h1, e1, e2⟩
    exact ⟨u, h0, h1, by rw [e1]; ring, by rw [e2]; ring⟩
  · rintro ⟨u, h0, h1, e1, e2⟩
    exact ⟨u, h0, h1, by rw [e1]; ring, by rw [e2]; ring⟩

/-- A piece of the unit circle, seen from its middle, is in the trapezoid of the control points. -/
theorem circle_hull {h p : ℝ} (h0 : 0 < h) (h1 : h ≤ π / 4) (hp : |p| ≤ h) : ∃ a b c d : ℝ, 0 ≤ a ∧ 0 ≤ b ∧ 0 ≤ c ∧ 0 ≤ d ∧ a + b + c + d = 1 ∧
    cos p = (a + d) * cos h + (b + c) * (cos h + 4 / 3 * tan (h / 2) * sin h) ∧
    sin p = (d - a) * sin h + (c - b) * (sin h - 4 / 3 * tan (h / 2) * cos h) := by
  have hpi := pi_pos
  have hs : 0 < sin h := sin_pos_of_pos_of_lt_pi h0 (by linarith)
  have hc2 : 0 < cos (h / 2) := cos_pos_of_mem_Ioo ⟨by linarith, by linarith⟩
  have hs2 : 0 < sin (h / 2) := sin_pos_of_pos_of_lt_pi (by linarith) (by linarith)
  obtain ⟨k, hk⟩ : ∃ k, k = 4 / 3 * tan (h / 2) := ⟨_, rfl⟩
  have hsin : sin h = 2 * sin (h / 2) * cos (h / 2) := by rw [← sin_two_mul]; congr 1; ring
  have hcos : cos h = 1 - 2 * sin (h / 2) ^ 2 := by
    have := cos_two_mul (h / 2)
    rw [show 2 * (h / 2) = h by ring] at this
    have := sin_sq_add_cos_sq (h / 2)
    linarith
  have hks : k * sin h = 8 / 3 * sin (h / 2) ^ 2 := by
    rw [hk, hsin, tan_eq_sin_div_cos]
    field_simp
    ring
  have hks0 : 0 < k * sin h := by rw [hks]; positivity
  have hcosp : cos h ≤ cos p := by
    rw [← cos_abs p]
    exact cos_le_cos_of_nonneg_of_le_pi (abs_nonneg _) (by linarith) hp
  have hcosp1 := cos_le_one p
  -- how far to the right, and how wide the trapezoid is there
  obtain ⟨l, hl⟩ : ∃ l, l = (cos p - cos h) / (k * sin h) := ⟨_, rfl⟩
  have hl0 : 0 ≤ l := by rw [hl]; exact div_nonneg (by linarith) (le_of_lt hks0)
  have hl1 : l ≤ 1 := by
    rw [hl, div_le_one hks0, hks]
    nlinarith [sq_nonneg (sin (h / 2))]
  have hlk : l * (k * sin h) = cos p - cos h := by rw [hl]; exact div_mul_cancel₀ _ (ne_of_gt hks0)
  obtain ⟨w, hw⟩ : ∃ w, w = sin h - l * k * cos h := ⟨_, rfl⟩
  have hws : w * sin h = 1 - cos p * cos h := by
    rw [hw]
    have := sin_sq_add_cos_sq h
    linear_combination this - cos h * hlk
  have hin : ∀ q, cos q = cos p → sin q ≤ w := by
    intro q hq
    have := cos_le_one (q - h)
    rw [cos_sub, hq] at this
    have : sin q * sin h ≤ w * sin h := by rw [hws]; linarith
    exact le_of_mul_le_mul_right this hs
  have hin1 := hin p rfl
  have hin2 := hin (-p) (cos_neg p)
  rw [sin_neg] at hin2
  have hw0 : 0 < w := by
    have hch : cos h < 1 := by rw [hcos]; nlinarith
    have hch0 : 0 < cos h := cos_pos_of_mem_Ioo ⟨by linarith, by linarith⟩
    have : 0 < w * sin h := by rw [hws]; nlinarith
    exact (mul_pos_iff_of_pos_right hs).mp this
  obtain ⟨m, hm⟩ : ∃ m, m = (1 + sin p / w) / 2 := ⟨_, rfl⟩
  have hmw : (2 * m - 1) * w = sin p := by rw [hm]; field_simp; ring
  have hm0 : 0 ≤ m := by
    rw [hm]
    have : -1 ≤ sin p / w := by rw [le_div_iff₀ hw0]; linarith
    linarith
  have hm1 : m ≤ 1 := by
    rw [hm]
    have : sin p / w ≤ 1 := by rw [div_le_one hw0]; exact hin1
    linarith
  rw [← hk]
  refine ⟨(1 - l) * (1 - m), l * (1 - m), l * m, (1 - l) * m, mul_nonneg (by linarith) (by linarith), mul_nonneg hl0 (by linarith), mul_nonneg hl0 hm0,
    mul_nonneg (by linarith) hm0, by ring, ?_, ?_⟩
  · linear_combination -hlk
  · rw [← hmw, hw]; ring

/-- A piece of the arc, as far as a quarter turn. -/
theorem ArcR.piece (a : ArcR) {C : Set (Pt ℝ)} (hC : Convex ℝ C) {t s : ℝ} (hs : |s| ≤ π / 2) (h1 : a.pointAt t ∈ C)
    (h2 : a.pointAt t + (4 / 3 * tan (s / 4)) • a.tangentAt t ∈ C) (h3 : a.pointAt (t + s) - (4 / 3 * tan (s / 4)) • a.tangentAt (t + s) ∈ C)
    (h4 : a.pointAt (t + s) ∈ C) {v : ℝ} (hv0 : 0 ≤ v) (hv1 : v ≤ 1) : a.pointAt (t + v * s) ∈ C := by
  -- seen from the middle
  have frame : ∀ r, a.pointAt (t + s / 2 + r) = a.center + (cos r • rotate (a.rx * cos (t + s / 2), a.ry * sin (t + s / 2)) a.rot +
      sin r • a.tangentAt (t + s / 2)) := by
    intro r
    refine Prod.ext ?_ ?_ <;> simp only [ArcR.pointAt, ArcR.tangentAt, rotate, Prod.fst_add, Prod.snd_add, Prod.smul_fst, Prod.smul_snd, smul_eq_mul, cos_add, sin_add (t + s / 2)] <;> ring
  have frame' : ∀ r, a.tangentAt (t + s / 2 + r) = -sin r • rotate (a.rx * cos (t + s / 2), a.ry * sin (t + s / 2)) a.rot +
      cos r • a.tangentAt (t + s / 2) := by
    intro r
    refine Prod.ext ?_ ?_ <;> simp only [ArcR.tangentAt, rotate, Prod.fst_add, Prod.snd_add, Prod.smul_fst, Prod.smul_snd, smul_eq_mul, cos_add, sin_add (t + s / 2)] <;> ring
  have e1 : t = t + s / 2 + -(s / 2) := by ring
  have e2 : t + s = t + s / 2 + s / 2 := by ring
  have e3 : t + v * s = t + s / 2 + (v - 1 / 2) * s := by ring
  have e4 : s / 4 = (s / 2) / 2 := by ring
  have comb : ∀ {A B D E : Pt ℝ} {x y z w : ℝ}, A ∈ C → B ∈ C → D ∈ C → E ∈ C → 0 ≤ x → 0 ≤ y → 0 ≤ z → 0 ≤ w → x + y + z + w = 1 →
      x • A + y • B + z • D + w • E ∈ C := by
    intro A B D E x y z w hA hB hD hE hx hy hz hw hsum
    have := hC.sum_mem (t := Finset.univ) (w := ![x, y, z, w]) (z := ![A, B, D, E]) (by intro i _; fin_cases i <;> assumption)
      (by simp [Fin.sum_univ_four, hsum]) (by intro i _; fin_cases i <;> assumption)
    simpa [Fin.sum_univ_four] using this
  rw [e3, frame]
  rw [e4] at h2 h3
  rw [e1, frame] at h1
  rw [e2, frame] at h4
  nth_rewrite 1 [e1] at h2
  nth_rewrite 2 [e1] at h2
  rw [frame, frame'] at h2
  rw [e2, frame, frame'] at h3
  generalize rotate (a.rx * cos (t + s / 2), a.ry * sin (t + s / 2)) a.rot = U at *
  generalize a.tangentAt (t + s / 2) = V at *
  rw [cos_neg, sin_neg] at h1 h2
  rcases lt_trichotomy s 0 with hneg | hz | hpos
  · obtain ⟨x, y, z, w, hx, hy, hz, hw, hsum, e5, e6⟩ := circle_hull (h := -(s / 2)) (p := (v - 1 / 2) * s) (by linarith)
      (by rw [abs_of_neg hneg] at hs; linarith) (by rw [abs_mul, abs_of_neg hneg]; have : |v - 1 / 2| ≤ 1 / 2 := abs_le.mpr ⟨by linarith, by linarith⟩; nlinarith)
    have := comb h1 h2 h3 h4 hw hz hy hx (by linarith)
    convert this using 1
    rw [cos_neg, sin_neg, show -(s / 2) / 2 = -(s / 2 / 2) by ring, tan_neg] at e5
    rw [cos_neg, sin_neg, show -(s / 2) / 2 = -(s / 2 / 2) by ring, tan_neg] at e6
    rw [e5, e6]
    have hsum' : x = 1 - y - z - w := by linarith
    refine Prod.ext ?_ ?_ <;> simp only [Prod.fst_add, Prod.snd_add, Prod.fst_sub, Prod.snd_sub, Prod.smul_fst, Prod.smul_snd, smul_eq_mul] <;> rw [hsum'] <;> ring
  · subst hz
    simpa using h1
  · obtain ⟨x, y, z, w, hx, hy, hz, hw, hsum, e5, e6⟩ := circle_hull (h := s / 2) (p := (v - 1 / 2) * s) (by linarith)
      (by rw [abs_of_pos hpos] at hs; linarith) (by rw [abs_mul, abs_of_pos hpos]; have : |v - 1 / 2| ≤ 1 / 2 := abs_le.mpr ⟨by linarith, by linarith⟩; nlinarith)
    have := comb h1 h2 h3 h4 hx hy hz hw hsum
    convert this using 1
    rw [e5, e6]
    have hsum' : x = 1 - y - z - w := by linarith
    refine Prod.ext ?_ ?_ <;> simp only [Prod.fst_add, Prod.snd_add, Prod.fst_sub, Prod.snd_sub, Prod.smul_fst, Prod.smul_snd, smul_eq_mul] <;> rw [hsum'] <;> ring

theorem ArcR.count_pos (a : ArcR) : 0 < a.count := lt_of_lt_of_le Nat.zero_lt_one (le_max_right _ _)

theorem ArcR.mem_nest (a : ArcR) {i : ℕ} (hi : i < a.count) {x : Pt ℝ}
    (hx : x = a.pointAt (a.start + a.sweep / a.count * i) + (4 / 3 * tan (a.sweep / a.count / 4)) • a.tangentAt (a.start + a.sweep / a.count * i) ∨
      x = a.pointAt (a.start + a.sweep / a.count * i + a.sweep / a.count) - (4 / 3 * tan (a.sweep / a.count / 4)) • a.tangentAt (a.start + a.sweep / a.count * i + a.sweep / a.count) ∨
      x = a.pointAt (a.start + a.sweep / a.count * i + a.sweep / a.count)) : x ∈ a.nest := by
  simp only [ArcR.nest, List.mem_flatMap, List.mem_range]
  exact ⟨i, hi, by simpa using hx⟩

/-- The end of the arc is one of the points. -/
theorem ArcR.stop_mem (a : ArcR) : a.pointAt (a.start + a.sweep) ∈ a.nest := by
  have hn := a.count_pos
  refine a.mem_nest (i := a.count - 1) (by omega) (.inr (.inr ?_))
  congr 1
  rw [Nat.cast_sub (by omega), Nat.cast_one]
  have : (a.count : ℝ) ≠ 0 := by exact_mod_cast ne_of_gt hn
  field_simp
  ring

/-- **C62 (arcs are covered).** The points that are chosen for an arc, with the point where it begins, have the whole arc in their convex hull. -/
theorem ArcR.covered (a : ArcR) {x : Pt ℝ} (hx : a.On x) : x ∈ _root_.convexHull ℝ {y | y = a.pointAt a.start ∨ y ∈ a.nest} := by
  obtain ⟨u, hu0, hu1, rfl⟩ := (a.on_iff x).mp hx
  have hn := a.count_pos
  have hnr : (0 : ℝ) < a.count := by exact_mod_cast hn
  have hpi := pi_pos
  -- which piece
  have hi : ∃ i : ℕ, i < a.count ∧ (i : ℝ) ≤ u * a.count ∧ u * a.count ≤ i + 1 := by
    by_cases hlt : u * a.count < a.count
    · refine ⟨⌊u * a.count⌋₊, ?_, Nat.floor_le (by positivity), le_of_lt (Nat.lt_floor_add_one _)⟩
      exact (Nat.floor_lt (by positivity)).mpr hlt
    · refine ⟨a.count - 1, by omega, ?_, ?_⟩
      · rw [Nat.cast_sub (by omega), Nat.cast_one]; linarith
      · rw [Nat.cast_sub (by omega), Nat.cast_one]; nlinarith
  obtain ⟨i, hic, hi1, hi2⟩ := hi
  have hstep : |a.sweep / a.count| ≤ π / 2 := by
    rw [abs_div, abs_of_pos hnr, div_le_iff₀ hnr]
    have : |a.sweep| / (π / 2) ≤ a.count := (Nat.le_ceil _).trans (by exact_mod_cast le_max_left _ _)
    rw [div_le_iff₀ (by linarith)] at this
    linarith
  have sub := subset_convexHull ℝ {y | y = a.pointAt a.start ∨ y ∈ a.nest}
  have hfirst : a.pointAt (a.start + a.sweep / a.count * i) ∈ _root_.convexHull ℝ {y | y = a.pointAt a.start ∨ y ∈ a.nest} := by
    apply sub
    cases i with
    | zero => left; simp
    | succ j =>
      right
      refine a.mem_nest (i := j) (by omega) (.inr (.inr ?_))
      congr 1
      push_cast
      ring
  have := a.piece (convex_convexHull ℝ _) (t := a.start + a.sweep / a.count * i) (s := a.sweep / a.count) hstep hfirst
    (sub (.inr (a.mem_nest hic (.inl rfl)))) (sub (.inr (a.mem_nest hic (.inr (.inl rfl))))) (sub (.inr (a.mem_nest hic (.inr (.inr rfl)))))
    (v := u * a.count - i) (by linarith) (by linarith)
  convert this using 2
  field_simp
  ring

/-- Every arc begins where the pen is. -/
def Joined : Pt ℝ → List (Data ℝ ArcR) → Prop
  | _, [] => True
  | p, d :: ds => (match d with
      | .arcTo a => a.pointAt a.start = p
      | _ => True) ∧ Joined (d.stop fun a => a.pointAt (a.start + a.sweep)) ds

theorem joined_covers : ∀ {ds : List (Data ℝ ArcR)} {p : Pt ℝ}, Joined p ds → Covers ArcR.nest ArcR.On (fun a => a.pointAt (a.start + a.sweep)) p ds
  | [], _, _ => trivial
  | d :: ds, p, h => by
    refine ⟨?_, joined_covers h.2⟩
    cases d with
    | lineTo q => trivial
    | curveTo a b q => trivial
    | arcTo a =>
      refine ⟨a.stop_mem, fun x hx => ?_⟩
      have h1 : a.pointAt a.start = p := h.1
      have := a.covered hx
      rwa [h1] at this

/-- The points that a subpath paints, with real arcs. -/
def Seg.paints (s : Seg ℝ ArcR) : Set (Pt ℝ) := s.area ArcR.On fun a => a.pointAt (a.start + a.sweep)

/-- **C62 (no means apart, with arcs).** -/
theorem intersects_no_real {p q : List (Seg ℝ ArcR)} (hj : ∀ s ∈ p ++ q, Joined s.start s.data) (h : intersects ArcR.nest p q = some false) :
    ∀ s ∈ p, ∀ t ∈ q, s.data ≠ [] → t.data ≠ [] → Apart s.paints t.paints ∧ Disjoint (interior s.paints) t.paints ∧ Disjoint s.paints (interior t.paints) := by
  intro s hs t ht hsd htd
  have := intersects_no (fun s hs => joined_covers (hj s hs)) h s hs t ht hsd htd
  exact ⟨this, this.interior, this.symm.interior.symm⟩

end Verif.Gjk
