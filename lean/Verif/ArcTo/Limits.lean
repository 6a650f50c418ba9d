import Verif.ArcTo.Back

/-! # C63: what does not hold, and examples -/

namespace Verif.ArcTo

open Real Verif.Gjk

/-- The tolerance of `Tolerance::default`, geometry.rs 25-110. -/
noncomputable def standard : Tol := ⟨1 / 1000, 1000⟩

/-- **C63 (violated: it ends).** The command `A r r 0 0 1 …` of half a circle makes an arc for which writing the arguments does not end, if the radius
rounds to nothing. -/
theorem toArcTo_ends_violated {tol : Tol} {r : ℝ} (hp : 0 < tol.pos) (hs : 0 < tol.scale) (h1 : 1 / 100000 ≤ r) (h2 : r * tol.scale < 1 / 2) :
    ∃ b, fromArcTo ⟨r, r, 0, false, true⟩ (0, 0) (2 * r, 0) = some b ∧ toArcTo tol b = none := by
  have hr : 0 < r := lt_of_lt_of_le (by norm_num) h1
  obtain ⟨b, hb⟩ : ∃ b, fromArcTo ⟨r, r, 0, false, true⟩ (0, 0) (2 * r, 0) = some b := by
    rw [← Option.ne_none_iff_exists', Ne, fromArcTo_none_iff]
    simp only [abs_of_pos hr, not_or, not_lt]
    exact ⟨h1, h1, by simp; exact ne_of_gt hr⟩
  refine ⟨b, hb, ?_⟩
  have hd := fromArcTo_draws hb
  obtain ⟨c, c1, cx, cy, cm⟩ := hd.radii
  simp only [abs_of_pos hr] at cx cy cm
  have hrot : b.rot = 0 := by rw [hd.rot]; simp
  have ec : c = 1 := by
    refine le_antisymm ?_ c1
    by_contra hc
    refine cm 1 le_rfl (not_le.mp hc) ⟨(r, 0), ⟨π, ?_, ?_⟩, ⟨0, ?_, ?_⟩⟩ <;> simp [hrot]
    ring
  rw [ec, one_mul] at cx cy
  have hx : 0 < b.rx := by rw [cx]; exact hr
  have hy : 0 < b.ry := by rw [cy]; exact hr
  have hS : sin (b.sweep / 2) ^ 2 = 1 := by
    rw [← factor_arc hx hy b.rot rfl rfl, hd.first, hd.last, hrot, cx, cy, factor, half]
    simp
    field_simp
  have hS' : |sin (b.sweep / 2)| = 1 := by
    rw [← sqrt_sq_eq_abs, hS, sqrt_one]
  rw [toArcTo_none_iff hx hy hs (sweep_ne hd) hd.turn, hS', cx, cy]
  refine ⟨?_, h2, h2⟩
  simp
  positivity

example : ∃ b, fromArcTo ⟨4 / 10000, 4 / 10000, 0, false, true⟩ (0, 0) (2 * (4 / 10000), 0) = some b ∧ toArcTo standard b = none :=
  toArcTo_ends_violated (by norm_num [standard]) (by norm_num [standard]) (by norm_num) (by norm_num [standard])

/-- Nearly half of the circle with radius 100. -/
noncomputable def nearly : ArcR := ⟨(0, 0), 100, 100, 0, -arccos (2000 / 1000001), 2 * arccos (2000 / 1000001)⟩

theorem cos_nearly : cos (arccos (2000 / 1000001)) = 2000 / 1000001 := cos_arccos (by norm_num) (by norm_num)

theorem sin_nearly : sin (arccos (2000 / 1000001)) = 999999 / 1000001 := by
  rw [sin_arccos, show (1 : ℝ) - (2000 / 1000001) ^ 2 = (999999 / 1000001) ^ 2 by norm_num, sqrt_sq (by norm_num)]

theorem nearly_bounds : 0 < arccos (2000 / 1000001) ∧ arccos (2000 / 1000001) < π / 2 :=
  ⟨arccos_pos.mpr (by norm_num), arccos_lt_pi_div_two.mpr (by norm_num)⟩

theorem gcd_nearly : gcd nearly.rx nearly.ry standard.pos standard.scale = 100 := by
  have hsc : scaled 1000 100 = 100000 := by
    unfold scaled
    rw [show |(100 : ℝ) * 1000| = ((100000 : ℤ) : ℝ) by norm_num, round_intCast]
    rfl
  simp only [nearly, standard, gcd, hsc, lt_irrefl, if_false]
  rw [gcdLoop, dif_neg (by norm_num)]
  have : (100 : ℝ) / ((100000 : ℕ) / 1000) = ((1 : ℤ) : ℝ) := by norm_num
  simp only [this, round_intCast, sub_self, abs_zero]
  rw [if_pos (by norm_num)]
  norm_num

/-- **C63 (violated: within the tolerance).** An arc that is nearly half of a circle with radius 100 is written so that it is read as one whose middle
is elsewhere by 190 times the tolerance. -/
theorem toArcTo_tolerance_violated : ∃ (a b : ArcR) (g : Args) (q : Pt ℝ), 0 < a.sweep ∧ a.sweep < π ∧ toArcTo standard a = some (g, q) ∧
    fromArcTo g (pointAt a 0) q = some b ∧ 190 * standard.pos < (pointAt b (1 / 2)).1 - (pointAt a (1 / 2)).1 := by
  obtain ⟨n1, n2⟩ := nearly_bounds
  have hpi := pi_pos
  have hsw : nearly.sweep / 2 = arccos (2000 / 1000001) := by simp [nearly]
  have hx : 0 < nearly.rx := by norm_num [nearly]
  have hy : 0 < nearly.ry := by norm_num [nearly]
  have hs : 0 < standard.scale := by norm_num [standard]
  have hp : 0 < nearly.sweep := by simp only [nearly]; linarith
  have hlt : nearly.sweep < π := by simp only [nearly]; linarith
  have h0 := ne_of_gt hp
  have h1 : |nearly.sweep| < 2 * π := by rw [abs_of_pos hp]; linarith
  have hS : |sin (nearly.sweep / 2)| = 999999 / 1000001 := by rw [hsw, sin_nearly]; norm_num
  have hn : (1 - |sin (nearly.sweep / 2)|) ^ 2 * (nearly.rx ^ 2 + nearly.ry ^ 2) < standard.pos ^ 2 := by
    rw [hS]; norm_num [nearly, standard]
  obtain ⟨g, eg⟩ : ∃ g : Args, g = ⟨1, 1, nearly.rot * (180 / π), decide (π < |nearly.sweep|), decide (0 < nearly.sweep)⟩ := ⟨_, rfl⟩
  have e : toArcTo standard nearly = some (g, pointAt nearly 1) := by
    unfold toArcTo
    simp only
    rw [if_pos ((near_iff hx hy standard.pos).mpr hn), gcd_nearly, if_neg (by norm_num), radiusFactor_eq hx hy, sqrt_sq_eq_abs, hS, eg]
    have hh : ∃ n : ℕ, ¬ ((0 : ℝ) ≤ (nearly.rx / 100, nearly.ry / 100).1 / 2 ^ n - (nearly.rx * (999999 / 1000001), nearly.ry * (999999 / 1000001)).1 ∧
        0 ≤ (nearly.rx / 100, nearly.ry / 100).2 / 2 ^ n - (nearly.rx * (999999 / 1000001), nearly.ry * (999999 / 1000001)).2) := ⟨0, by norm_num [nearly]⟩
    classical
    unfold halved
    rw [dif_pos hh]
    have hz : Nat.find hh = 0 := (Nat.find_eq_zero hh).mpr (by norm_num [nearly])
    rw [hz]
    norm_num [nearly]
  obtain ⟨b, hb⟩ : ∃ b, fromArcTo g (pointAt nearly 0) (pointAt nearly 1) = some b := by
    rw [← Option.ne_none_iff_exists', Ne, fromArcTo_none_iff, eg]
    simp only [abs_one, not_or, not_lt]
    exact ⟨by norm_num, by norm_num, ends_ne hx hy h0 h1⟩
  refine ⟨nearly, b, g, _, hp, hlt, e, hb, ?_⟩
  obtain ⟨r1, r2, r3, -, r5, r6, r7, r8⟩ := toArcTo_radii hx hy hs h0 h1 hn e hb
  rw [abs_of_pos (r7.mpr hp)] at r8
  rw [hS] at r2 r3
  have q0 : pointAt nearly 0 = (200000 / 1000001, -(99999900 / 1000001)) := by
    refine Prod.ext ?_ ?_
    · simp [pointAt, rotate, nearly, cos_nearly]; norm_num
    · simp [pointAt, rotate, nearly, sin_nearly]; norm_num
  have q1 : pointAt nearly 1 = (200000 / 1000001, 99999900 / 1000001) := by
    have : -arccos (2000 / 1000001) + 2 * arccos (2000 / 1000001) = arccos (2000 / 1000001) := by ring
    refine Prod.ext ?_ ?_
    · simp [pointAt, rotate, nearly, this, cos_nearly]; norm_num
    · simp [pointAt, rotate, nearly, this, sin_nearly]; norm_num
  have q2 : (pointAt nearly (1 / 2)).1 = 100 := by
    have : -arccos (2000 / 1000001) + 2 * arccos (2000 / 1000001) * 2⁻¹ = 0 := by ring
    simp [pointAt, rotate, nearly, this]
  rw [q0] at r5
  rw [q1] at r6
  have er : b.rot = 0 := by rw [r1]; rfl
  have x0 : nearly.rx = 100 := rfl
  have y0 : nearly.ry = 100 := rfl
  have a1 := congrArg Prod.fst r5
  have a3 := congrArg Prod.fst r6
  have a2 := congrArg Prod.snd r5
  have a4 := congrArg Prod.snd r6
  simp only [pointAt, rotate, er, cos_zero, sin_zero, Prod.fst_add, Prod.snd_add, mul_zero, add_zero, sub_zero, zero_add, mul_one, r2, r3, r8, cos_add_pi, sin_add_pi, x0, y0] at a1 a2 a3 a4
  have hm : b.start + b.sweep * (1 / 2) = b.start + π / 2 := by rw [r8]; ring
  rw [q2]
  simp only [pointAt, rotate, er, cos_zero, sin_zero, Prod.fst_add, mul_zero, sub_zero, mul_one, r2, hm, cos_add_pi_div_two, standard, x0]
  linarith

/-- A quarter of the unit circle. -/
noncomputable def quarter : ArcR := ⟨(0, 0), 1, 1, 0, 0, π / 2⟩

theorem quarter_draws : Draws ⟨1, 1, 0, false, true⟩ (1, 0) (0, 1) quarter where
  rot := by simp [quarter]
  radii := ⟨1, le_rfl, by simp [quarter], by simp [quarter], fun k h1 h2 => by linarith⟩
  first := by refine Prod.ext ?_ ?_ <;> simp [pointAt, rotate, quarter]
  last := by refine Prod.ext ?_ ?_ <;> simp [pointAt, rotate, quarter]
  turn := by
    have := pi_pos
    simp only [quarter]
    rw [abs_of_pos (by linarith)]
    linarith
  pos := fun _ => by simp only [quarter]; linarith [pi_pos]
  neg := by simp
  large := by simp
  small := fun _ => by
    have := pi_pos
    simp only [quarter]
    rw [abs_of_pos (by linarith)]
    linarith

/-- `M1 0A1 1 0 0 1 0 1` passes where the diagonal meets the unit circle. -/
example : ∃ b, fromArcTo ⟨1, 1, 0, false, true⟩ (1, 0) (0, 1) = some b ∧ pointAt b (1 / 2) = (√2 / 2, √2 / 2) := by
  obtain ⟨b, hb⟩ : ∃ b, fromArcTo ⟨1, 1, 0, false, true⟩ (1, 0) (0, 1) = some b := by
    rw [← Option.ne_none_iff_exists', Ne, fromArcTo_none_iff]
    norm_num
  refine ⟨b, hb, ?_⟩
  have e : (0 : ℝ) + π / 2 * (1 / 2) = π / 4 := by ring
  rw [fromArcTo_unique hb quarter_draws]
  refine Prod.ext ?_ ?_ <;> simp only [pointAt, rotate, quarter, e, cos_pi_div_four, sin_pi_div_four] <;> simp

/-- It is written with its own arguments, and read again as it was. -/
example : ∃ g, toArcTo standard quarter = some (g, (0, 1)) ∧ Draws g (1, 0) (0, 1) quarter := by
  have hpi := pi_pos
  have h := toArcTo_draws (tol := standard) (a := quarter) (by norm_num [quarter]) (by norm_num [quarter]) (by simp only [quarter]; linarith) quarter_draws.turn (by
    have e : quarter.sweep / 2 = π / 4 := by simp only [quarter]; ring
    rw [e, sin_pi_div_four]
    have h2 : √2 < 1.5 := by rw [sqrt_lt' (by norm_num)]; norm_num
    have h3 : 0 < √2 := by positivity
    rw [abs_of_pos (by positivity)]
    norm_num [quarter, standard]
    nlinarith)
  rwa [quarter_draws.first, quarter_draws.last] at h

/-- Radii that are too small become as large as is needed: `M-2 0A1 1 0 0 1 2 0`. -/
example {b : ArcR} (h : fromArcTo ⟨1, 1, 0, false, true⟩ (-2, 0) (2, 0) = some b) : b.rx = 2 ∧ b.ry = 2 := by
  have hd := fromArcTo_draws h
  obtain ⟨c, c1, cx, cy, cm⟩ := hd.radii
  simp only [abs_one, mul_one] at cx cy cm
  have hr : b.rot = 0 := by rw [hd.rot]; simp
  have hle : c ≤ 2 := by
    by_contra hc
    refine cm 2 (by norm_num) (not_le.mp hc) ⟨(0, 0), ⟨π, ?_, ?_⟩, ⟨0, ?_, ?_⟩⟩ <;> simp [hr]
  have hge : 2 ≤ c := by
    have h0 : 0 < c := by linarith
    have p0 := pointAt_on b 0
    have p1 := pointAt_on b 1
    rw [hd.first, cx, cy] at p0
    rw [hd.last, cx, cy] at p1
    have := factor_ellipse h0 h0 p0 p1
    rw [factor, half, hr] at this
    norm_num at this
    rw [div_le_one (by positivity)] at this
    nlinarith
  have : c = 2 := le_antisymm hle hge
  rw [cx, cy, this]; exact ⟨rfl, rfl⟩

end Verif.ArcTo
