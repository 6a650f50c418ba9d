import Verif.ArcTo.Unique

/-! # C63: the arguments of an arc, and parts of arcs -/

namespace Verif.ArcTo

open Real Verif.Gjk

theorem half_arc (a : ArcR) (xr : ℝ) (hc : cos xr = cos a.rot) (hs : sin xr = sin a.rot) :
    half xr (pointAt a 0) (pointAt a 1) = (a.rx * (cos a.start - cos (a.start + a.sweep)) / 2, a.ry * (sin a.start - sin (a.start + a.sweep)) / 2) := by
  have hq := sin_sq_add_cos_sq a.rot
  refine Prod.ext ?_ ?_
  · simp only [half, hc, hs, pointAt, rotate, Prod.fst_add, Prod.snd_add, mul_zero, add_zero, mul_one]
    linear_combination a.rx * (cos a.start - cos (a.start + a.sweep)) / 2 * hq
  · simp only [half, hc, hs, pointAt, rotate, Prod.fst_add, Prod.snd_add, mul_zero, add_zero, mul_one]
    linear_combination a.ry * (sin a.start - sin (a.start + a.sweep)) / 2 * hq

theorem factor_arc {a : ArcR} (hx : 0 < a.rx) (hy : 0 < a.ry) (xr : ℝ) (hc : cos xr = cos a.rot) (hs : sin xr = sin a.rot) :
    factor a.rx a.ry (half xr (pointAt a 0) (pointAt a 1)) = sin (a.sweep / 2) ^ 2 := by
  rw [half_arc a xr hc hs, factor]
  have h1 := chord_sq a.start a.sweep
  have h2 : sin (a.sweep / 2) ^ 2 = (2 - 2 * cos a.sweep) / 4 := by
    rw [show a.sweep = 2 * (a.sweep / 2) by ring, cos_two_mul, show 2 * (a.sweep / 2) / 2 = a.sweep / 2 by ring]
    have := sin_sq_add_cos_sq (a.sweep / 2)
    linarith
  rw [h2, ← h1]
  field_simp
  ring

theorem radiusFactor_eq {a : ArcR} (hx : 0 < a.rx) (hy : 0 < a.ry) : radiusFactor a = sin (a.sweep / 2) ^ 2 := by
  rw [radiusFactor, if_neg (by simp [ne_of_gt hx, ne_of_gt hy]), abs_of_pos hx, abs_of_pos hy]
  exact factor_arc hx hy _ (cos_rem _) (sin_rem _)

theorem gcdLoop_nonneg {a b tol s : ℝ} (hs : 0 < s) (u v : ℕ) : 0 ≤ gcdLoop a b tol s u v := by
  induction v using Nat.strong_induction_on generalizing u with
  | _ v ih =>
    rw [gcdLoop]
    split
    · positivity
    · next h =>
      simp only
      split
      · positivity
      · exact ih _ (Nat.mod_lt _ (Nat.pos_of_ne_zero h)) _

theorem gcdLoop_pos {a b tol s : ℝ} (hs : 0 < s) (u v : ℕ) (h0 : 0 < u) : 0 < gcdLoop a b tol s u v := by
  induction v using Nat.strong_induction_on generalizing u with
  | _ v ih =>
    rw [gcdLoop]
    split
    · positivity
    · next h =>
      have hv := Nat.pos_of_ne_zero h
      simp only
      split
      · positivity
      · exact ih _ (Nat.mod_lt _ hv) _ hv

theorem gcdLoop_spec {a b tol s : ℝ} (u v : ℕ) : ∃ n : ℕ, gcdLoop a b tol s u v = n / s ∧
    ((|a / (n / s) - round (a / (n / s))| < tol ∧ |b / (n / s) - round (b / (n / s))| < tol) ∨ n = Nat.gcd u v) := by
  induction v using Nat.strong_induction_on generalizing u with
  | _ v ih =>
    rw [gcdLoop]
    split
    · next h => exact ⟨u, rfl, .inr (by rw [h, Nat.gcd_zero_right])⟩
    · next h =>
      simp only
      split
      · next hg => exact ⟨v, rfl, .inl hg⟩
      · obtain ⟨n, e, h'⟩ := ih (u % v) (Nat.mod_lt _ (Nat.pos_of_ne_zero h)) v
        refine ⟨n, e, h'.imp_right fun h' => ?_⟩
        rw [h', Nat.gcd_comm, ← Nat.gcd_rec, Nat.gcd_comm]

/-- **C63 (writing).** The common divisor is a number of the given precision. Both numbers are nearly multiples of it, or it is the greatest common divisor
of the rounded numbers. -/
theorem gcd_spec (a b tol s : ℝ) : ∃ n : ℕ, gcd a b tol s = n / s ∧
    ((|a / (n / s) - round (a / (n / s))| < tol ∧ |b / (n / s) - round (b / (n / s))| < tol) ∨
      n = Nat.gcd (min (round |a * s|).toNat (2 ^ 32 - 1)) (min (round |b * s|).toNat (2 ^ 32 - 1))) := by
  unfold gcd
  simp only
  split
  · exact gcdLoop_spec _ _
  · obtain ⟨n, e, h⟩ := gcdLoop_spec (a := a) (b := b) (tol := tol) (s := s) (scaled s b) (scaled s a)
    exact ⟨n, e, h.imp_right fun h => by rw [h, Nat.gcd_comm]; rfl⟩

theorem gcd_nonneg {a b tol s : ℝ} (hs : 0 < s) : 0 ≤ gcd a b tol s := by
  unfold gcd
  simp only
  split <;> exact gcdLoop_nonneg hs _ _

theorem scaled_eq_zero {s x : ℝ} (hs : 0 < s) (hx : 0 < x) : scaled s x = 0 ↔ x * s < 1 / 2 := by
  have hp : 0 < x * s := mul_pos hx hs
  unfold scaled
  rw [abs_of_pos hp]
  have h1 : min (round (x * s)).toNat (2 ^ 32 - 1) = 0 ↔ (round (x * s)).toNat = 0 := by omega
  rw [h1, Int.toNat_eq_zero, round_eq]
  constructor
  · intro h
    have := Int.floor_lt.mp (Int.lt_add_one_of_le h)
    push_cast at this
    linarith
  · intro h
    apply Int.le_of_lt_add_one
    rw [Int.floor_lt]
    push_cast
    linarith

theorem gcd_eq_zero {a b tol s : ℝ} (hs : 0 < s) (ha : 0 < a) (hb : 0 < b) : gcd a b tol s = 0 ↔ a * s < 1 / 2 ∧ b * s < 1 / 2 := by
  rw [← scaled_eq_zero hs ha, ← scaled_eq_zero hs hb]
  unfold gcd
  simp only
  split
  · next h =>
    exact iff_of_false (ne_of_gt (gcdLoop_pos hs _ _ (by omega))) (by omega)
  · next h =>
    constructor
    · intro h0
      by_contra hn
      exact absurd h0 (ne_of_gt (gcdLoop_pos hs _ _ (by omega)))
    · rintro ⟨h1, h2⟩
      rw [h1, h2, gcdLoop, dif_pos rfl]
      simp

theorem halved_some {x limit : Pt ℝ} (h : 0 < limit.1) : ∃ n : ℕ, halved x limit = some (x.1 / 2 ^ n, x.2 / 2 ^ n) ∧
    ¬ (limit.1 ≤ x.1 / 2 ^ n ∧ limit.2 ≤ x.2 / 2 ^ n) := by
  have hex : ∃ n : ℕ, ¬ (0 ≤ x.1 / 2 ^ n - limit.1 ∧ 0 ≤ x.2 / 2 ^ n - limit.2) := by
    obtain ⟨n, hn⟩ := pow_unbounded_of_one_lt (x.1 / limit.1) (by norm_num : (1 : ℝ) < 2)
    refine ⟨n, fun hc => ?_⟩
    have h2 : (0 : ℝ) < 2 ^ n := by positivity
    have : x.1 / 2 ^ n < limit.1 := by
      rw [div_lt_iff₀ h] at hn
      rw [div_lt_iff₀ h2]; linarith
    linarith [hc.1]
  classical
  refine ⟨Nat.find hex, ?_, ?_⟩
  · unfold halved
    rw [dif_pos hex]
  · have := Nat.find_spec hex
    simpa only [sub_nonneg] using this

/-- What is simplified: nearly half of an ellipse. -/
theorem near_iff {a : ArcR} (hx : 0 < a.rx) (hy : 0 < a.ry) (tol : ℝ) :
    (1 < radiusFactor a ∨ (a.rx * √(radiusFactor a) - a.rx) ^ 2 + (a.ry * √(radiusFactor a) - a.ry) ^ 2 < tol ^ 2) ↔
      (1 - |sin (a.sweep / 2)|) ^ 2 * (a.rx ^ 2 + a.ry ^ 2) < tol ^ 2 := by
  rw [radiusFactor_eq hx hy, sqrt_sq_eq_abs]
  have : ¬ 1 < sin (a.sweep / 2) ^ 2 := not_lt.mpr (sin_sq_le_one _)
  rw [or_iff_right this]
  exact Iff.of_eq (by congr 1; ring)

/-- **C63 (written as it is).** Unless an arc is nearly half of an ellipse, the arguments written for it describe just this arc. -/
theorem toArcTo_draws {tol : Tol} {a : ArcR} (hx : 0 < a.rx) (hy : 0 < a.ry) (h0 : a.sweep ≠ 0) (h1 : |a.sweep| < 2 * π)
    (hn : tol.pos ^ 2 ≤ (1 - |sin (a.sweep / 2)|) ^ 2 * (a.rx ^ 2 + a.ry ^ 2)) :
    ∃ g, toArcTo tol a = some (g, pointAt a 1) ∧ Draws g (pointAt a 0) (pointAt a 1) a := by
  unfold toArcTo
  simp only
  rw [if_neg (fun h => absurd ((near_iff hx hy tol.pos).mp h) (not_lt.mpr hn))]
  refine ⟨_, rfl, ⟨?_, ⟨1, le_rfl, ?_, ?_, fun k k1 k2 => by linarith⟩, rfl, rfl, h1, ?_, ?_, ?_, ?_⟩⟩
  · have := pi_ne_zero
    field_simp
  · rw [one_mul, abs_of_pos hx]
  · rw [one_mul, abs_of_pos hy]
  · intro h; exact of_decide_eq_true h
  · intro h; exact lt_of_le_of_ne (not_lt.mp (of_decide_eq_false h)) h0
  · intro h; exact le_of_lt (of_decide_eq_true h)
  · intro h; exact not_lt.mp (of_decide_eq_false h)

/-- **C63 (to arguments and back).** Reading these arguments gives the same points again, at every fraction of the way. -/
theorem toArcTo_fromArcTo {tol : Tol} {a b : ArcR} {g : Args} {q : Pt ℝ} (hx : 0 < a.rx) (hy : 0 < a.ry) (h0 : a.sweep ≠ 0) (h1 : |a.sweep| < 2 * π)
    (hn : tol.pos ^ 2 ≤ (1 - |sin (a.sweep / 2)|) ^ 2 * (a.rx ^ 2 + a.ry ^ 2)) (hw : toArcTo tol a = some (g, q)) (hb : fromArcTo g (pointAt a 0) q = some b) (t : ℝ) :
    pointAt b t = pointAt a t := by
  obtain ⟨g', e, hd⟩ := toArcTo_draws hx hy h0 h1 hn
  rw [e] at hw
  cases hw
  exact fromArcTo_unique hb hd t

/-- The ends of an arc differ. -/
theorem ends_ne {a : ArcR} (hx : 0 < a.rx) (hy : 0 < a.ry) (h0 : a.sweep ≠ 0) (h1 : |a.sweep| < 2 * π) : pointAt a 0 ≠ pointAt a 1 := by
  intro h
  obtain ⟨v1, v2⟩ := chord (ne_of_gt hx) (ne_of_gt hy)
  rw [h] at v1 v2
  have := chord_sq a.start a.sweep
  rw [v1, v2] at this
  simp at this
  exact cos_ne_one h1 h0 (by linarith)

theorem toArcTo_near {tol : Tol} {a : ArcR} (hx : 0 < a.rx) (hy : 0 < a.ry) (hs : 0 < tol.scale) (h0 : a.sweep ≠ 0) (h1 : |a.sweep| < 2 * π)
    (hn : (1 - |sin (a.sweep / 2)|) ^ 2 * (a.rx ^ 2 + a.ry ^ 2) < tol.pos ^ 2) (hg : ¬ (a.rx * tol.scale < 1 / 2 ∧ a.ry * tol.scale < 1 / 2)) :
    ∃ k : ℝ, 0 < k ∧ k < |sin (a.sweep / 2)| ∧ toArcTo tol a = some (({ rx := k * a.rx, ry := k * a.ry, rot := a.rot * (180 / π), large := decide (π < |a.sweep|), sweep := decide (0 < a.sweep) } : Args), pointAt a 1) := by
  have hd : gcd a.rx a.ry tol.pos tol.scale ≠ 0 := fun h => hg ((gcd_eq_zero hs hx hy).mp h)
  have hd' : 0 < gcd a.rx a.ry tol.pos tol.scale := lt_of_le_of_ne (gcd_nonneg hs) hd.symm
  unfold toArcTo
  simp only
  rw [if_pos ((near_iff hx hy tol.pos).mpr hn), if_neg hd, radiusFactor_eq hx hy, sqrt_sq_eq_abs]
  have hS : 0 < |sin (a.sweep / 2)| := by
    apply abs_pos.mpr
    intro h
    refine cos_ne_one h1 h0 ?_
    rw [show a.sweep = 2 * (a.sweep / 2) by ring, cos_two_mul, cos_sq', h]; norm_num
  obtain ⟨n, e, hl⟩ := halved_some (x := (a.rx / gcd a.rx a.ry tol.pos tol.scale, a.ry / gcd a.rx a.ry tol.pos tol.scale))
    (limit := (a.rx * |sin (a.sweep / 2)|, a.ry * |sin (a.sweep / 2)|)) (mul_pos hx hS)
  rw [e]
  obtain ⟨k, ek⟩ : ∃ k, k = 1 / (gcd a.rx a.ry tol.pos tol.scale * 2 ^ n) := ⟨_, rfl⟩
  have kx : a.rx / gcd a.rx a.ry tol.pos tol.scale / 2 ^ n = k * a.rx := by rw [ek, div_div]; ring
  have ky : a.ry / gcd a.rx a.ry tol.pos tol.scale / 2 ^ n = k * a.ry := by rw [ek, div_div]; ring
  simp only [kx, ky] at hl ⊢
  refine ⟨k, by rw [ek]; positivity, ?_, rfl⟩
  by_contra hk
  rw [not_lt] at hk
  exact hl ⟨by nlinarith, by nlinarith⟩

/-- **C63 (nearly half).** An arc that is nearly half of an ellipse is written with the radii of an ellipse that has the ends opposite of one another;
reading them gives an arc between the same ends, in the same direction, whose radii differ by less than the tolerance. -/
theorem toArcTo_radii {tol : Tol} {a b : ArcR} {g : Args} {q : Pt ℝ} (hx : 0 < a.rx) (hy : 0 < a.ry) (hs : 0 < tol.scale) (h0 : a.sweep ≠ 0) (h1 : |a.sweep| < 2 * π)
    (hn : (1 - |sin (a.sweep / 2)|) ^ 2 * (a.rx ^ 2 + a.ry ^ 2) < tol.pos ^ 2) (hw : toArcTo tol a = some (g, q)) (hb : fromArcTo g (pointAt a 0) q = some b) :
    b.rot = a.rot ∧ b.rx = |sin (a.sweep / 2)| * a.rx ∧ b.ry = |sin (a.sweep / 2)| * a.ry ∧ (b.rx - a.rx) ^ 2 + (b.ry - a.ry) ^ 2 < tol.pos ^ 2 ∧
      pointAt b 0 = pointAt a 0 ∧ pointAt b 1 = pointAt a 1 ∧ (0 < b.sweep ↔ 0 < a.sweep) ∧ |b.sweep| = π := by
  have hg : ¬ (a.rx * tol.scale < 1 / 2 ∧ a.ry * tol.scale < 1 / 2) := by
    intro hz
    have hd := (gcd_eq_zero (tol := tol.pos) hs hx hy).mpr hz
    unfold toArcTo at hw
    simp only [if_pos ((near_iff hx hy tol.pos).mpr hn), if_pos hd] at hw
    cases hw
  obtain ⟨k, k0, k1, e⟩ := toArcTo_near hx hy hs h0 h1 hn hg
  rw [e] at hw
  obtain ⟨rfl, rfl⟩ := Prod.mk.inj (Option.some.inj hw)
  have hd := fromArcTo_draws hb
  have hr : b.rot = a.rot := by
    rw [hd.rot]; have := pi_ne_zero; field_simp
  obtain ⟨c, c1, cx, cy, cm⟩ := hd.radii
  simp only [abs_mul, abs_of_pos k0, abs_of_pos hx, abs_of_pos hy] at cx cy cm
  obtain ⟨S, eS⟩ : ∃ S, S = |sin (a.sweep / 2)| := ⟨_, rfl⟩
  rw [← eS] at k1 ⊢
  have hS0 : 0 < S := k0.trans k1
  have hbx : 0 < b.rx := by rw [cx]; positivity
  have hby : 0 < b.ry := by rw [cy]; positivity
  have ck : c * k = S := by
    apply le_antisymm
    · by_contra hc
      rw [not_le] at hc
      -- the ellipse with the ends opposite of one another
      have hh := half_back a.rot (pointAt a 0) (pointAt a 1)
      have hf := factor_arc hx hy a.rot rfl rfl
      obtain ⟨X, hX⟩ : ∃ X, X = (half a.rot (pointAt a 0) (pointAt a 1)).1 / (S * a.rx) := ⟨_, rfl⟩
      obtain ⟨Y, hY⟩ : ∃ Y, Y = (half a.rot (pointAt a 0) (pointAt a 1)).2 / (S * a.ry) := ⟨_, rfl⟩
      have eX : (half a.rot (pointAt a 0) (pointAt a 1)).1 = S * a.rx * X := by rw [hX]; field_simp
      have eY : (half a.rot (pointAt a 0) (pointAt a 1)).2 = S * a.ry * Y := by rw [hY]; field_simp
      have hu : X ^ 2 + Y ^ 2 = 1 := by
        rw [factor, eX, eY, ← sq_abs, ← eS] at hf
        have : S ^ 2 * (X ^ 2 + Y ^ 2) = S ^ 2 := by
          refine Eq.trans ?_ hf
          field_simp
        exact mul_left_cancel₀ (pow_ne_zero 2 (ne_of_gt hS0)) (this.trans (mul_one _).symm)
      have ec : cos (angle (X, Y)) = X := cos_angle (p := (X, Y)) hu
      have es : sin (angle (X, Y)) = Y := sin_angle (p := (X, Y)) hu
      refine cm (S / k) ?_ ?_ ⟨(((pointAt a 0).1 + (pointAt a 1).1) / 2, ((pointAt a 0).2 + (pointAt a 1).2) / 2), ⟨angle (X, Y), ?_, ?_⟩, ⟨angle (X, Y) + π, ?_, ?_⟩⟩
      · rw [le_div_iff₀ k0]; linarith
      · rw [div_lt_iff₀ k0]; exact hc
      all_goals
        simp only [cos_add_pi, sin_add_pi, ec, es, hr]
        rw [eX, eY] at hh
        have z1 : S / k * (k * a.rx) = S * a.rx := by field_simp
        have z2 : S / k * (k * a.ry) = S * a.ry := by field_simp
        rw [z1, z2]
      · linear_combination -hh.1
      · linear_combination -hh.2
      · linear_combination hh.1
      · linear_combination hh.2
    · by_contra hc
      rw [not_le] at hc
      have p0 := pointAt_on b 0
      have p1 := pointAt_on b 1
      rw [hd.first] at p0
      rw [hd.last] at p1
      have := factor_ellipse hbx hby p0 p1
      rw [cx, cy, ← mul_assoc, ← mul_assoc, factor_scale, hr, factor_arc hx hy a.rot rfl rfl, div_le_one (by positivity), ← sq_abs, ← eS] at this
      have h2 : 0 < c * k := by positivity
      nlinarith
  have ex : b.rx = S * a.rx := by rw [cx, ← ck]; ring
  have ey : b.ry = S * a.ry := by rw [cy, ← ck]; ring
  refine ⟨hr, ex, ey, ?_, hd.first, hd.last, ?_, ?_⟩
  · rw [ex, ey]
    calc _ = (1 - S) ^ 2 * (a.rx ^ 2 + a.ry ^ 2) := by ring
      _ < _ := by rw [eS]; exact hn
  · constructor
    · intro h
      by_contra hc
      have := hd.neg (decide_eq_false hc)
      linarith
    · intro h; exact hd.pos (decide_eq_true h)
  · have hf : sin (b.sweep / 2) ^ 2 = 1 := by
      rw [← factor_arc hbx hby a.rot (by rw [hr]) (by rw [hr]), hd.first, hd.last, ex, ey, factor_scale, factor_arc hx hy a.rot rfl rfl, ← sq_abs, ← eS]
      field_simp
    have hc : cos (b.sweep / 2) = 0 := by
      have := sin_sq_add_cos_sq (b.sweep / 2)
      exact pow_eq_zero_iff (two_ne_zero) |>.mp (by linarith)
    have ht := hd.turn
    have hcos : cos |b.sweep| = cos π := by
      rw [cos_abs, cos_pi, show b.sweep = 2 * (b.sweep / 2) by ring, cos_two_mul, hc]; norm_num
    rcases le_total |b.sweep| π with hl | hl
    · exact injOn_cos ⟨abs_nonneg _, hl⟩ ⟨le_of_lt pi_pos, le_rfl⟩ hcos
    · have := injOn_cos (x₁ := 2 * π - |b.sweep|) (x₂ := π) ⟨by linarith, by linarith⟩ ⟨le_of_lt pi_pos, le_rfl⟩ (by rw [cos_two_pi_sub]; exact hcos)
      linarith

/-- **C63 (to arguments and back).** Exactly half of an ellipse comes back as it was. -/
theorem toArcTo_half {tol : Tol} {a b : ArcR} {g : Args} {q : Pt ℝ} (hx : 0 < a.rx) (hy : 0 < a.ry) (hs : 0 < tol.scale) (hp : 0 < tol.pos) (h1 : |a.sweep| = π)
    (hw : toArcTo tol a = some (g, q)) (hb : fromArcTo g (pointAt a 0) q = some b) (t : ℝ) : pointAt b t = pointAt a t := by
  have hpi := pi_pos
  have h0 : a.sweep ≠ 0 := fun h => by rw [h, abs_zero] at h1; linarith
  have hS : |sin (a.sweep / 2)| = 1 := by
    rcases (abs_eq (le_of_lt hpi)).mp h1 with e | e <;> rw [e]
    · rw [sin_pi_div_two, abs_one]
    · rw [neg_div, sin_neg, sin_pi_div_two, abs_neg, abs_one]
  obtain ⟨k1, k2, k3, -, k5, k6, k7, k8⟩ := toArcTo_radii hx hy hs h0 (by rw [h1]; linarith) (by rw [hS]; simp; positivity) hw hb
  rw [hS, one_mul] at k2 k3
  have ew : b.sweep = a.sweep := by
    rcases lt_or_gt_of_ne h0 with h | h
    · have : b.sweep < 0 := by
        rcases (abs_eq (le_of_lt hpi)).mp k8 with e | e
        · exact absurd (k7.mp (by rw [e]; exact hpi)) (not_lt.mpr (le_of_lt h))
        · rw [e]; linarith
      rw [abs_of_neg h] at h1
      rw [abs_of_neg this] at k8
      linarith
    · have := k7.mpr h
      rw [abs_of_pos h] at h1
      rw [abs_of_pos this] at k8
      linarith
  obtain ⟨v1, v2⟩ := chord (b := b) (by rw [k2]; exact ne_of_gt hx) (by rw [k3]; exact ne_of_gt hy)
  obtain ⟨v1', v2'⟩ := chord (b := a) (ne_of_gt hx) (ne_of_gt hy)
  rw [k5, k6, k1, k2, ← v1', ew] at v1
  rw [k5, k6, k1, k3, ← v2', ew] at v2
  obtain ⟨e1, e2⟩ := start_eq (cos_ne_one (by rw [h1]; linarith) h0) v1 v2
  have ec : b.center = a.center := by
    have k := k5
    simp only [pointAt, mul_zero, add_zero, e1, e2, k1, k2, k3] at k
    exact add_right_cancel k
  simp only [pointAt, cos_add, sin_add, e1, e2, k1, k2, k3, ew, ec]

/-- **C63 (it ends).** Writing the arguments does not end exactly if the arc is nearly half of an ellipse both of whose radii round to nothing. -/
theorem toArcTo_none_iff {tol : Tol} {a : ArcR} (hx : 0 < a.rx) (hy : 0 < a.ry) (hs : 0 < tol.scale) (h0 : a.sweep ≠ 0) (h1 : |a.sweep| < 2 * π) :
    toArcTo tol a = none ↔ (1 - |sin (a.sweep / 2)|) ^ 2 * (a.rx ^ 2 + a.ry ^ 2) < tol.pos ^ 2 ∧ a.rx * tol.scale < 1 / 2 ∧ a.ry * tol.scale < 1 / 2 := by
  constructor
  · intro h
    by_cases hn : (1 - |sin (a.sweep / 2)|) ^ 2 * (a.rx ^ 2 + a.ry ^ 2) < tol.pos ^ 2
    · refine ⟨hn, ?_⟩
      by_contra hg
      obtain ⟨k, -, -, e⟩ := toArcTo_near hx hy hs h0 h1 hn hg
      rw [e] at h
      cases h
    · obtain ⟨g, e, -⟩ := toArcTo_draws hx hy h0 h1 (not_lt.mp hn)
      rw [e] at h
      cases h
  · rintro ⟨hn, hz⟩
    unfold toArcTo
    simp only
    rw [if_pos ((near_iff hx hy tol.pos).mpr hn), if_pos ((gcd_eq_zero hs hx hy).mpr hz)]

/-- **C63 (parts of arcs).** The reverse of an arc goes through the same points, the other way around. -/
theorem reverse_points (a : ArcR) (t : ℝ) : pointAt (reverse a) t = pointAt a (1 - t) := by
  have : a.start + a.sweep + -a.sweep * t = a.start + a.sweep * (1 - t) := by ring
  simp only [pointAt, reverse, this]

/-- **C63 (parts of arcs).** The part of an arc between two fractions of its way. -/
theorem clamp_points (a : ArcR) (t u x : ℝ) : pointAt (clamp a t u) x = pointAt a (t + (u - t) * x) := by
  have : a.start + t * a.sweep + (u - t) * a.sweep * x = a.start + a.sweep * (t + (u - t) * x) := by ring
  simp only [pointAt, clamp, this]

/-- **C63 (parts of arcs).** The two parts that an arc is divided into. -/
theorem subdivide_points (a : ArcR) (t x : ℝ) : pointAt (subdivide a t).1 x = pointAt a (t * x) ∧ pointAt (subdivide a t).2 x = pointAt a (t + (1 - t) * x) := by
  have h1 : a.start + t * a.sweep * x = a.start + a.sweep * (t * x) := by ring
  have h2 : a.start + t * a.sweep + a.sweep * (1 - t) * x = a.start + a.sweep * (t + (1 - t) * x) := by ring
  simp only [pointAt, subdivide, h1, h2, and_self]

end Verif.ArcTo
