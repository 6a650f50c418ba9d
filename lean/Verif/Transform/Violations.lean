import Verif.Transform.Css

/-!
# Where shortening transforms changes the picture
-/

namespace Verif.Transform

open Real

noncomputable section

/-- convert_transform.rs:68-81 and 302-328, the options by default. -/
def usual : Config := ⟨true, none, 3, 5, true, true, true, true⟩

variable {Css : Type} {css : Css → Pt → Pt} {env : Env Css}

theorem hypot_two : hypot 0 2 = 2 ∧ hypot 2 0 = 2 := by
  constructor
  · unfold hypot
    rw [show (0 : ℝ) ^ 2 + 2 ^ 2 = 2 ^ 2 by norm_num]
    exact sqrt_sq (by norm_num)
  · unfold hypot
    rw [show (2 : ℝ) ^ 2 + 0 ^ 2 = 2 ^ 2 by norm_num]
    exact sqrt_sq (by norm_num)

/-- With numbers that are integers, factors are rounded to integers. -/
theorem usual_precision (hd : ∀ n : ℤ, env.decimals n = 0) (a b c d e f : ℤ) :
    (usual.precision env [.matrix ⟨a, b, c, d, e, f⟩]).transform = 0 := by
  simp [Config.precision, Config.definePrecision, matrixData, usual, hd]

theorem round_two (p : Int) : roundArg p 2 = 2 := by simpa using roundArg_int p 2

theorem optimize_shift (p : Precision) :
    optimize [.translate 1 1, .rotate 0 0 0, .scale 2 2] [.translate 1 1, .rotate 0 0 0, .scale 2 2] =
      some [(.scale 2 2 : T Css)] := by
  have i1 : (T.translate 1 1 : T Css).isIdentity := by simp [T.isIdentity]
  have i2 : (T.rotate 0 0 0 : T Css).isIdentity := by simp [T.isIdentity]
  have i3 : ¬ (T.scale 2 2 : T Css).isIdentity := by simp [T.isIdentity]
  simp [optimize, optimizeLoop, i1, i2, i3, push, orUnit]

theorem optimize_shift' (p : Precision) :
    optimize [.translate 1 1, .scale 2 2] [.translate 1 1, .scale 2 2] = some [(.scale 2 2 : T Css)] := by
  have i1 : (T.translate 1 1 : T Css).isIdentity := by simp [T.isIdentity]
  have i3 : ¬ (T.scale 2 2 : T Css).isIdentity := by simp [T.isIdentity]
  simp [optimize, optimizeLoop, i1, i3, push, orUnit]

theorem compositions_shift : compositions (Css := Css) ⟨2, 0, 0, 2, 1, 1⟩ =
    [[.translate 1 1, .rotate 0 0 0, .scale 2 2], [.translate 1 1, .scale 2 2]] := by
  simp only [compositions, qrcd, qrab, hypot_two.1, hypot_two.2]
  norm_num [deg]

/-- **C44 (a shift by (1, 1) is lost).** By default `matrix(2 0 0 2 1 1)` becomes `scale(2)`, because `translate(1 1)` is
taken for the identity: the origin stays where it is instead of moving to (1, 1). It is assumed that 2 is printed with
one character, others with at least one, and integers without decimals. -/
theorem shift_violated (hd : ∀ n : ℤ, env.decimals n = 0) (hw : ∀ x, 1 ≤ env.width x) (h2 : env.width 2 = 1) :
    usual.run env [.matrix ⟨2, 0, 0, 2, 1, 1⟩] = some [.scale 2 2] ∧
    draw css [.matrix ⟨2, 0, 0, 2, 1, 1⟩] (0, 0) = (1, 1) ∧ draw css [.scale 2 2] (0, 0) = (0, 0) := by
  refine ⟨?_, ?_, ?_⟩
  · have hp := usual_precision hd 2 0 0 2 1 1
    norm_num at hp
    have hcol : usual.collapse env [.matrix ⟨2, 0, 0, 2, 1, 1⟩] = [.matrix ⟨2, 0, 0, 2, 1, 1⟩] := by
      simp [Config.collapse]
    rw [Config.run, hcol, Config.convert, Config.shorts]
    generalize usual.precision env [.matrix ⟨2, 0, 0, 2, 1, 1⟩] = p at hp
    have hr : (T.matrix ⟨2, 0, 0, 2, 1, 1⟩ : T Css).round p = .matrix ⟨2, 0, 0, 2, 1, 1⟩ := by
      simp only [T.round, round_two, roundArg_zero, roundArg_one]
    have hl : (T.scale 2 2 : T Css).len env.width = 8 := by simp [T.len, h2]
    have hm : matrixToTransform env p (.matrix ⟨2, 0, 0, 2, 1, 1⟩) = some [.scale 2 2] := by
      simp only [matrixToTransform, hr, compositions_shift]
      simp only [shortest, List.map_cons, List.map_nil, round_translate, round_rotate, round_scale, roundArg_zero,
        roundArg_one, round_two, optimize_shift p, optimize_shift' p, lens, hl]
      have h0 := hw 0
      have h1 := hw 1
      rw [if_pos (by simp [T.len]; omega), if_pos (by simp)]
    have hu : ¬ (T.scale 2 2 : T Css).useless := by simp [T.useless]
    simp [usual, flatOption, hm, round_scale, round_two, joinRotates, Config.dropUseless, hu]
  · simp [draw, T.move, M.apply]
  · simp [draw, T.move]

theorem sqrt_two_bounds : (1 : ℝ) < √2 ∧ √2 < 3 / 2 := by
  constructor
  · rw [lt_sqrt (by norm_num)]; norm_num
  · rw [sqrt_lt' (by norm_num)]; norm_num

theorem roundAway_sqrt_two : roundAway √2 = 1 := by
  obtain ⟨h1, h2⟩ := sqrt_two_bounds
  unfold roundAway
  rw [if_pos (by linarith)]
  have : ⌊√2 + 1 / 2⌋ = 1 := by
    rw [Int.floor_eq_iff]
    constructor <;> push_cast <;> linarith
  rw [this]
  norm_num

theorem arccos_half : arccos (1 / √2) = π / 4 := by
  rw [show (1 : ℝ) / √2 = cos (π / 4) by
    rw [cos_pi_div_four, div_eq_div_iff (by positivity) (by norm_num)]
    norm_num]
  exact arccos_cos (by positivity) (by linarith [pi_pos])

theorem two_div_sqrt : (2 : ℝ) / √2 = √2 := by
  rw [div_eq_iff (by positivity)]
  norm_num

theorem compositions_turn : compositions (Css := Css) ⟨1, 1, -1, 1, 0, 0⟩ =
    [[.rotate 45 0 0, .scale √2 √2], [.rotate 45 0 0, .scale √2 √2]] := by
  have e1 : hypot (-1) 1 = √2 := by unfold hypot; norm_num
  have e2 : hypot 1 1 = √2 := by unfold hypot; norm_num
  obtain ⟨b1, b2⟩ := sqrt_two_bounds
  have n1 : √2 ≠ 1 := by linarith
  have n2 : √2 ≠ 0 := by linarith
  have n3 : (1 : ℝ) / √2 ≠ 1 := by
    intro h
    rw [div_eq_iff n2] at h
    linarith
  have d1 : deg (π / 2 - 1 * (π / 4)) = 45 := by
    unfold deg
    have := pi_ne_zero
    field_simp
    ring
  have d2 : deg (π / 4) = 45 := by
    unfold deg
    have := pi_ne_zero
    field_simp
    ring
  simp only [compositions, qrcd, qrab, e1, e2, neg_neg, arccos_half]
  have hA : ¬ ((1 : ℝ) * 1 - 1 * -1 = 0) := by norm_num
  rw [if_neg hA, if_neg n2, if_neg hA, if_neg n2]
  rw [if_neg (by norm_num : ¬ ((0 : ℝ) ≠ 0 ∨ (0 : ℝ) ≠ 0)), if_neg (by norm_num : ¬ ((1 : ℝ) < 0)),
    show (1 : ℝ) * 1 - 1 * -1 = 2 by norm_num, two_div_sqrt, if_pos (.inl n1),
    if_neg (by norm_num : ¬ ((1 : ℝ) * -1 + 1 * 1 ≠ 0)), if_pos n3, if_neg (by norm_num : ¬ ((1 : ℝ) < 0)), d1, d2,
    if_neg (by norm_num : ¬ ((1 : ℝ) * -1 + 1 * 1 ≠ 0))]
  rfl

/-- **C44 (the size is lost).** By default `matrix(1 1 -1 1 0 0)` becomes `rotate(45)`: since the numbers of the matrix
are integers its factor √2 is rounded to 1, and all lengths are too short by nearly a third. It is assumed that 45 is
printed with two characters, others with at least one, and integers without decimals. -/
theorem integer_violated (hd : ∀ n : ℤ, env.decimals n = 0) (hw : ∀ x, 1 ≤ env.width x) (h45 : env.width 45 = 2) :
    usual.run env [.matrix ⟨1, 1, -1, 1, 0, 0⟩] = some [.rotate 45 0 0] ∧
    draw css [.matrix ⟨1, 1, -1, 1, 0, 0⟩] (1, 0) = (1, 1) ∧
    draw css [.rotate 45 0 0] (1, 0) = (√2 / 2, √2 / 2) := by
  refine ⟨?_, ?_, ?_⟩
  · have hp := usual_precision hd 1 1 (-1) 1 0 0
    norm_num at hp
    have hcol : usual.collapse env [.matrix ⟨1, 1, -1, 1, 0, 0⟩] = [.matrix ⟨1, 1, -1, 1, 0, 0⟩] := by
      simp [Config.collapse]
    rw [Config.run, hcol, Config.convert, Config.shorts]
    generalize usual.precision env [.matrix ⟨1, 1, -1, 1, 0, 0⟩] = p at hp
    have hs : roundArg p.transform √2 = 1 := by
      rw [hp, roundArg, if_neg (by norm_num), roundAway_sqrt_two]
    have h45' : ∀ n, roundArg n 45 = 45 := fun n => by simpa using roundArg_int n 45
    have hr : (T.matrix ⟨1, 1, -1, 1, 0, 0⟩ : T Css).round p = .matrix ⟨1, 1, -1, 1, 0, 0⟩ := by
      simp only [T.round, roundArg_neg, roundArg_zero, roundArg_one]
    have hl : (T.rotate 45 0 0 : T Css).len env.width = 10 := by simp [T.len, h45]
    have ho : optimize [.rotate 45 0 0, .scale 1 1] [.rotate 45 0 0, .scale √2 √2] = some [(.rotate 45 0 0 : T Css)] := by
      have i1 : ¬ (T.rotate 45 0 0 : T Css).isIdentity := by simp [T.isIdentity]
      have i2 : (T.scale 1 1 : T Css).isIdentity := by simp [T.isIdentity]
      simp [optimize, optimizeLoop, i1, i2, push, orUnit]
    have hm : matrixToTransform env p (.matrix ⟨1, 1, -1, 1, 0, 0⟩) = some [.rotate 45 0 0] := by
      simp only [matrixToTransform, hr, compositions_turn]
      simp only [shortest, List.map_cons, List.map_nil, round_rotate, round_scale, roundArg_zero, hs, h45', ho, lens, hl]
      have h0 := hw 0
      have h1 := hw 1
      have h1' := hw (-1)
      rw [if_pos (by simp [T.len]; omega), if_pos (by simp)]
    have hu : ¬ (T.rotate 45 0 0 : T Css).useless := by simp [T.useless]
    simp [usual, flatOption, hm, round_rotate, h45', roundArg_zero, joinRotates, Config.dropUseless, hu]
  · simp [draw, T.move, M.apply]
  · have h : (45 : ℝ) * π / 180 = π / 4 := by ring
    simp [draw, T.move, h]

/-- **C44 (more decimals, less precision).** If twenty or more decimals are asked for, lengths are rounded to integers:
`translate(0.4)` is removed altogether. -/
theorem decimals_violated (n : Int) (hn : 20 ≤ n) :
    ({ usual with floatPrecision := n } : Config).run env [.translate (2 / 5) 0] = some [] ∧
    draw css [.translate (2 / 5) 0] (0, 0) = (2 / 5, 0) := by
  constructor
  · have hr : roundArg n (2 / 5) = 0 := by
      rw [roundArg, if_neg (by omega), roundAway, if_pos (by norm_num)]
      norm_num
    have hu : (T.translate 0 0 : T Css).useless := by simp [T.useless]
    simp [Config.run, Config.convert, Config.shorts, Config.collapse, usual, flatOption, matrixToTransform, round_translate,
      Config.precision, hr, roundArg_zero, joinRotates, Config.dropUseless, hu]
  · simp [draw, T.move]

/-- **C44 (`convertToShorts` converts nothing).** Where rounding changes nothing, the result does not depend on the
option `convertToShorts`. -/
theorem shorts_violated (cfg : Config) (b : Bool) (l : List (T Css))
    (h : ∀ t ∈ cfg.collapse env l, t.round (cfg.precision env (cfg.collapse env l)) = t) :
    ({ cfg with convertToShorts := b } : Config).run env l = cfg.run env l := by
  have hp : ({ cfg with convertToShorts := b } : Config).precision env (cfg.collapse env l) =
      cfg.precision env (cfg.collapse env l) := rfl
  have hc : ({ cfg with convertToShorts := b } : Config).collapse env l = cfg.collapse env l := rfl
  have hs : ∀ b : Bool, (if b then cfg.collapse env l
      else (cfg.collapse env l).map (T.round (cfg.precision env (cfg.collapse env l)))) = cfg.collapse env l := by
    intro b
    split
    · rfl
    · rw [List.map_congr_left h, List.map_id']
  unfold Config.run
  rw [hc]
  unfold Config.convert
  rw [hp]
  unfold Config.shorts
  dsimp only
  rw [hs, hs]
  rfl

end

/-! ## Examples -/

/-- The hypotheses of `run_partial` hold for two translations away from (1, 1). -/
example (env : Env Empty) (css : Empty → Pt → Pt) :
    ∃ p out L L', Used css env usual [.translate 3 4, .translate 10 0] p ∧
    usual.run env [.translate 3 4, .translate 10 0] = some out ∧
    (∀ q, draw css L q = draw css [.translate 3 4, .translate 10 0] q) ∧
    (∀ q, draw css out q = draw css L' q) ∧ List.Forall₂ (Near p) L L' ∧ L.length ≤ 8 := by
  apply run_partial (fun c => c.elim) usual rfl
  rintro _ m (h | h)
  · simp at h
  · have := h (0, 0)
    simp [draw, T.move, M.apply] at this
    rintro ⟨h1, _⟩
    have : tolerance usual.floatPrecision = 1 / 1000 := by
      rw [tolerance, usual, if_pos (by norm_num), show (3 : Int).toNat = 3 from rfl]
      norm_num
    rw [this, abs_le] at h1
    linarith [h1.2]

/-- Two transforms and their matrix. -/
example (env : Env Empty) : toMatrix env [.translate 10 20, .scale 2 3] = some ⟨2, 0, 0, 3, 10, 20⟩ := by
  simp [toMatrix, toMatrixFrom, T.toMatrix, M.multiply]

end Verif.Transform
