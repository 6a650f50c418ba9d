import Verif.Shapes.Props

/-!
# C46: shapes that are drawn differently afterwards, and examples
-/

namespace Verif.Shapes

open Real Verif.Transform Verif.Apply

noncomputable section

theorem arc_ends {p q : Pt} {a : Arc} {γ : ℝ → Pt} (h : IsArc p a q γ) : γ 0 = p ∧ γ 1 = q := by
  unfold IsArc at h
  split at h
  · rename_i e; exact ⟨h 0, (h 1).trans e⟩
  · split at h
    · rw [h 0, h 1]; unfold segment; simp
    · obtain ⟨_, _, _, _, h0, h1, _⟩ := h
      exact ⟨h0, h1⟩

theorem decimals_int (p : ℕ) (n : ℤ) : Decimals p n := ⟨n * 10 ^ p, by push_cast; rw [zpow_natCast]⟩

/-- **C46 (rectangles without width violate it).** SVG draws no rectangle of width 0; the path draws its sides. -/
theorem flat_violated : ∃ (r : Rect) (d : List Op), r.width = some (some 0) ∧ rectToPath 3 r = .path d ∧
    ∀ γs, Draws d γs → ∃ γ, (Kind.drawn, γ) ∈ γs ∧ γ 0 ≠ γ 1 := by
  have h0 : Decimals 3 0 := ⟨0, by simp⟩
  have h1 : Decimals 3 10 := ⟨10000, by norm_num⟩
  refine ⟨⟨none, none, some (some 0), some (some 10), none, none⟩,
    [.moveTo (0, 0), .hTo 0, .vTo 10, .hTo 0, .close], rfl, ?_, ?_⟩
  · simp [rectToPath, orZero, roundOp, roundPt, roundTo_decimals h0, roundTo_decimals h1]
  · intro γs h
    have h' : Draws [.moveTo (0, 0), .hTo 0, .vTo 10, .hTo 0, .close]
        (closedOutline [(0, 0), (0, 0), (0, 10), (0, 10)]) := by
      simp only [Draws, pieces]
      rw [if_pos (by rfl)]
      exact .cons ⟨rfl, fun _ => rfl⟩ (.cons ⟨rfl, fun _ => rfl⟩ (.cons ⟨rfl, fun _ => rfl⟩ (.cons ⟨rfl, fun _ => rfl⟩
        (.cons ⟨rfl, fun _ => rfl⟩ .nil))))
    rw [draws_unique _ _ _ h h']
    refine ⟨segment (0, 0) (0, 10), by simp [closedOutline, joined], ?_⟩
    simp [segment]

/-- What the path for a circle or an ellipse draws, whatever the radii: two arcs between the same points. -/
theorem draws_arcs {p q : Pt} {a b : Arc} {γs : List (Kind × (ℝ → Pt))} (h : Draws [.moveTo p, .arcTo a q, .arcTo b p, .close] γs) :
    ∃ γ1 γ2, IsArc p a q γ1 ∧ IsArc q b p γ2 ∧
      γs = [(.move, fun _ => p), (.drawn, γ1), (.drawn, γ2), (.close, fun _ => p)] := by
  simp only [Draws, pieces] at h
  rw [if_pos (by rfl)] at h
  simp only [Pen.pieces, Pen.draw] at h
  match γs, h with
  | [(k0, γ0), (k1, γ1), (k2, γ2), (k3, γ3)], .cons ⟨e0, h0⟩ (.cons ⟨e1, h1⟩ (.cons ⟨e2, h2⟩ (.cons ⟨e3, h3⟩ .nil))) =>
    refine ⟨γ1, γ2, h1, h2, ?_⟩
    have g0 : γ0 = fun _ => p := funext h0
    have g3 : γ3 = fun _ => p := by
      funext t
      refine (h3 t).trans ?_
      unfold segment
      rw [← add_smul, sub_add_cancel, one_smul]
    rw [g0, g3]
    simp only [Piece.kind] at e0 e1 e2 e3
    rw [← e0, ← e1, ← e2, ← e3]

/-- **C46 (negative radii violate it).** A negative radius is an error and draws nothing; the path draws a circle. -/
theorem negative_violated : ∃ (c : Circle) (d : List Op), c.r = some (some (-1)) ∧ circleToPath 3 c = .path d ∧
    ∀ γs, Draws d γs → ∃ γ, (Kind.drawn, γ) ∈ γs ∧ γ 0 ≠ γ 1 := by
  have h0 : Decimals 3 0 := ⟨0, by simp⟩
  have h1 : Decimals 3 1 := ⟨1000, by norm_num⟩
  have h2 : Decimals 3 (-1) := ⟨-1000, by norm_num⟩
  refine ⟨⟨none, none, some (some (-1))⟩, [.moveTo (0, 1), .arcTo ⟨-1, -1, 0, true, false⟩ (0, -1),
    .arcTo ⟨-1, -1, 0, true, false⟩ (0, 1), .close], rfl, ?_, ?_⟩
  · simp [circleToPath, orZero, roundAll, roundOp, roundPt, roundArc, roundFlag, roundTo_decimals h0, roundTo_decimals h1,
      roundTo_decimals h2]
  · intro γs h
    obtain ⟨γ1, γ2, h1, h2, rfl⟩ := draws_arcs h
    refine ⟨γ1, by simp, ?_⟩
    obtain ⟨e0, e1⟩ := arc_ends h1
    rw [e0, e1]
    intro e
    have := (Prod.ext_iff.mp e).2
    norm_num at this

/-- **C46 (absent radii violate it).** In SVG 2 an ellipse with one radius is a circle; the path draws only a point. -/
theorem auto_violated : ∃ (e : Ellipse) (d : List Op), e.rx = some (.len (some 5)) ∧ e.ry = none ∧ ellipseToPath 3 e = .path d ∧
    ∀ γs, Draws d γs → ∀ γ ∈ γs, ∀ t, γ.2 t = (0, 0) := by
  have h0 : Decimals 3 0 := ⟨0, by simp⟩
  have h1 : Decimals 3 5 := ⟨5000, by norm_num⟩
  refine ⟨⟨none, none, some (.len (some 5)), none⟩, [.moveTo (0, 0), .arcTo ⟨5, 0, 0, true, false⟩ (0, 0),
    .arcTo ⟨5, 0, 0, true, false⟩ (0, 0), .close], rfl, rfl, ?_, ?_⟩
  · simp [ellipseToPath, orZero, Rad.px, roundAll, roundOp, roundPt, roundArc, roundFlag, roundTo_decimals h0, roundTo_decimals h1]
  · intro γs h
    obtain ⟨γ1, γ2, h1, h2, rfl⟩ := draws_arcs h
    unfold IsArc at h1 h2
    rw [if_pos rfl] at h1 h2
    intro γ hγ t
    simp only [List.mem_cons, List.not_mem_nil, or_false] at hγ
    rcases hγ with rfl | rfl | rfl | rfl
    · rfl
    · exact h1 t
    · exact h2 t
    · rfl

theorem abs_scaled {x : ℝ} (n : ℤ) (h : |x - n| < 1 / 2) : roundAway x = n := by
  have h1 := roundAway_near x
  obtain ⟨m, hm⟩ := roundAway_exists x
  rw [hm] at h1 ⊢
  have : |(m : ℝ) - n| < 1 := by
    calc |(m : ℝ) - n| = |((m : ℝ) - x) + (x - n)| := by ring_nf
      _ ≤ |(m : ℝ) - x| + |x - n| := abs_add_le _ _
      _ < 1 := by linarith
  rw [← Int.cast_sub, ← Int.cast_abs] at this
  have h2 : |m - n| < 1 := by exact_mod_cast this
  have h3 : m - n = 0 := Int.abs_lt_one_iff.mp h2
  have : m = n := by omega
  rw [this]

theorem roundTo_eq {p : ℤ} {x : ℝ} (n : ℤ) (h : |x * (10 : ℝ) ^ p - n| < 1 / 2) : roundTo p x = n / (10 : ℝ) ^ p := by
  rw [roundTo, abs_scaled n h]

/-- **C46 (rounding violates it).** Rounding moves a number by at most 0.0005 here; the circle that is drawn afterwards
reaches 0.3 further than the circle before. -/
theorem rounding_violated : ∃ (c : Circle) (d : List Op), c.cx = none ∧ c.cy = some (some 0.0002) ∧ c.r = some (some 100.0006) ∧
    circleToPath 3 c = .path d ∧
    ∀ γs, Draws d γs → ∃ γ t, (Kind.drawn, γ) ∈ γs ∧ 0 ≤ t ∧ t ≤ 1 ∧ 100.3 < √((γ t).1 ^ 2 + ((γ t).2 - 0.0002) ^ 2) := by
  have h0 : Decimals 3 0 := ⟨0, by simp⟩
  have r1 : roundTo 3 (0.0002 - 100.0006) = -100 := by
    rw [roundTo_eq (-100000)]
    · norm_num
    · rw [abs_lt]; constructor <;> norm_num
  have r2 : roundTo 3 (0.0002 + 100.0006) = 100.001 := by
    rw [roundTo_eq 100001]
    · norm_num
    · rw [abs_lt]; constructor <;> norm_num
  have r3 : roundTo 3 100.0006 = 100.001 := by
    rw [roundTo_eq 100001]
    · norm_num
    · rw [abs_lt]; constructor <;> norm_num
  refine ⟨⟨none, some (some 0.0002), some (some 100.0006)⟩, [.moveTo (0, -100), .arcTo ⟨100.001, 100.001, 0, true, false⟩ (0, 100.001),
    .arcTo ⟨100.001, 100.001, 0, true, false⟩ (0, -100), .close], rfl, rfl, rfl, ?_, ?_⟩
  · simp only [circleToPath, orZero, List.map_cons, List.map_nil, roundAll, roundOp, roundPt, roundArc, roundFlag,
      roundTo_decimals h0, r1, r2, r3]
    rfl
  · intro γs h
    obtain ⟨γ1, γ2, h1, _, rfl⟩ := draws_arcs h
    refine ⟨γ1, 1 / 2, by simp, by norm_num, by norm_num, ?_⟩
    unfold IsArc at h1
    rw [if_neg (by intro e; have := (Prod.ext_iff.mp e).2; norm_num at this), if_neg (by norm_num)] at h1
    obtain ⟨⟨c1, c2⟩, θ, δ, hγ, e0, e1, hδ, hδ2, hl⟩ := h1
    simp only [Bool.false_eq_true, iff_false, not_lt, if_true] at hδ hl
    have hr : reach ⟨100.001, 100.001, 0, true, false⟩ (0, -100) (0, 100.001) ≤ 1 := by
      unfold reach
      refine sqrt_le_one.mpr ?_
      simp only [zero_mul, zero_div, cos_zero, sin_zero]
      rw [abs_of_pos (by norm_num)]
      norm_num
    rw [max_eq_left hr] at hγ
    have hγ' : ∀ t, γ1 t = (c1 + 100.001 * cos (θ + t * δ), c2 + 100.001 * sin (θ + t * δ)) := by
      intro t
      rw [hγ t]
      unfold onEllipse
      simp only [zero_mul, zero_div, cos_zero, sin_zero]
      rw [abs_of_pos (by norm_num)]
      ext <;> simp
    have hpi := pi_pos
    rw [abs_of_nonpos hδ] at hδ2 hl
    rw [hγ', show θ + 0 * δ = (θ + 1 / 2 * δ) - 1 / 2 * δ by ring] at e0
    rw [hγ', show θ + 1 * δ = (θ + 1 / 2 * δ) + 1 / 2 * δ by ring] at e1
    have hs : sin (1 / 2 * δ) < 0 := sin_neg_of_neg_of_neg_pi_lt (by linarith) (by linarith)
    have hc : cos (1 / 2 * δ) ≤ 0 := by
      rw [← cos_neg]
      exact cos_nonpos_of_pi_div_two_le_of_le (by linarith) (by linarith)
    have u := cos_sq_add_sin_sq (1 / 2 * δ)
    have v := cos_sq_add_sin_sq (θ + 1 / 2 * δ)
    rw [hγ']
    simp only
    rw [cos_sub, sin_sub] at e0
    rw [cos_add (θ + 1 / 2 * δ) (1 / 2 * δ), sin_add (θ + 1 / 2 * δ) (1 / 2 * δ)] at e1
    generalize sin (1 / 2 * δ) = s at *
    generalize cos (1 / 2 * δ) = k at *
    generalize sin (θ + 1 / 2 * δ) = S at *
    generalize cos (θ + 1 / 2 * δ) = K at *
    obtain ⟨a1, a2⟩ := Prod.ext_iff.mp e0
    obtain ⟨b1, b2⟩ := Prod.ext_iff.mp e1
    simp only at a1 a2 b1 b2
    have hS : S = 0 := by
      have : S * s = 0 := by linarith
      exact (mul_eq_zero.mp this).resolve_right hs.ne
    subst hS
    have hK : K = -1 := by
      have h1 : K * s = 200.001 / 200.002 := by linear_combination (b2 - a2) / 200.002
      have h2 : (K - 1) * (K + 1) = 0 := by linarith
      rcases mul_eq_zero.mp h2 with h | h
      · have : K = 1 := by linarith
        rw [this] at h1
        norm_num at h1
        linarith
      · linarith
    subst hK
    have hs2 : s = -(200.001 / 200.002) := by linear_combination (a2 - b2) / 200.002
    have hk : k < -0.0031 := by
      rw [hs2] at u
      by_contra hcon
      have : k ^ 2 ≤ 0.0031 ^ 2 := by
        norm_num at hcon ⊢
        nlinarith
      norm_num at u this
      linarith
    have hx : c1 + 100.001 * -1 < -100.3 := by
      have : c1 = 100.001 * k := by linear_combination a1
      rw [this]
      norm_num at hk ⊢
      linarith
    have : (100.3 : ℝ) = √(100.3 ^ 2) := (sqrt_sq (by norm_num)).symm
    rw [this]
    apply sqrt_lt_sqrt (by norm_num)
    have h1 := sq_nonneg (c2 + 100.001 * 0 - 0.0002)
    have h2 : (100.3 : ℝ) ^ 2 < (c1 + 100.001 * -1) ^ 2 := by nlinarith
    linarith

/-- **C46 (dashes and markers violate it).** SVG 2 starts circles at the right and goes clockwise; every path for a circle
with a radius starts elsewhere. -/
theorem start_violated (p : ℤ) (c : Circle) {cx cy r : ℝ} (h1 : c.cx = some (some cx) ∨ c.cx = none ∧ cx = 0)
    (h2 : c.cy = some (some cy) ∨ c.cy = none ∧ cy = 0) (h3 : c.r = some (some r)) (hr : 0 < r)
    (p1 : Decimals p cx) (p2 : Decimals p cy) (p3 : Decimals p r) (d : List Op) (h : circleToPath p c = .path d)
    (γs : List (Kind × (ℝ → Pt))) (hd : Draws d γs) : ∀ γ ∈ γs.head?, γ.2 0 ≠ (cx + r, cy) := by
  have e1 : orZero c.cx = some cx := orZero_of h1
  have e2 : orZero c.cy = some cy := orZero_of h2
  have e3 : orZero c.r = some r := by rw [h3]; rfl
  rw [circleToPath, e1, e2, e3] at h
  simp only [List.map_cons, List.map_nil, roundAll, roundOp, roundPt, roundArc, roundTo_decimals p1,
    roundTo_decimals (p2.add p3), roundTo_decimals (p2.sub p3), roundTo_decimals p3, roundTo_zero, Result.path.injEq] at h
  subst h
  obtain ⟨γ1, γ2, _, _, rfl⟩ := draws_arcs hd
  intro γ hγ
  simp only [List.head?_cons, Option.mem_def, Option.some.injEq] at hγ
  subst hγ
  intro e
  have := (Prod.ext_iff.mp e).1
  simp only at this
  linarith

/-- **C46 (rules for ellipses violate it).** An ellipse is replaced although a stylesheet has a rule for `ellipse`. -/
theorem ellipse_names_violated : ∃ (s : Shape) (d : List Op), s.name = .ellipse ∧ convert 3 true [[.localName .ellipse]] s = .path d :=
  ⟨.ellipse ⟨none, none, none, none⟩, _, rfl, rfl⟩

/-- **C46 (children violate it).** Whatever is converted loses its children: titles, descriptions, animations. -/
theorem children_violated {Child : Type} (p : ℤ) (arcs : Bool) (selectors : List (List Component)) (n : Node Child)
    (h : ∃ d, convert p arcs selectors n.shape = .path d) : ∃ d, convertNode p arcs selectors n = .path d [] := by
  obtain ⟨d, h⟩ := h
  exact ⟨d, by rw [convertNode, h]⟩

/-- **C46 (percentages violate it).** An ellipse that is twice as high as wide becomes a circle. -/
theorem percent_violated : ∃ r, ellipseToCircle (some (.len (.percent 50))) (some (.len (.percent 50))) = some r ∧
    usedRadii 16 100 200 (some (.len (.percent 50))) (some (.len (.percent 50))) = (50, 100) ∧
    usedRadius 16 100 200 r ≠ 50 ∧ usedRadius 16 100 200 r ≠ 100 := by
  refine ⟨.percent 50, by simp [ellipseToCircle], ?_, ?_, ?_⟩
  · simp only [usedRadii, Written.value]; norm_num
  all_goals
    simp only [usedRadius, Written.value]
    rw [← Real.sqrt_div (by norm_num : (0 : ℝ) ≤ 100 ^ 2 + 200 ^ 2)]
    intro h
    have h1 : √((100 ^ 2 + 200 ^ 2) / 2) ^ 2 = (100 ^ 2 + 200 ^ 2) / 2 := sq_sqrt (by norm_num)
    generalize √((100 ^ 2 + 200 ^ 2) / 2) = x at *
  · have : x = 100 := by linarith
    rw [this] at h1
    norm_num at h1
  · have : x = 200 := by linarith
    rw [this] at h1
    norm_num at h1

/-! ## Examples -/

/-- A rectangle. -/
example : ∃ d, rectToPath 3 ⟨some (some 1), none, some (some 2), some (some 3), none, none⟩ = .path d ∧
    Draws d (closedOutline [(1, 0), (3, 0), (3, 3), (1, 3)]) := by
  have h (n : ℤ) : roundTo 3 n = n := roundTo_decimals (decimals_int 3 n)
  have h0 := roundTo_zero 3
  have h1 : roundTo 3 1 = 1 := by exact_mod_cast h 1
  have h3 : roundTo 3 3 = 3 := by exact_mod_cast h 3
  refine ⟨[.moveTo (1, 0), .hTo 3, .vTo 3, .hTo 1, .close], ?_, ?_⟩
  · simp only [rectToPath, orZero, Option.isSome_none, Bool.false_eq_true, or_self, if_false, Option.join_some, List.map_cons,
      List.map_nil, roundOp, roundPt]
    norm_num [h0, h1, h3]
  · simp only [Draws, pieces]
    rw [if_pos (by rfl)]
    exact .cons ⟨rfl, fun _ => rfl⟩ (.cons ⟨rfl, fun _ => rfl⟩ (.cons ⟨rfl, fun _ => rfl⟩ (.cons ⟨rfl, fun _ => rfl⟩
      (.cons ⟨rfl, fun _ => rfl⟩ .nil))))

/-- A rectangle with round corners and a circle with a radius in percent are kept. -/
example : rectToPath 3 ⟨none, none, some (some 2), some (some 3), some .auto, none⟩ = .keep ∧
    circleToPath 3 ⟨none, none, some none⟩ = .keep := by simp [rectToPath, circleToPath, orZero]

/-- The circle of radius 5: the path meets its rightmost point once. -/
example : ∃ (d : List Op) (γ : ℝ → Pt), circleToPath 3 ⟨none, none, some (some 5)⟩ = .path d ∧
    Draws d [(.move, fun _ => γ 0), (.drawn, fun t => γ t), (.drawn, fun t => γ (1 + t)), (.close, fun _ => γ 0)] ∧
    ∃! t, (0 ≤ t ∧ t < 2) ∧ γ t = (5, 0) := by
  obtain ⟨d, γ, h1, h2, _, h4⟩ := circle_partial 3 ⟨none, none, some (some 5)⟩ (cx := 0) (cy := 0) (r := 5) (.inr ⟨rfl, rfl⟩)
    (.inr ⟨rfl, rfl⟩) rfl (by norm_num) ⟨0, by simp⟩ ⟨0, by simp⟩ ⟨5000, by norm_num⟩
  exact ⟨d, γ, h1, h2, h4 _ (by unfold Round; norm_num)⟩

/-- A rule for rectangles keeps rectangles, not lines. -/
example : convert 3 false [[.other, .localName .rect]] (.rect ⟨none, none, some (some 2), some (some 3), none, none⟩) = .keep ∧
    ∃ d, convert 3 false [[.other, .localName .rect]] (.line ⟨none, none, none, none⟩) = .path d :=
  ⟨rfl, _, rfl⟩

/-- A polygon of one point is removed. -/
example : polyToPath 3 true (some [.moveTo (1, 2)]) = .removed := by simp [polyToPath]

/-- An ellipse with radii `2em` and `auto` becomes a circle. -/
example : ellipseToCircle (some (.len (.em 2))) (some .auto) = some (.em 2) ∧
    ellipseToCircle (some (.len (.em 2))) (some (.len (.px 2))) = none := by simp [ellipseToCircle]

end

end Verif.Shapes
