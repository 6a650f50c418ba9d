import Verif.Stroke.Props

/-!
# C51: where the picture changes
-/

namespace Verif.Stroke

open Real Verif.Transform Verif.Apply

noncomputable section

/-! ## A line -/

/-- A line from the origin to the right. -/
def line (x : ℝ) : List Op := [.moveTo (0, 0), .lineTo (x, 0)]

/-- The matrix of a scaling. -/
def dilation (k : ℝ) : M := ⟨k, 0, 0, k, 0, 0⟩

/-- An environment without transforms in CSS notation. -/
def bareEnv : Env (C Unit Unit) := ⟨fun _ => none, fun _ => 0, fun _ => 0, fun _ => 0⟩

/-- What transforms in CSS notation do. -/
def cssMove : C Unit Unit → Pt → Pt := C.move (fun _ => 0) (fun _ => id)

/-- No rules and no ancestors with styles. -/
def bare : Sheet Unit Unit := ⟨none, none, ⟨none, []⟩, ⟨none, []⟩, ⟨none, []⟩, ⟨none, []⟩, none, []⟩

/-- A line with a transform. -/
def path (k : ℝ) (rest : List (Attr Unit Unit)) : List (Attr Unit Unit) :=
  .d (line 10) :: .transform (.is [.matrix (dilation k)]) :: rest

theorem apply_line (k x : ℝ) : apply (dilation k) (line x) = some (line (k * x)) := by
  simp [apply, anchor, line, applyFrom, straighten, mapOp, absolute, dilation, track]

theorem curves_line (x : ℝ) : curves (line x) = [(.move, fun _ => (0, 0)), (.drawn, segment (0, 0) (x, 0))] := by
  apply curves_eq
  simp [Draws, line, pieces, Op.isMove, Pen.pieces, Pen.draw, Piece.kind, Piece.Curve]

theorem segment_line (x t : ℝ) : segment (0, 0) (x, 0) t = (t * x, 0) := by
  simp [Apply.segment]

theorem image_line (k x : ℝ) : image (dilation k).apply (curves (line x)) = curves (line (k * x)) := by
  rw [curves_line, curves_line]
  have : (fun t => (dilation k).apply (segment (0, 0) (x, 0) t)) = segment (0, 0) (k * x, 0) := by
    funext t
    rw [segment_line, segment_line]
    simp [dilation, M.apply]
    ring
  simp only [image, List.map_cons, List.map_nil, this]
  simp [dilation, M.apply]

/-- How far a solid round stroke of a line reaches at its start. -/
theorem ink_line (x w o h : ℝ) : ((0, h) : Pt) ∈ roundInk (curves (line x)) w [] o ↔ |h| ≤ w / 2 := by
  rw [curves_line]
  simp only [roundInk, onDash, Set.mem_ofPred_eq, Set.union_empty]
  constructor
  · rintro ⟨q, ⟨t, _, _, rfl, _⟩, hd⟩
    rw [segment_line] at hd
    refine le_trans ?_ hd
    rw [distance, ← Real.sqrt_sq_eq_abs]
    apply Real.sqrt_le_sqrt
    simp
    positivity
  · intro hw
    refine ⟨(0, 0), ⟨0, le_rfl, zero_le_one, by simp [segment_line], Or.inl (by simp)⟩, ?_⟩
    simpa [distance, Real.sqrt_sq_eq_abs] using hw

theorem factor_dilation {k : ℝ} (hk : 0 ≤ k) (cfg : Config) (hp : cfg.precision = none) : factor cfg (dilation k) = k := by
  simp [factor, hp, dilation, Real.sqrt_mul_self hk]

theorem toMatrix_dilation (k : ℝ) : toMatrix bareEnv [.matrix (dilation k)] = some (dilation k) := by
  simp [toMatrix, toMatrixFrom, T.toMatrix, M.multiply, dilation]

theorem contradicts_bare (sheet : Sheet Unit Unit) (h : sheet.transform = none) (k : ℝ) :
    contradicts bareEnv sheet [.matrix (dilation k)] = .ok false := by
  simp [contradicts, h, readCss, T.toCss, fromCss]

/-- What the job does with the line. -/
theorem element_path (cfg : Config) (sheet : Sheet Unit Unit) (h : contradicts bareEnv sheet [.matrix (dilation k)] = .ok false)
    (rest : List (Attr Unit Unit))
    (hr : rest.any Attr.stops = false) (h1 : unclear (computed sheet.stroke (strokeOf rest)) = false)
    (h2 : unclear (computed sheet.width (widthOf rest)) = false) (bs : List (Attr Unit Unit))
    (h3 : stroked cfg sheet (dilation k) (path k rest) = some bs) :
    element bareEnv cfg (.ok sheet) (path k rest) = .ok (removeTransform (setData (line (k * 10)) bs)) := by
  have e0 : (path k rest).any Attr.stops = false := by simpa [path, Attr.stops, Attr.ids, Attr.urls] using hr
  have e1 : strokeOf (path k rest) = strokeOf rest := rfl
  have e2 : widthOf (path k rest) = widthOf rest := rfl
  have e3 : data (path k rest) = some (line 10) := rfl
  have e4 : transformOf (path k rest) = some (.is [.matrix (dilation k)]) := rfl
  simp only [element, e3, e0, Bool.false_eq_true, if_false, e4, h, withTransform, e1, e2, h1, h2, toMatrix_dilation, h3, finish,
    apply_line]

/-- The stroke of the line, scaled. -/
theorem stroked_path {k : ℝ} (hk : 0 ≤ k) (hk1 : k ≠ 1) (sheet : Sheet Unit Unit) (rest : List (Attr Unit Unit))
    (h1 : computed sheet.stroke (strokeOf rest) = some (.is (.plain "red"), .static)) (h2 : vectorEffectOf rest ≠ some true) :
    stroked ⟨none, false⟩ sheet (dilation k) (path k rest) = some (path k
      (scaleDashes k (scaleOffset k (setWidth (newWidth k (computed sheet.width (widthOf rest))) rest)))) := by
  have e1 : strokeOf (path k rest) = strokeOf rest := rfl
  have e2 : widthOf (path k rest) = widthOf rest := rfl
  have e3 : vectorEffectOf (path k rest) = vectorEffectOf rest := rfl
  simp only [stroked, e1, h1, applyStroked, e3, e2]
  rw [factor_dilation hk ⟨none, false⟩ rfl]
  simp [dilation, h2, hk1, path, setWidth, scaleOffset, scaleDashes]

theorem removeTransform_path (k : ℝ) (ops : List Op) (rest : List (Attr Unit Unit)) :
    removeTransform (setData ops (path k rest)) = .d ops :: rest := rfl

theorem place_path (k : ℝ) (sheet : Sheet Unit Unit) (h1 : sheet.transform = none) (h2 : sheet.origin = none)
    (rest : List (Attr Unit Unit)) (h3 : rest.findSome? Attr.origin? = none) :
    (look cssMove 0 false sheet (path k rest)).place = (dilation k).apply := by
  funext p
  simp [look, h1, h2, path, List.findSome?_cons, Attr.origin?, Attr.transform?, h3, moved, moveAttr, draw, T.move, around]

theorem place_done (x : ℝ) (sheet : Sheet Unit Unit) (h1 : sheet.transform = none) (h2 : sheet.origin = none)
    (rest : List (Attr Unit Unit)) (h3 : rest.findSome? Attr.origin? = none) (h4 : rest.findSome? Attr.transform? = none) :
    (look cssMove 0 false sheet (.d (line x) :: rest)).place = id := by
  funext p
  simp [look, h1, h2, List.findSome?_cons, Attr.origin?, Attr.transform?, h3, h4, moved, moveAttr, around]

/-- How far a solid round stroke reaches at the start of the line, before. -/
theorem ink_before {k w : ℝ} (hk : 0 < k) (sheet : Sheet Unit Unit) (h1 : sheet.transform = none) (h2 : sheet.origin = none)
    (rest : List (Attr Unit Unit)) (h3 : rest.findSome? Attr.origin? = none)
    (h4 : (look cssMove 0 false sheet (path k rest)).stroke = .plain "red")
    (h5 : (look cssMove 0 false sheet (path k rest)).width = w)
    (h6 : (look cssMove 0 false sheet (path k rest)).dashes = [])
    (h7 : (look cssMove 0 false sheet (path k rest)).fixed = false) (h : ℝ) :
    ((0, h) : Pt) ∈ ((look cssMove 0 false sheet (path k rest)).picture round id).ink ↔ |h| ≤ k * w / 2 := by
  have e : (look cssMove 0 false sheet (path k rest)).ops = line 10 := rfl
  simp only [Look.picture, h7, Bool.false_eq_true, if_false, place_path k sheet h1 h2 rest h3, Function.id_comp, Look.along, h4, h6,
    h5, e, round, Set.mem_image]
  constructor
  · rintro ⟨q, hq, hf⟩
    have hx : q = (0, q.2) := by
      have := congrArg Prod.fst hf
      simp [dilation, M.apply] at this
      exact Prod.ext (this.resolve_left hk.ne') rfl
    rw [hx] at hq
    rw [ink_line] at hq
    have := congrArg Prod.snd hf
    simp [dilation, M.apply] at this
    rw [← this, abs_mul, abs_of_pos hk]
    nlinarith
  · intro hh
    refine ⟨(0, h / k), ?_, ?_⟩
    · rw [ink_line, abs_div, abs_of_pos hk, div_le_iff₀ hk]
      linarith
    · simp [dilation, M.apply]
      field_simp

/-- How far a solid round stroke reaches at the start of the line, after. -/
theorem ink_after {x w : ℝ} (sheet : Sheet Unit Unit) (h1 : sheet.transform = none) (h2 : sheet.origin = none)
    (rest : List (Attr Unit Unit)) (h3 : rest.findSome? Attr.origin? = none) (h8 : rest.findSome? Attr.transform? = none)
    (h4 : (look cssMove 0 false sheet (.d (line x) :: rest)).stroke = .plain "red")
    (h5 : (look cssMove 0 false sheet (.d (line x) :: rest)).width = w)
    (h6 : (look cssMove 0 false sheet (.d (line x) :: rest)).dashes = []) (h : ℝ) :
    ((0, h) : Pt) ∈ ((look cssMove 0 false sheet (.d (line x) :: rest)).picture round id).ink ↔ |h| ≤ w / 2 := by
  have e : (look cssMove 0 false sheet (.d (line x) :: rest)).ops = line x := rfl
  have ei : image id (curves (line x)) = curves (line x) := by simp [image]
  simp only [Look.picture, place_done x sheet h1 h2 rest h3 h8, Function.id_comp, Look.along, h4, h6,
    h5, e, round, ei, Set.image_id, ite_self]
  exact ink_line x w 0 h

/-! ## Strokes -/

/-- **C51, violated.** A rule that sets the width of the stroke wins over the attribute that the job writes: the stroke becomes
thinner. -/
theorem rule_violated : ∃ (sheet : Sheet Unit Unit) (as as' : List (Attr Unit Unit)),
    element bareEnv ⟨none, false⟩ (.ok sheet) as = .ok as' ∧ sheet.width = ⟨some (.is ⟨1, 0⟩, .static), []⟩ ∧
    ((0, 1) : Pt) ∈ ((look cssMove 0 false sheet as).picture round id).ink ∧
    ((0, 1) : Pt) ∉ ((look cssMove 0 false sheet as').picture round id).ink := by
  refine ⟨{ bare with width := ⟨some (.is ⟨1, 0⟩, .static), []⟩ }, path 2 [.stroke (.is (.plain "red"))], _,
    element_path _ _ (contradicts_bare _ rfl 2) _ rfl rfl rfl _ (stroked_path (by norm_num) (by norm_num) _ _ rfl (by simp [vectorEffectOf])), rfl, ?_, ?_⟩
  · rw [ink_before (w := 1) (by norm_num) _ rfl rfl _ rfl rfl (by simp [look, used, Len.value]) rfl rfl]
    norm_num
  · rw [removeTransform_path, ink_after (w := 1) _ rfl rfl _ rfl rfl rfl (by simp [look, used, Len.value]) rfl]
    norm_num

/-- **C51, violated.** With `stroke="inherit"` the width is not scaled. -/
theorem inherited_violated : ∃ (sheet : Sheet Unit Unit) (as as' : List (Attr Unit Unit)),
    element bareEnv ⟨none, false⟩ (.ok sheet) as = .ok as' ∧ .stroke .inherit ∈ as ∧
    ((0, 1) : Pt) ∈ ((look cssMove 0 false sheet as).picture round id).ink ∧
    ((0, 1) : Pt) ∉ ((look cssMove 0 false sheet as').picture round id).ink := by
  refine ⟨{ bare with stroke := ⟨none, [some (.is (.plain "red"), .static)]⟩ }, path 2 [.stroke .inherit], _,
    element_path _ _ (contradicts_bare _ rfl 2) _ rfl rfl rfl (path 2 [.stroke .inherit]) rfl, by simp [path], ?_, ?_⟩
  · rw [ink_before (w := 1) (by norm_num) _ rfl rfl _ rfl rfl (by simp [look, used, Len.value, path, List.findSome?_cons, Attr.width?, fromAttr, bare, fromAbove]) rfl rfl]
    norm_num
  · rw [removeTransform_path, ink_after (w := 1) _ rfl rfl _ rfl rfl rfl (by simp [look, used, Len.value, List.findSome?_cons, Attr.width?, fromAttr, bare, fromAbove]) rfl]
    norm_num

/-- **C51, violated.** With `stroke-width="inherit"` the width becomes that of a stroke of width 1, scaled. -/
theorem inherited_width_violated : ∃ (sheet : Sheet Unit Unit) (as as' : List (Attr Unit Unit)),
    element bareEnv ⟨none, false⟩ (.ok sheet) as = .ok as' ∧ .width .inherit ∈ as ∧
    ((0, 4) : Pt) ∈ ((look cssMove 0 false sheet as).picture round id).ink ∧
    ((0, 4) : Pt) ∉ ((look cssMove 0 false sheet as').picture round id).ink := by
  refine ⟨{ bare with width := ⟨none, [some (.is ⟨4, 0⟩, .static)]⟩ }, path 2 [.stroke (.is (.plain "red")), .width .inherit], _,
    element_path _ _ (contradicts_bare _ rfl 2) _ rfl rfl rfl _ (stroked_path (by norm_num) (by norm_num) _ _ rfl (by simp [vectorEffectOf])), by simp [path], ?_, ?_⟩
  · rw [ink_before (w := 4) (by norm_num) _ rfl rfl _ rfl rfl (by simp [look, used, Len.value, path, List.findSome?_cons, Attr.width?, fromAttr, fromAbove]) rfl rfl]
    norm_num
  · rw [removeTransform_path, ink_after (w := 2) _ rfl rfl _ rfl rfl rfl (by simp [look, used, Len.value, List.findSome?_cons, Attr.width?, fromAttr, computed, widthOf, newWidth, setWidth, scaleOffset, scaleDashes]) rfl]
    norm_num

/-- **C51, violated.** A rule with `vector-effect: non-scaling-stroke` is not noticed: the width is scaled though it should
not. -/
theorem effect_violated : ∃ (sheet : Sheet Unit Unit) (as as' : List (Attr Unit Unit)),
    element bareEnv ⟨none, false⟩ (.ok sheet) as = .ok as' ∧ sheet = { bare with vectorEffect := some true } ∧
    ((0, 1) : Pt) ∉ ((look cssMove 0 false sheet as).picture round id).ink ∧
    ((0, 1) : Pt) ∈ ((look cssMove 0 false sheet as').picture round id).ink := by
  refine ⟨{ bare with vectorEffect := some true }, path 2 [.stroke (.is (.plain "red"))], _,
    element_path _ _ (contradicts_bare _ rfl 2) _ rfl rfl rfl _ (stroked_path (by norm_num) (by norm_num) _ _ rfl (by simp [vectorEffectOf])), rfl, ?_, ?_⟩
  · have e1 : (look cssMove 0 false { bare with vectorEffect := some true } (path 2 [.stroke (.is (.plain "red"))])).fixed = true := rfl
    have e2 : (look cssMove 0 false { bare with vectorEffect := some true } (path 2 [.stroke (.is (.plain "red"))])).stroke = .plain "red" := rfl
    have e3 : (look cssMove 0 false { bare with vectorEffect := some true } (path 2 [.stroke (.is (.plain "red"))])).dashes = [] := rfl
    have e4 : (look cssMove 0 false { bare with vectorEffect := some true } (path 2 [.stroke (.is (.plain "red"))])).width = 1 := by
      simp [look, used, Len.value, path, List.findSome?_cons, Attr.width?, fromAttr, bare, fromAbove]
    have e5 : (look cssMove 0 false { bare with vectorEffect := some true } (path 2 [.stroke (.is (.plain "red"))])).ops = line 10 := rfl
    simp only [Look.picture, e1, if_true, place_path 2 { bare with vectorEffect := some true } rfl rfl [.stroke (.is (.plain "red"))] rfl, Function.id_comp, e5,
      image_line, Look.along, e2, e3, e4, round]
    rw [ink_line]
    norm_num
  · rw [removeTransform_path, ink_after (w := 2) _ rfl rfl _ rfl rfl rfl (by simp [look, used, Len.value, List.findSome?_cons, Attr.width?, fromAttr, computed, widthOf, newWidth, setWidth, scaleOffset, scaleDashes, bare]) rfl]
    norm_num

/-- **C51, violated.** A precision is a factor, not a number of digits: with 1, the width for a scaling by 1.4 is not changed. -/
theorem precision_violated : ∃ (as as' : List (Attr Unit Unit)),
    element bareEnv ⟨some 1, false⟩ (.ok bare) as = .ok as' ∧
    ((0, 7 / 10) : Pt) ∈ ((look cssMove 0 false bare as).picture round id).ink ∧
    ((0, 7 / 10) : Pt) ∉ ((look cssMove 0 false bare as').picture round id).ink := by
  have hf : factor ⟨some 1, false⟩ (dilation (7 / 5)) = 1 := by
    have : √((7 / 5 : ℝ) * (7 / 5)) = 7 / 5 := Real.sqrt_mul_self (by norm_num)
    have hfl : ⌊(7 / 5 : ℝ) + 1 / 2⌋ = 1 := by rw [Int.floor_eq_iff]; norm_num
    simp only [factor, dilation, mul_zero, add_zero, this, mul_one, roundAway]
    rw [hfl]
    norm_num
  have hs : stroked ⟨some 1, false⟩ bare (dilation (7 / 5)) (path (7 / 5) [.stroke (.is (.plain "red"))]) =
      some (path (7 / 5) [.stroke (.is (.plain "red"))]) := by
    have e1 : strokeOf (path (7 / 5) [.stroke (.is (.plain "red"))]) = some (.is (.plain "red")) := rfl
    simp [stroked, e1, computed, bare, applyStroked, hf]
    simp [dilation]
  refine ⟨path (7 / 5) [.stroke (.is (.plain "red"))], _,
    element_path _ _ (contradicts_bare _ rfl _) _ rfl rfl rfl _ hs, ?_, ?_⟩
  · rw [ink_before (w := 1) (by norm_num) _ rfl rfl _ rfl rfl (by simp [look, used, Len.value, path, List.findSome?_cons, Attr.width?, fromAttr, bare, fromAbove]) rfl rfl]
    norm_num [abs_of_pos]
  · rw [removeTransform_path, ink_after (w := 1) _ rfl rfl _ rfl rfl rfl (by simp [look, used, Len.value, List.findSome?_cons, Attr.width?, fromAttr, bare, fromAbove]) rfl]
    norm_num [abs_of_pos]

/-! ## Dashes -/

theorem length_line {x t : ℝ} (hx : 0 ≤ x) (ht : 0 ≤ t) : lengthTo (Apply.segment (0, 0) (x, 0)) t = t * x := by
  have h1 : eVariationOn (flat (Apply.segment (0, 0) (x, 0))) (Set.Icc 0 t) = eVariationOn (fun u => u * x) (Set.Icc 0 t) := by
    simp only [eVariationOn]
    congr 1
    funext p
    refine Finset.sum_congr rfl fun i _ => ?_
    rw [edist_flat, segment_line, segment_line, edist_dist, Real.dist_eq, distance]
    congr 1
    simp [Real.sqrt_sq_eq_abs]
  have h2 : MonotoneOn (fun u : ℝ => u * x) (Set.Icc 0 t) := fun a _ b _ hab => mul_le_mul_of_nonneg_right hab hx
  have h3 : eVariationOn (fun u => u * x) (Set.Icc 0 t) = ENNReal.ofReal (t * x) := by
    apply le_antisymm
    · have := h2.eVariationOn_le (a := 0) (b := t) ⟨le_rfl, ht⟩ ⟨ht, le_rfl⟩
      simpa using this
    · have := eVariationOn.edist_le (fun u : ℝ => u * x) (s := Set.Icc 0 t) (x := t) (y := 0) ⟨ht, le_rfl⟩ ⟨le_rfl, ht⟩
      rw [edist_dist, Real.dist_eq] at this
      simpa [abs_of_nonneg (mul_nonneg ht hx)] using this
  rw [lengthTo, h1, h3, ENNReal.toReal_ofReal (mul_nonneg ht hx)]

/-- The dashes of a line of length 10, five long with gaps as long, are not where the gap is. -/
theorem gap_line (p : Pt) (hp : p = (13 / 2, 0)) : p ∉ roundInk (curves (line 10)) 1 [5, 5] 0 := by
  subst hp
  rw [curves_line]
  simp only [roundInk, onDash, Set.mem_ofPred_eq, Set.union_empty]
  rintro ⟨q, ⟨t, h0, h1, rfl, hd⟩, hq⟩
  rw [length_line (by norm_num) h0, zero_add, add_zero] at hd
  rw [segment_line, distance] at hq
  simp only [sub_self, ne_eq, OfNat.ofNat_ne_zero, not_false_eq_true, zero_pow, add_zero, Real.sqrt_sq_eq_abs] at hq
  rw [abs_le] at hq
  obtain ⟨hq1, hq2⟩ := hq
  rcases hd with hd | ⟨n, i, hi, hd1, hd2⟩
  · norm_num at hd
  · have hn : n ≤ -1 ∨ n = 0 ∨ 1 ≤ n := by omega
    have hi' : i = 0 ∨ i = 1 := by simp at hi; omega
    have hn' : (n : ℝ) ≤ -1 ∨ (n : ℝ) = 0 ∨ 1 ≤ (n : ℝ) := by
      rcases hn with h | h | h
      · exact Or.inl (by exact_mod_cast h)
      · exact Or.inr (Or.inl (by exact_mod_cast h))
      · exact Or.inr (Or.inr (by exact_mod_cast h))
    rcases hi' with rfl | rfl <;> rcases hn' with h | h | h <;> norm_num at hd1 hd2 <;> nlinarith

/-- A line of length 20 is covered where it is on a dash. -/
theorem dash_line (w : ℝ) (hw : 0 ≤ w) (ds : List ℝ) (h : dashed ds 13) : ((13, 0) : Pt) ∈ roundInk (curves (line 20)) w ds 0 := by
  rw [curves_line]
  simp only [roundInk, onDash, Set.mem_ofPred_eq, Set.union_empty]
  refine ⟨(13, 0), ⟨13 / 20, by norm_num, by norm_num, by rw [segment_line]; norm_num, ?_⟩, by simp [distance]; linarith⟩
  rw [length_line (by norm_num) (by norm_num)]
  norm_num
  exact h

/-- **C51, violated.** Dashes that are inherited are not scaled. -/
theorem dashes_violated : ∃ (sheet : Sheet Unit Unit) (as as' : List (Attr Unit Unit)),
    element bareEnv ⟨none, false⟩ (.ok sheet) as = .ok as' ∧
    sheet = { bare with dashes := ⟨none, [some (.is [⟨5, 0⟩, ⟨5, 0⟩], .static)]⟩ } ∧
    ((13, 0) : Pt) ∉ ((look cssMove 0 false sheet as).picture round id).ink ∧
    ((13, 0) : Pt) ∈ ((look cssMove 0 false sheet as').picture round id).ink := by
  refine ⟨{ bare with dashes := ⟨none, [some (.is [⟨5, 0⟩, ⟨5, 0⟩], .static)]⟩ }, path 2 [.stroke (.is (.plain "red"))], _,
    element_path _ _ (contradicts_bare _ rfl 2) _ rfl rfl rfl _ (stroked_path (by norm_num) (by norm_num) _ _ rfl (by simp [vectorEffectOf])), rfl, ?_, ?_⟩
  · intro hin
    simp only [Look.picture] at hin
    rw [place_path 2 _ rfl rfl _ rfl] at hin
    simp [look, path, used, fromAttr, fromAbove, bare, List.findSome?_cons, Attr.stroke?, Attr.width?, Attr.dashes?, Attr.offset?, Attr.ops?,
      Attr.pathLength?, Attr.vectorEffect?, Len.value, Look.along, round] at hin
    obtain ⟨a, b, hin, h1⟩ := hin
    refine gap_line (a, b) ?_ hin
    simp [dilation, M.apply] at h1
    exact Prod.ext (by simp; linarith) (by simpa using h1.2)
  · rw [removeTransform_path]
    simp only [Look.picture]
    rw [place_done _ _ rfl rfl _ rfl rfl]
    simp [look, used, fromAttr, fromAbove, bare, List.findSome?_cons, Attr.stroke?, Attr.width?, Attr.dashes?, Attr.offset?, Attr.ops?,
      Attr.pathLength?, Attr.vectorEffect?, Len.value, Look.along, round, setWidth, scaleOffset, scaleDashes]
    norm_num
    refine dash_line _ ?_ _ ?_
    · simp [computed, widthOf, newWidth]
    · exact Or.inr ⟨0, 1, by simp, by norm_num, by norm_num⟩

/-- **C51, violated.** Where `pathLength` says how long the path is to count, dashes are scaled though they should not. -/
theorem length_violated : ∃ as as' : List (Attr Unit Unit),
    element bareEnv ⟨none, false⟩ (.ok bare) as = .ok as' ∧ .pathLength 10 ∈ as ∧
    ((13, 0) : Pt) ∉ ((look cssMove 0 false bare as).picture round id).ink ∧
    ((13, 0) : Pt) ∈ ((look cssMove 0 false bare as').picture round id).ink := by
  refine ⟨path 2 [.stroke (.is (.plain "red")), .dashes (.is [⟨5, 0⟩, ⟨5, 0⟩]), .pathLength 10], _,
    element_path _ _ (contradicts_bare _ rfl 2) _ rfl rfl rfl _ (stroked_path (by norm_num) (by norm_num) _ _ rfl (by simp [vectorEffectOf])), by simp [path], ?_, ?_⟩
  · intro hin
    simp only [Look.picture] at hin
    rw [place_path 2 _ rfl rfl _ rfl] at hin
    have hlen : length (curves (line 10)) = 10 := by
      have h0 : lengthTo (fun _ => ((0, 0) : Pt)) 1 = 0 := by
        have : (fun _ => ((0, 0) : Pt)) = Apply.segment (0, 0) (0, 0) := by funext t; simp [segment_line]
        rw [this, length_line le_rfl zero_le_one, mul_zero]
      rw [curves_line]
      simp [length, h0, length_line]
    simp [look, path, used, fromAttr, fromAbove, bare, List.findSome?_cons, Attr.stroke?, Attr.width?, Attr.dashes?, Attr.offset?, Attr.ops?,
      Attr.pathLength?, Attr.vectorEffect?, Len.value, Look.along, round, hlen] at hin
    obtain ⟨a, b, hin, h1⟩ := hin
    refine gap_line (a, b) ?_ hin
    simp [dilation, M.apply] at h1
    exact Prod.ext (by simp; linarith) (by simpa using h1.2)
  · rw [removeTransform_path]
    simp only [Look.picture]
    rw [place_done _ _ rfl rfl _ rfl rfl]
    have hlen : length (curves (line 20)) = 20 := by
      have h0 : lengthTo (fun _ => ((0, 0) : Pt)) 1 = 0 := by
        have : (fun _ => ((0, 0) : Pt)) = Apply.segment (0, 0) (0, 0) := by funext t; simp [segment_line]
        rw [this, length_line le_rfl zero_le_one, mul_zero]
      rw [curves_line]
      simp [length, h0, length_line]
    have hx : (2 : ℝ) * 10 = 20 := by norm_num
    simp [look, used, fromAttr, fromAbove, bare, List.findSome?_cons, Attr.stroke?, Attr.width?, Attr.dashes?, Attr.offset?, Attr.ops?,
      Attr.pathLength?, Attr.vectorEffect?, Len.value, Look.along, round, setWidth, scaleOffset, scaleDashes, Len.mul, hx, hlen]
    refine dash_line _ ?_ _ ?_
    · simp [computed, widthOf, newWidth]
    · exact Or.inr ⟨0, 0, by simp, by norm_num, by norm_num⟩

/-! ## Places -/

/-- **C51, violated.** A gradient, marker or the like that comes from a rule or an ancestor is laid out in other coordinates
afterwards. -/
theorem server_violated : ∃ (sheet : Sheet Unit Unit) (as as' : List (Attr Unit Unit)),
    element bareEnv ⟨none, false⟩ (.ok sheet) as = .ok as' ∧ sheet = { bare with servers := ["#g"] } ∧
    ((look cssMove 0 false sheet as).picture round id).servers ≠ ((look cssMove 0 false sheet as').picture round id).servers := by
  refine ⟨{ bare with servers := ["#g"] }, path 2 [], _,
    element_path _ _ (contradicts_bare _ rfl 2) _ rfl rfl rfl (path 2 []) rfl, rfl, ?_⟩
  simp only [Look.picture, removeTransform_path]
  rw [place_path 2 _ rfl rfl _ rfl, place_done _ _ rfl rfl _ rfl rfl]
  simp [look, path, Attr.urls]
  intro h
  have := congrArg Prod.fst (congrFun h (1, 0))
  simp [dilation, M.apply] at this

/-- **C51, violated.** A reference into another document does not stop the job. -/
theorem remote_violated : ∃ as as' : List (Attr Unit Unit),
    element bareEnv ⟨none, false⟩ (.ok bare) as = .ok as' ∧ .other "fill" [] ["o.svg#g"] ∈ as ∧
    ((look cssMove 0 false bare as).picture round id).servers ≠ ((look cssMove 0 false bare as').picture round id).servers := by
  refine ⟨path 2 [.other "fill" [] ["o.svg#g"]], _,
    element_path _ _ (contradicts_bare _ rfl 2) _ ?_ rfl rfl (path 2 [.other "fill" [] ["o.svg#g"]]) rfl, by simp [path], ?_⟩
  · have : ¬ ("#" : String).toList <+: ("o.svg#g" : String).toList := by decide
    simp [Attr.stops, Attr.ids, Attr.urls, String.startsWith_string_iff, this]
  simp only [Look.picture, removeTransform_path]
  rw [place_path 2 _ rfl rfl _ rfl, place_done _ _ rfl rfl _ rfl rfl]
  simp [look, path, Attr.urls, bare]
  intro h
  have := congrArg Prod.fst (congrFun h (1, 0))
  simp [dilation, M.apply] at this

/-- **C51, violated.** A rule with the same transform as the attribute does not stop the job, and afterwards still applies: the
path is transformed twice. -/
theorem twice_violated : ∃ (sheet : Sheet Unit Unit) (as as' : List (Attr Unit Unit)),
    element bareEnv ⟨none, false⟩ (.ok sheet) as = .ok as' ∧ sheet = { bare with transform := some ([.matrix (dilation 2)], .static) } ∧
    (look cssMove 0 false sheet as).picture round id ≠ (look cssMove 0 false sheet as').picture round id := by
  refine ⟨{ bare with transform := some ([.matrix (dilation 2)], .static) }, path 2 [], _,
    element_path _ _ ?_ _ rfl rfl rfl (path 2 []) rfl, rfl, ?_⟩
  · simp [contradicts, readCss, fromCss, T.toCss]
  intro h
  have := congrArg (fun p => p.outline.map fun y => y.2 1) h
  simp [Look.picture, look, path, removeTransform, setData, bare, List.findSome?_cons, Attr.ops?, Attr.origin?, Attr.transform?, moved, around,
    image, curves_line, segment_line, cssMove, C.move, dilation, M.apply] at this

/-- **C51, violated.** A rule that applies under a condition does not stop the job: while it applies, the path is transformed
twice. -/
theorem dynamic_violated : ∃ (sheet : Sheet Unit Unit) (as as' : List (Attr Unit Unit)),
    element bareEnv ⟨none, false⟩ (.ok sheet) as = .ok as' ∧ sheet = { bare with transform := some ([.matrix (dilation 3)], .dynamic) } ∧
    (look cssMove 0 true sheet as).picture round id ≠ (look cssMove 0 true sheet as').picture round id := by
  refine ⟨{ bare with transform := some ([.matrix (dilation 3)], .dynamic) }, path 2 [], _,
    element_path _ _ ?_ _ rfl rfl rfl (path 2 []) rfl, rfl, ?_⟩
  · simp [contradicts, readCss, fromCss]
  intro h
  have := congrArg (fun p => p.outline.map fun y => y.2 1) h
  simp [Look.picture, look, path, removeTransform, setData, bare, List.findSome?_cons, Attr.ops?, Attr.origin?, Attr.transform?, moved, around,
    image, curves_line, segment_line, cssMove, C.move, dilation, M.apply] at this

/-- **C51, violated.** `transform-origin` is not noticed. -/
theorem origin_violated : ∃ as as' : List (Attr Unit Unit),
    element bareEnv ⟨none, false⟩ (.ok bare) as = .ok as' ∧ .origin (5, 0) ∈ as ∧
    (look cssMove 0 false bare as).picture round id ≠ (look cssMove 0 false bare as').picture round id := by
  refine ⟨path 2 [.origin (5, 0)], _,
    element_path _ _ (contradicts_bare _ rfl 2) _ rfl rfl rfl (path 2 [.origin (5, 0)]) rfl, by simp [path], ?_⟩
  intro h
  have := congrArg (fun p => p.outline.map fun y => y.2 1) h
  simp [Look.picture, look, path, removeTransform, setData, bare, List.findSome?_cons, Attr.ops?, Attr.origin?, Attr.transform?, moved, around,
    image, curves_line, segment_line, moveAttr, draw, T.move, dilation, M.apply] at this
  norm_num at this

/-! ## The option and failures -/

/-- **C51, violated.** The option to apply transforms to paths with a stroke does the opposite: set, no such path is changed. -/
theorem option_violated {U O : Type} (env : Env (C U O)) (cfg : Config) (h : cfg.stroked = true) (sheet : Sheet U O)
    (as as' : List (Attr U O)) (p : Paint) (hp : p ≠ .nothing) (hs : as.findSome? Attr.stroke? = some (.is p))
    (hr : sheet.stroke.rule = none) (he : element env cfg (.ok sheet) as = .ok as') : as' = as := by
  rcases element_cases he with rfl | ⟨ops, t, l, m, out, bs, _, _, _, _, _, _, hbs, _, rfl⟩
  · rfl
  · exfalso
    unfold stroked at hbs
    rw [strokeOf_eq, hs] at hbs
    simp only [computed, hr, Option.none_or, Option.map_some, Option.some_or, applyStroked, h, if_true] at hbs
    cases p <;> simp at hp hbs

/-- **C51, violated.** A rule with a percentage in a transform makes the job panic. -/
theorem panic_violated : element bareEnv ⟨none, false⟩
    (.ok { bare with transform := some ([.scale (.percentage (1 / 2)) (.percentage (1 / 2))], .static) }) (path 2 []) = .error "panic" := by
  have e0 : (path 2 []).any Attr.stops = false := by simp [path, Attr.stops, Attr.ids, Attr.urls]
  have e3 : data (path 2 []) = some (line 10) := rfl
  have e4 : transformOf (path 2 []) = some (.is [.matrix (dilation 2)]) := rfl
  simp [element, e0, e3, e4, contradicts, readCss, fromCss]

/-! ## Examples -/

/-- A stroked line with dashes is scaled as a whole. -/
example : element bareEnv ⟨none, false⟩ (.ok bare)
    (path 2 [.stroke (.is (.plain "red")), .width (.is ⟨3, 0⟩), .dashes (.is [⟨1, 0⟩, ⟨2, 0⟩])]) =
    .ok [.d (line 20), .stroke (.is (.plain "red")), .width (.is ⟨6, 0⟩), .dashes (.is [⟨2, 0⟩, ⟨4, 0⟩])] := by
  rw [element_path _ _ (contradicts_bare _ rfl 2) _ rfl rfl rfl _ (stroked_path (by norm_num) (by norm_num) _ _ rfl (by simp [vectorEffectOf])),
    removeTransform_path]
  simp [setWidth, scaleOffset, scaleDashes, newWidth, computed, widthOf, bare, Len.mul]
  norm_num

/-- The conditions of `apply_picture_partial` hold for it. -/
example : Own bare (path 2 [.stroke (.is (.plain "red")), .width (.is ⟨3, 0⟩), .dashes (.is [⟨1, 0⟩, ⟨2, 0⟩])]) ∧
    OwnStroke bare (path 2 [.stroke (.is (.plain "red")), .width (.is ⟨3, 0⟩), .dashes (.is [⟨1, 0⟩, ⟨2, 0⟩])]) := by
  constructor
  · refine ⟨by simp [path, List.filter_cons, Attr.isTransform, Attr.transform?], rfl, ⟨rfl, rfl⟩, rfl, ?_⟩
    simp [path, Attr.urls]
  · refine ⟨rfl, ?_, ⟨rfl, ?_⟩, rfl, Or.inr ⟨⟨_, rfl⟩, rfl, rfl, Or.inl ⟨rfl, by simp [bare]⟩⟩⟩
    · simp [NoInherit, bare, path, List.findSome?_cons, Attr.stroke?]
    · simp [NoInherit, bare, path, List.findSome?_cons, Attr.width?]

/-- A path with an id is left alone. -/
example : element bareEnv ⟨none, false⟩ (.ok bare) (path 2 [.id]) = .ok (path 2 [.id]) := by
  have e0 : (path 2 [.id]).any Attr.stops = true := by simp [path, Attr.stops]
  have e3 : data (path 2 [.id]) = some (line 10) := rfl
  simp [element, e0, e3]

end

end Verif.Stroke
