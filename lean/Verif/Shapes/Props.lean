import Verif.Shapes.Model
import Verif.Apply.Limits
import Verif.Transform.Round
import Mathlib.Algebra.Order.ToIntervalMod

/-!
# C46: paths that replace shapes draw the same
-/

namespace Verif.Shapes

open Real Verif.Transform Verif.Apply

noncomputable section

/-! ## What shapes draw (SVG 2, chapter 10) -/

/-- Straight lines from point to point. -/
def joined : Pt → List Pt → List (Kind × (ℝ → Pt))
  | _, [] => []
  | p, q :: l => (.drawn, segment p q) :: joined q l

/-- The outline through points. -/
def openOutline : List Pt → List (Kind × (ℝ → Pt))
  | [] => []
  | p :: l => (.move, fun _ => p) :: joined p l

/-- The outline through points and back. -/
def closedOutline : List Pt → List (Kind × (ℝ → Pt))
  | [] => []
  | p :: l => (.move, fun _ => p) :: joined p l ++ [(.close, segment ((p :: l).getLast (by simp)) p)]

/-- The points of an ellipse. -/
def Round (cx cy rx ry : ℝ) (q : Pt) : Prop := ((q.1 - cx) / rx) ^ 2 + ((q.2 - cy) / ry) ^ 2 = 1

/-- By how much rounding may change a number: half a unit of the last decimal. -/
def unit (p : ℤ) : ℝ := 1 / 2 * (10 : ℝ) ^ (-p)

def NearPt (p : ℤ) (q r : Pt) : Prop := |q.1 - r.1| ≤ unit p ∧ |q.2 - r.2| ≤ unit p

/-! ## Rounding -/

theorem roundTo_near (p : ℤ) (x : ℝ) : |roundTo p x - x| ≤ unit p := by
  have h := roundAway_near (x * (10 : ℝ) ^ p)
  have hp : (0 : ℝ) < (10 : ℝ) ^ p := zpow_pos (by norm_num) p
  unfold roundTo unit
  have e : roundAway (x * (10 : ℝ) ^ p) / (10 : ℝ) ^ p - x = (roundAway (x * (10 : ℝ) ^ p) - x * (10 : ℝ) ^ p) / (10 : ℝ) ^ p := by
    field_simp
  rw [e, abs_div, abs_of_pos hp, zpow_neg, div_eq_mul_inv]
  exact mul_le_mul_of_nonneg_right h (inv_nonneg.mpr hp.le)

theorem roundPt_near (p : ℤ) (q : Pt) : NearPt p (roundPt p q) q := ⟨roundTo_near p q.1, roundTo_near p q.2⟩

theorem roundTo_zero (p : ℤ) : roundTo p 0 = 0 := by
  unfold roundTo
  rw [zero_mul]
  have := roundAway_int 0
  simp only [Int.cast_zero] at this
  rw [this, zero_div]

/-! ## Drawing -/

theorem pieces_lines (l : List Pt) : ∀ (s : Pen) (tail : List Op) (γs : List (Kind × (ℝ → Pt))),
    List.Forall₂ (fun x y => x.kind = y.1 ∧ x.Curve y.2)
      ((Pen.mk s.start ((s.cur :: l).getLast (by simp)) (if l = [] then s.control else .other)).pieces tail) γs →
    List.Forall₂ (fun x y => x.kind = y.1 ∧ x.Curve y.2) (s.pieces (l.map Op.lineTo ++ tail)) (joined s.cur l ++ γs) := by
  induction l with
  | nil => intro s tail γs h; simpa [joined] using h
  | cons q l ih =>
    intro s tail γs h
    rw [List.map_cons, List.cons_append, Pen.pieces, joined, List.cons_append]
    refine .cons ⟨rfl, fun _ => rfl⟩ (ih ⟨s.start, q, .other⟩ tail γs ?_)
    simp only [List.getLast_cons_cons, reduceCtorEq, if_false] at h
    simp only [ite_self]
    exact h

theorem draws_open (p : Pt) (l : List Pt) : Draws (.moveTo p :: l.map Op.lineTo) (openOutline (p :: l)) := by
  unfold Draws pieces
  rw [if_pos (by rfl), Pen.pieces, openOutline]
  refine .cons ⟨rfl, fun _ => rfl⟩ ?_
  have := pieces_lines l ⟨p, p, .other⟩ [] [] .nil
  rw [List.append_nil, List.append_nil] at this
  exact this

theorem draws_closed (p : Pt) (l : List Pt) :
    Draws (.moveTo p :: l.map Op.lineTo ++ [.close]) (closedOutline (p :: l)) := by
  unfold Draws pieces
  rw [List.cons_append, if_pos (by rfl), Pen.pieces, closedOutline]
  refine .cons ⟨rfl, fun _ => rfl⟩ ?_
  exact pieces_lines l ⟨p, p, .other⟩ [.close] [(.close, segment ((p :: l).getLast (by simp)) p)]
    (.cons ⟨rfl, fun _ => rfl⟩ .nil)

theorem orZero_of {o : Option Len} {x : ℝ} (h : o = some (some x) ∨ o = none ∧ x = 0) : orZero o = some x := by
  rcases h with rfl | ⟨rfl, rfl⟩ <;> rfl

/-- **C46 (rectangles).** A rectangle with square corners, a width and a height is replaced by a path that draws a rectangle,
each side off by at most half a unit of the last decimal. What is missing: a width or height of 0 or less draws nothing,
but the path does (`flat_violated`). -/
theorem rect_partial (p : ℤ) (r : Rect) {x y w h : ℝ} (hx : r.x = some (some x) ∨ r.x = none ∧ x = 0) (hy : r.y = some (some y) ∨ r.y = none ∧ y = 0)
    (hw : r.width = some (some w)) (hh : r.height = some (some h)) (h1 : r.rx = none) (h2 : r.ry = none) :
    ∃ x0 y0 x1 y1 d, |x0 - x| ≤ unit p ∧ |y0 - y| ≤ unit p ∧ |x1 - (x + w)| ≤ unit p ∧ |y1 - (y + h)| ≤ unit p ∧
      rectToPath p r = .path d ∧ Draws d (closedOutline [(x0, y0), (x1, y0), (x1, y1), (x0, y1)]) := by
  refine ⟨_, _, _, _, ([.moveTo (x, y), .hTo (x + w), .vTo (y + h), .hTo x, .close] : List Op).map (roundOp p), roundTo_near p x, roundTo_near p y, roundTo_near p (x + w), roundTo_near p (y + h), ?_, ?_⟩
  · simp only [rectToPath, h1, h2, orZero_of hx, orZero_of hy, hw, hh, Option.isSome_none, Bool.false_eq_true, or_self, if_false, Option.join_some]
  · simp only [List.map_cons, List.map_nil, roundOp, roundPt, Draws, pieces]
    rw [if_pos (by rfl)]
    simp only [Pen.pieces, Pen.draw, closedOutline, joined, List.cons_append, List.nil_append]
    exact .cons ⟨rfl, fun _ => rfl⟩ (.cons ⟨rfl, fun _ => rfl⟩ (.cons ⟨rfl, fun _ => rfl⟩ (.cons ⟨rfl, fun _ => rfl⟩
      (.cons ⟨rfl, fun _ => rfl⟩ .nil))))

/-- **C46 (which rectangles are replaced).** -/
theorem rect_kept_iff (p : ℤ) (r : Rect) : rectToPath p r = .keep ↔
    r.rx ≠ none ∨ r.ry ≠ none ∨ r.x = some none ∨ r.y = some none ∨ (∀ w, r.width ≠ some (some w)) ∨
      ∀ h, r.height ≠ some (some h) := by
  obtain ⟨x, y, w, h, rx, ry⟩ := r
  rcases x with _ | _ | x <;> rcases y with _ | _ | y <;> rcases w with _ | _ | w <;> rcases h with _ | _ | h <;>
    rcases rx with _ | rx <;> rcases ry with _ | ry <;> simp [rectToPath, orZero]

/-- **C46 (lines).** -/
theorem line_spec (p : ℤ) (l : Line) {x1 y1 x2 y2 : ℝ} (h1 : l.x1 = some (some x1) ∨ l.x1 = none ∧ x1 = 0) (h2 : l.y1 = some (some y1) ∨ l.y1 = none ∧ y1 = 0)
    (h3 : l.x2 = some (some x2) ∨ l.x2 = none ∧ x2 = 0) (h4 : l.y2 = some (some y2) ∨ l.y2 = none ∧ y2 = 0) :
    ∃ a b d, NearPt p a (x1, y1) ∧ NearPt p b (x2, y2) ∧ lineToPath p l = .path d ∧ Draws d (openOutline [a, b]) := by
  refine ⟨_, _, _, roundPt_near p _, roundPt_near p _, ?_, draws_open _ [_]⟩
  simp only [lineToPath, orZero_of h1, orZero_of h2, orZero_of h3, orZero_of h4, List.map_cons, List.map_nil, roundOp]

/-- **C46 (which lines are replaced).** -/
theorem line_kept_iff (p : ℤ) (l : Line) : lineToPath p l = .keep ↔
    l.x1 = some none ∨ l.y1 = some none ∨ l.x2 = some none ∨ l.y2 = some none := by
  obtain ⟨x1, y1, x2, y2⟩ := l
  rcases x1 with _ | _ | x <;> rcases y1 with _ | _ | y <;> rcases x2 with _ | _ | w <;> rcases y2 with _ | _ | h <;>
    simp [lineToPath, orZero]

/-- **C46 (polylines and polygons).** From two points on, the path draws the lines through all points, each off by at most
half a unit of the last decimal, and a polygon is closed. With fewer points the element is removed. -/
theorem poly_spec (p : ℤ) (q : Pt) (l : List Pt) (hl : l ≠ []) (closed : Bool) :
    ∃ (q' : Pt) (l' : List Pt) (d : List Op), NearPt p q' q ∧ List.Forall₂ (NearPt p) l' l ∧
      polyToPath p closed (some (.moveTo q :: l.map Op.lineTo)) = .path d ∧
      Draws d (if closed then closedOutline (q' :: l') else openOutline (q' :: l')) := by
  have hm : (l.map Op.lineTo).map (roundOp p) = (l.map (roundPt p)).map Op.lineTo := by
    rw [List.map_map, List.map_map]; rfl
  refine ⟨roundPt p q, l.map (roundPt p), ((Op.moveTo q :: l.map Op.lineTo) ++ if closed then [Op.close] else []).map (roundOp p),
    roundPt_near p q, ?_, ?_, ?_⟩
  · clear hl hm
    induction l with
    | nil => exact .nil
    | cons a l ih => exact .cons (roundPt_near p a) ih
  · rw [polyToPath, if_neg]
    cases l with
    | nil => exact absurd rfl hl
    | cons a l => simp
  · cases closed
    · simp only [Bool.false_eq_true, if_false, List.append_nil, List.map_cons, hm, roundOp]
      exact draws_open _ _
    · simp only [if_true, List.map_append, List.map_cons, List.map_nil, hm, roundOp]
      exact draws_closed _ _

theorem poly_removed_iff (p : ℤ) (closed : Bool) (d : Option (List Op)) :
    polyToPath p closed d = .removed ↔ ∀ l, d = some l → l.length ≤ 1 := by
  cases d with
  | none => simp [polyToPath]
  | some l => by_cases h : l.length ≤ 1 <;> simp [polyToPath, h]

/-! ## Circles and ellipses -/

/-- The way around an ellipse: from the top, over the left, the bottom and the right, one unit of time for each half. -/
def around (cx cy rx ry t : ℝ) : Pt := (cx + rx * cos (-(π / 2) - t * π), cy + ry * sin (-(π / 2) - t * π))

theorem around_round {cx cy rx ry : ℝ} (hx : rx ≠ 0) (hy : ry ≠ 0) (t : ℝ) : Round cx cy rx ry (around cx cy rx ry t) := by
  unfold Round around
  simp only [add_sub_cancel_left]
  rw [mul_div_cancel_left₀ _ hx, mul_div_cancel_left₀ _ hy]
  exact cos_sq_add_sin_sq _

/-- Every point of an ellipse is met exactly once on the way around. -/
theorem around_once {cx cy rx ry : ℝ} (hx : rx ≠ 0) (hy : ry ≠ 0) (q : Pt) (hq : Round cx cy rx ry q) :
    ∃! t, (0 ≤ t ∧ t < 2) ∧ around cx cy rx ry t = q := by
  have hpi := pi_pos
  obtain ⟨α, h1, h2⟩ := angle_exists hq
  have key : ∀ t, around cx cy rx ry t = q ↔ cos (-(π / 2) - t * π) = cos α ∧ sin (-(π / 2) - t * π) = sin α := by
    intro t
    unfold around
    rw [h1, h2, Prod.ext_iff]
    simp only
    constructor
    · rintro ⟨e1, e2⟩
      rw [← e1, ← e2]
      constructor <;> field_simp <;> ring
    · rintro ⟨e1, e2⟩
      rw [e1, e2]
      constructor <;> field_simp <;> ring
  have ang : ∀ x, (cos x = cos α ∧ sin x = sin α) ↔ ∃ n : ℤ, x - α = n * (2 * π) := by
    intro x
    constructor
    · rintro ⟨e1, e2⟩
      have : cos (x - α) = 1 := by rw [cos_sub, e1, e2]; have := cos_sq_add_sin_sq α; nlinarith
      obtain ⟨n, hn⟩ := (cos_eq_one_iff _).mp this
      exact ⟨n, hn.symm⟩
    · rintro ⟨n, hn⟩
      have : x = α + n * (2 * π) := by linarith
      rw [this]
      exact ⟨cos_add_int_mul_two_pi α n, sin_add_int_mul_two_pi α n⟩
  have two : (0 : ℝ) < 2 := two_pos
  refine ⟨toIcoMod two 0 ((-(π / 2) - α) / π), ⟨?_, ?_⟩, ?_⟩
  · have := toIcoMod_mem_Ico two 0 ((-(π / 2) - α) / π)
    rw [zero_add] at this
    exact this
  · rw [key, ang]
    refine ⟨toIcoDiv two 0 ((-(π / 2) - α) / π), ?_⟩
    have := self_sub_toIcoMod two 0 ((-(π / 2) - α) / π)
    rw [zsmul_eq_mul] at this
    have e : (toIcoMod two 0 ((-(π / 2) - α) / π)) = (-(π / 2) - α) / π - toIcoDiv two 0 ((-(π / 2) - α) / π) * 2 := by linarith
    rw [e]
    field_simp
    ring
  · rintro t ⟨ht, e⟩
    rw [key, ang] at e
    obtain ⟨n, hn⟩ := e
    symm
    rw [toIcoMod_eq_iff two]
    refine ⟨by rw [zero_add]; exact ht, n, ?_⟩
    rw [zsmul_eq_mul]
    field_simp
    linarith

/-- A half of the way is an arc. -/
theorem half_arc {cx cy rx ry : ℝ} (hx : 0 < rx) (hy : 0 < ry) (large : Bool) (u : ℝ) (e : ℝ) (he : e = 1 ∨ e = -1)
    (hs : sin (-(π / 2) - u * π) = -e) (hc : cos (-(π / 2) - u * π) = 0) :
    IsArc (cx, cy - e * ry) ⟨rx, ry, 0, large, false⟩ (cx, cy + e * ry) fun t => around cx cy rx ry (u + t) := by
  have hpi := pi_pos
  have he2 : e ^ 2 = 1 := by rcases he with rfl | rfl <;> norm_num
  have he0 : e ≠ 0 := by rcases he with rfl | rfl <;> norm_num
  unfold IsArc
  rw [if_neg, if_neg]
  · have hr : max 1 (reach ⟨rx, ry, 0, large, false⟩ (cx, cy - e * ry) (cx, cy + e * ry)) = 1 := by
      unfold reach
      simp only [zero_mul, zero_div, cos_zero, sin_zero, sub_self, neg_zero]
      rw [show (((1 : ℝ) * 0 + 0) / |rx|) ^ 2 + ((0 + 1 * ((cy - e * ry - (cy + e * ry)) / 2)) / |ry|) ^ 2 = 1 by
        rw [abs_of_pos hy, show (0 + 1 * ((cy - e * ry - (cy + e * ry)) / 2)) / ry = -e by field_simp; ring]
        simp only [mul_zero, add_zero, zero_div]
        linear_combination he2]
      simp
    rw [hr]
    refine ⟨(cx, cy), -(π / 2) - u * π, -π, ?_, ?_, ?_, ?_, ?_, ?_⟩
    · intro t
      unfold around onEllipse
      simp only [zero_mul, zero_div, cos_zero, sin_zero, abs_of_pos hx, abs_of_pos hy]
      rw [show -(π / 2) - (u + t) * π = -(π / 2) - u * π + t * -π by ring]
      ext <;> simp
    · dsimp only
      unfold around
      rw [add_zero, hs, hc]
      ext <;> simp; ring
    · dsimp only
      unfold around
      rw [show -(π / 2) - (u + 1) * π = -(π / 2) - u * π - π by ring, sin_sub_pi, cos_sub_pi, hs, hc]
      ext <;> simp; ring
    · simp [hpi.le]
    · rw [abs_neg, abs_of_pos hpi]; linarith
    · rw [abs_neg, abs_of_pos hpi]; split <;> exact le_refl _
  · simp only [not_or]; exact ⟨hx.ne', hy.ne'⟩
  · intro h
    have := (Prod.ext_iff.mp h).2
    simp only at this
    have : e * ry = 0 := by linarith
    rcases mul_eq_zero.mp this with h | h
    · exact he0 h
    · exact hy.ne' h

/-- The path for an ellipse draws the way around. -/
theorem draws_round {cx cy rx ry : ℝ} (hx : 0 < rx) (hy : 0 < ry) (large : Bool) :
    Draws [.moveTo (cx, cy - ry), .arcTo ⟨rx, ry, 0, large, false⟩ (cx, cy + ry),
      .arcTo ⟨rx, ry, 0, large, false⟩ (cx, cy - ry), .close]
      [(.move, fun _ => around cx cy rx ry 0), (.drawn, fun t => around cx cy rx ry t),
        (.drawn, fun t => around cx cy rx ry (1 + t)), (.close, fun _ => around cx cy rx ry 0)] := by
  have h0 : around cx cy rx ry 0 = (cx, cy - ry) := by
    unfold around
    rw [zero_mul, sub_zero, sin_neg, cos_neg, sin_pi_div_two, cos_pi_div_two]
    ext
    · simp
    · simp only [mul_neg, mul_one]; ring
  simp only [Draws, pieces]
  rw [if_pos (by rfl)]
  simp only [Pen.pieces, Pen.draw]
  refine .cons ⟨rfl, fun _ => h0⟩ (.cons ⟨rfl, ?_⟩ (.cons ⟨rfl, ?_⟩ (.cons ⟨rfl, fun t => ?_⟩ .nil)))
  · have := half_arc (cx := cx) (cy := cy) hx hy large 0 1 (.inl rfl)
      (by rw [zero_mul, sub_zero, sin_neg, sin_pi_div_two]) (by rw [zero_mul, sub_zero, cos_neg, cos_pi_div_two])
    simp only [one_mul, zero_add] at this
    exact this
  · have := half_arc (cx := cx) (cy := cy) hx hy large 1 (-1) (.inr rfl)
      (by rw [one_mul, sin_sub_pi, sin_neg, sin_pi_div_two])
      (by rw [one_mul, cos_sub_pi, cos_neg, cos_pi_div_two]; norm_num)
    simp only [neg_mul, one_mul, sub_neg_eq_add, ← sub_eq_add_neg] at this
    exact this
  · dsimp only
    rw [h0]
    unfold segment
    ext
    · simp only [Prod.fst_add, Prod.smul_fst, smul_eq_mul]; ring
    · simp only [Prod.snd_add, Prod.smul_snd, smul_eq_mul]; ring

/-- A number with `p` decimals. -/
def Decimals (p : ℤ) (x : ℝ) : Prop := ∃ n : ℤ, x * (10 : ℝ) ^ p = n

theorem roundTo_decimals {p : ℤ} {x : ℝ} (h : Decimals p x) : roundTo p x = x := by
  obtain ⟨n, hn⟩ := h
  have hp : (0 : ℝ) < (10 : ℝ) ^ p := zpow_pos (by norm_num) p
  rw [roundTo, hn, roundAway_int, ← hn]
  field_simp

theorem Decimals.add {p : ℤ} {x y : ℝ} (h : Decimals p x) (h' : Decimals p y) : Decimals p (x + y) := by
  obtain ⟨n, hn⟩ := h
  obtain ⟨m, hm⟩ := h'
  exact ⟨n + m, by push_cast; rw [← hn, ← hm]; ring⟩

theorem Decimals.sub {p : ℤ} {x y : ℝ} (h : Decimals p x) (h' : Decimals p y) : Decimals p (x - y) := by
  obtain ⟨n, hn⟩ := h
  obtain ⟨m, hm⟩ := h'
  exact ⟨n - m, by push_cast; rw [← hn, ← hm]; ring⟩

/-- **C46 (ellipses).** An ellipse with positive radii whose numbers have no more decimals than are kept is replaced by a path
that runs through every point of the ellipse exactly once and through no other. What is missing: other numbers
(`rounding_violated`), radii that are 0, negative, `auto` or absent (`negative_violated`, `auto_violated`), and where the
way around starts, which matters for dashes (`start_violated`). -/
theorem ellipse_partial (p : ℤ) (e : Ellipse) {cx cy rx ry : ℝ} (h1 : e.cx = some (some cx) ∨ e.cx = none ∧ cx = 0)
    (h2 : e.cy = some (some cy) ∨ e.cy = none ∧ cy = 0)
    (h3 : e.rx = some (.len (some rx))) (h4 : e.ry = some (.len (some ry))) (hx : 0 < rx) (hy : 0 < ry)
    (p1 : Decimals p cx) (p2 : Decimals p cy) (p3 : Decimals p rx) (p4 : Decimals p ry) :
    ∃ (d : List Op) (γ : ℝ → Pt), ellipseToPath p e = .path d ∧
      Draws d [(.move, fun _ => γ 0), (.drawn, fun t => γ t), (.drawn, fun t => γ (1 + t)), (.close, fun _ => γ 0)] ∧
      (∀ t, Round cx cy rx ry (γ t)) ∧ ∀ q, Round cx cy rx ry q → ∃! t, (0 ≤ t ∧ t < 2) ∧ γ t = q := by
  refine ⟨_, around cx cy rx ry, ?_, draws_round hx hy (roundFlag p true), around_round hx.ne' hy.ne', around_once hx.ne' hy.ne'⟩
  have e1 : orZero e.cx = some cx := orZero_of h1
  have e2 : orZero e.cy = some cy := orZero_of h2
  have e3 : orZero (e.rx.map Rad.px) = some rx := by rw [h3]; rfl
  have e4 : orZero (e.ry.map Rad.px) = some ry := by rw [h4]; rfl
  rw [ellipseToPath, e1, e2, e3, e4]
  simp only [List.map_cons, List.map_nil, roundAll, roundOp, roundPt, roundArc, roundTo_decimals p1,
    roundTo_decimals (p2.add p4), roundTo_decimals (p2.sub p4), roundTo_decimals p3, roundTo_decimals p4, roundTo_zero]
  rfl

/-- **C46 (circles).** The same for circles. -/
theorem circle_partial (p : ℤ) (c : Circle) {cx cy r : ℝ} (h1 : c.cx = some (some cx) ∨ c.cx = none ∧ cx = 0)
    (h2 : c.cy = some (some cy) ∨ c.cy = none ∧ cy = 0)
    (h3 : c.r = some (some r)) (hr : 0 < r) (p1 : Decimals p cx) (p2 : Decimals p cy) (p3 : Decimals p r) :
    ∃ (d : List Op) (γ : ℝ → Pt), circleToPath p c = .path d ∧
      Draws d [(.move, fun _ => γ 0), (.drawn, fun t => γ t), (.drawn, fun t => γ (1 + t)), (.close, fun _ => γ 0)] ∧
      (∀ t, Round cx cy r r (γ t)) ∧ ∀ q, Round cx cy r r q → ∃! t, (0 ≤ t ∧ t < 2) ∧ γ t = q := by
  refine ⟨_, around cx cy r r, ?_, draws_round hr hr (roundFlag p true), around_round hr.ne' hr.ne', around_once hr.ne' hr.ne'⟩
  have e1 : orZero c.cx = some cx := orZero_of h1
  have e2 : orZero c.cy = some cy := orZero_of h2
  have e3 : orZero c.r = some r := by rw [h3]; rfl
  rw [circleToPath, e1, e2, e3]
  simp only [List.map_cons, List.map_nil, roundAll, roundOp, roundPt, roundArc, roundTo_decimals p1,
    roundTo_decimals (p2.add p3), roundTo_decimals (p2.sub p3), roundTo_decimals p3, roundTo_zero]
  rfl

/-! ## Which elements are replaced -/

/-- **C46 (stylesheets).** After a replacement no selector of a stylesheet names the element as it was or `path`, so that
type selectors match as before. What is missing: `ellipse` (`ellipse_names_violated`). -/
theorem names_partial (p : ℤ) (arcs : Bool) (selectors : List (List Component)) (s : Shape) (d : List Op)
    (h : convert p arcs selectors s = .path d) (hs : s.name ≠ .ellipse) :
    ∀ sel ∈ selectors, ∀ n, .localName n ∈ sel → n ≠ s.name ∧ n ≠ .path := by
  have no : ∀ n, referenced selectors n = false → ∀ sel ∈ selectors, Component.localName n ∉ sel := by
    intro n hn sel hsel hc
    rw [referenced, List.any_eq_false] at hn
    exact hn sel hsel (List.any_eq_true.mpr ⟨_, hc, by simp⟩)
  unfold convert at h
  by_cases hp : referenced selectors .path = true
  · rw [if_pos hp] at h; cases h
  rw [if_neg hp] at h
  have hp' := no .path (by simpa using hp)
  intro sel hsel n hn
  refine ⟨?_, fun e => hp' sel hsel (e ▸ hn)⟩
  intro e
  subst e
  have key : referenced selectors s.name = false → False := fun h => no _ h sel hsel hn
  cases s with
  | ellipse e => exact hs rfl
  | circle c =>
    dsimp only at h
    by_cases hr : referenced selectors .circle = true
    · rw [hr, Bool.not_true, Bool.and_false] at h; simp at h
    · exact key (by simpa [Shape.name] using hr)
  | rect _ | line _ | polyline _ | polygon _ =>
    dsimp only at h
    split at h
    · cases h
    · rename_i hr
      exact key (by simpa [Shape.name] using hr)

/-- **C46 (arcs are optional).** Unless asked for, circles and ellipses stay. -/
theorem arcs_kept (p : ℤ) (selectors : List (List Component)) (s : Shape) (h : s.name = .circle ∨ s.name = .ellipse) :
    convert p false selectors s = .keep := by
  cases s <;> simp [Shape.name] at h <;> simp [convert]

/-- No selector names one of these elements. -/
def Unnamed (selectors : List (List Component)) (names : List Name) : Prop :=
  ∀ sel ∈ selectors, ∀ n ∈ names, .localName n ∉ sel

theorem Unnamed.not {selectors : List (List Component)} {names : List Name} (h : Unnamed selectors names) {n : Name}
    (hn : n ∈ names) : referenced selectors n = false := by
  rw [referenced, List.any_eq_false]
  intro sel hsel hc
  obtain ⟨c, hc, e⟩ := List.any_eq_true.mp hc
  rw [beq_iff_eq] at e
  subst e
  exact h sel hsel n hn hc

/-- A length of so many pixels. -/
def IsPx (o : Option Len) (x : ℝ) : Prop := o = some (some x) ∨ o = none ∧ x = 0

/-- SVG 2, 10.2 and 10.5 to 10.7: the corners of a shape with straight sides and whether it is closed. -/
inductive Shape.Corners : Shape → List Pt → Bool → Prop
  | rect {r : Rect} {x y w h : ℝ} : IsPx r.x x → IsPx r.y y → r.width = some (some w) → r.height = some (some h) → 0 < w → 0 < h →
      r.rx = none → r.ry = none → Corners (.rect r) [(x, y), (x + w, y), (x + w, y + h), (x, y + h)] true
  | line {l : Line} {x1 y1 x2 y2 : ℝ} : IsPx l.x1 x1 → IsPx l.y1 y1 → IsPx l.x2 x2 → IsPx l.y2 y2 →
      Corners (.line l) [(x1, y1), (x2, y2)] false
  | polyline {q : Pt} {l : List Pt} : l ≠ [] → Corners (.polyline (some (.moveTo q :: l.map Op.lineTo))) (q :: l) false
  | polygon {q : Pt} {l : List Pt} : l ≠ [] → Corners (.polygon (some (.moveTo q :: l.map Op.lineTo))) (q :: l) true

/-- **C46 (shapes with straight sides).** Unless a stylesheet names them, rectangles, lines, polylines and polygons are replaced
by paths that draw lines through their corners, each off by at most half a unit of the last decimal, and that are closed for
rectangles and polygons. What is missing: rectangles of width or height 0 or less (`flat_violated`) and children
(`children_violated`). -/
theorem straight_partial (p : ℤ) (arcs : Bool) (selectors : List (List Component)) (s : Shape) (l : List Pt) (closed : Bool)
    (hs : s.Corners l closed) (hu : Unnamed selectors [s.name, .path]) :
    ∃ (l' : List Pt) (d : List Op), List.Forall₂ (NearPt p) l' l ∧ convert p arcs selectors s = .path d ∧
      Draws d (if closed then closedOutline l' else openOutline l') := by
  have u1 := hu.not (n := s.name) (by simp)
  have u2 := hu.not (n := .path) (by simp)
  cases hs with
  | @rect r x y w h hx hy hw hh _ _ h1 h2 =>
    obtain ⟨x0, y0, x1, y1, d, a1, a2, a3, a4, e, hd⟩ := rect_partial p r hx hy hw hh h1 h2
    refine ⟨_, d, .cons ⟨a1, a2⟩ (.cons ⟨a3, a2⟩ (.cons ⟨a3, a4⟩ (.cons ⟨a1, a4⟩ .nil))), ?_, hd⟩
    simp only [Shape.name] at u1
    simp only [convert, u1, u2, e, Bool.false_eq_true, if_false]
  | @line l x1 y1 x2 y2 h1 h2 h3 h4 =>
    obtain ⟨a, b, d, a1, a2, e, hd⟩ := line_spec p l h1 h2 h3 h4
    refine ⟨_, d, .cons a1 (.cons a2 .nil), ?_, hd⟩
    simp only [Shape.name] at u1
    simp only [convert, u1, u2, e, Bool.false_eq_true, if_false]
  | @polyline q l hl =>
    obtain ⟨q', l', d, a1, a2, e, hd⟩ := poly_spec p q l hl false
    refine ⟨_, d, .cons a1 a2, ?_, hd⟩
    simp only [Shape.name] at u1
    simp only [convert, u1, u2, e, Bool.false_eq_true, if_false]
  | @polygon q l hl =>
    obtain ⟨q', l', d, a1, a2, e, hd⟩ := poly_spec p q l hl true
    refine ⟨_, d, .cons a1 a2, ?_, hd⟩
    simp only [Shape.name] at u1
    simp only [convert, u1, u2, e, Bool.false_eq_true, if_false]

/-- SVG 2, 10.3 and 10.4: the centre and the radii of a circle or an ellipse. -/
inductive Shape.Radii : Shape → ℝ → ℝ → ℝ → ℝ → Prop
  | circle {c : Circle} {cx cy r : ℝ} : IsPx c.cx cx → IsPx c.cy cy → c.r = some (some r) → Radii (.circle c) cx cy r r
  | ellipse {e : Ellipse} {cx cy rx ry : ℝ} : IsPx e.cx cx → IsPx e.cy cy → e.rx = some (.len (some rx)) →
      e.ry = some (.len (some ry)) → Radii (.ellipse e) cx cy rx ry

/-- **C46 (round shapes).** If asked for and unless a stylesheet names them, circles and ellipses with positive radii whose numbers
have no more decimals than are kept are replaced by paths that run through each of their points exactly once and through no other. -/
theorem round_partial (p : ℤ) (selectors : List (List Component)) (s : Shape) {cx cy rx ry : ℝ} (hs : s.Radii cx cy rx ry)
    (hx : 0 < rx) (hy : 0 < ry) (p1 : Decimals p cx) (p2 : Decimals p cy) (p3 : Decimals p rx) (p4 : Decimals p ry)
    (hu : Unnamed selectors [.circle, .path]) :
    ∃ (d : List Op) (γ : ℝ → Pt), convert p true selectors s = .path d ∧
      Draws d [(.move, fun _ => γ 0), (.drawn, fun t => γ t), (.drawn, fun t => γ (1 + t)), (.close, fun _ => γ 0)] ∧
      (∀ t, Round cx cy rx ry (γ t)) ∧ ∀ q, Round cx cy rx ry q → ∃! t, (0 ≤ t ∧ t < 2) ∧ γ t = q := by
  have u1 := hu.not (n := .circle) (by simp)
  have u2 := hu.not (n := .path) (by simp)
  cases hs with
  | circle h1 h2 h3 =>
    obtain ⟨d, γ, e, h⟩ := circle_partial p _ h1 h2 h3 hx p1 p2 p3
    refine ⟨d, γ, ?_, h⟩
    simp only [convert, u1, u2, e, Bool.false_eq_true, if_false, Bool.not_false, Bool.and_self, if_true]
  | ellipse h1 h2 h3 h4 =>
    obtain ⟨d, γ, e, h⟩ := ellipse_partial p _ h1 h2 h3 h4 hx hy p1 p2 p3 p4
    refine ⟨d, γ, ?_, h⟩
    simp only [convert, u1, u2, e, Bool.false_eq_true, if_false, Bool.not_false, Bool.and_self, if_true]

/-- **C46 (removed shapes).** Only polylines and polygons are removed, and only those with fewer than two points. -/
theorem removed_spec (p : ℤ) (arcs : Bool) (selectors : List (List Component)) (s : Shape)
    (h : convert p arcs selectors s = .removed) :
    ∃ d, (s = .polyline d ∨ s = .polygon d) ∧ ∀ l, d = some l → l.length ≤ 1 := by
  unfold convert at h
  split at h
  · cases h
  cases s with
  | rect r =>
    simp only at h
    split at h
    · cases h
    · rw [rectToPath] at h; split at h
      · cases h
      · split at h <;> cases h
  | line l =>
    simp only at h
    split at h
    · cases h
    · rw [lineToPath] at h; split at h <;> cases h
  | polyline d =>
    simp only at h
    split at h
    · cases h
    · exact ⟨d, .inl rfl, (poly_removed_iff p false d).mp h⟩
  | polygon d =>
    simp only at h
    split at h
    · cases h
    · exact ⟨d, .inr rfl, (poly_removed_iff p true d).mp h⟩
  | circle c =>
    simp only at h
    split at h
    · rw [circleToPath] at h; split at h <;> cases h
    · cases h
  | ellipse c =>
    simp only at h
    split at h
    · rw [ellipseToPath] at h; split at h <;> cases h
    · cases h

/-! ## Ellipses to circles -/

/-- What a length means in a viewport, where a font size is given; `base` is what percentages refer to. -/
def Written.value (em base : ℝ) : Written → ℝ
  | .px x => x
  | .percent x => x / 100 * base
  | .em x => x * em

/-- SVG 2, 9.4.3: the radii of an ellipse. Percentages of `rx` refer to the width and those of `ry` to the height of the viewport;
a radius that is `auto` or absent is like the other; if both are, they are 0. -/
def usedRadii (em width height : ℝ) : Option WrittenRad → Option WrittenRad → ℝ × ℝ
  | some (.len a), some (.len b) => (a.value em width, b.value em height)
  | some (.len a), _ => (a.value em width, a.value em width)
  | _, some (.len b) => (b.value em height, b.value em height)
  | _, _ => (0, 0)

/-- The radius of a circle: percentages refer to the normalised diagonal of the viewport. -/
def usedRadius (em width height : ℝ) (r : Written) : ℝ := r.value em (√(width ^ 2 + height ^ 2) / √2)

/-- **C46 (ellipses to circles).** An ellipse is replaced by a circle with the same radii in every viewport, if no radius is a
percentage. -/
theorem ellipse_circle_partial (rx ry : Option WrittenRad) (r : Written) (h : ellipseToCircle rx ry = some r)
    (hx : ∀ x, rx ≠ some (.len (.percent x))) (hy : ∀ x, ry ≠ some (.len (.percent x))) (em width height : ℝ) :
    usedRadii em width height rx ry = (usedRadius em width height r, usedRadius em width height r) := by
  have val : ∀ (a : Written) b b', (∀ x, a ≠ .percent x) → a.value em b = a.value em b' := by
    intro a b b' ha
    cases a with
    | px x => rfl
    | percent x => exact absurd rfl (ha x)
    | em x => rfl
  unfold usedRadius
  rcases rx with _ | ⟨a | _⟩ <;> rcases ry with _ | ⟨b | _⟩ <;> simp only [ellipseToCircle, Option.some.injEq] at h <;>
    simp only [usedRadii]
  all_goals first
    | (subst h; rfl)
    | skip
  all_goals first
    | (subst h; rw [val a _ _ fun x e => hx x (by rw [e])])
    | (subst h; rw [val b _ _ fun x e => hy x (by rw [e])])
    | skip
  split at h
  · rename_i hab
    simp only [Option.some.injEq] at h
    subst h
    subst hab
    rw [val a width _ fun x e => hx x (by rw [e]), val a height _ fun x e => hx x (by rw [e])]
  · cases h

/-- **C46 (which ellipses become circles).** Those with the same two radii and those where one is absent or `auto`. -/
theorem ellipse_kept_iff (rx ry : Option WrittenRad) :
    ellipseToCircle rx ry = none ↔ ∃ a b, rx = some (.len a) ∧ ry = some (.len b) ∧ a ≠ b := by
  rcases rx with _ | ⟨a | _⟩ <;> rcases ry with _ | ⟨b | _⟩ <;> simp [ellipseToCircle]

end

end Verif.Shapes
