import Verif.Apply.Axes
import Verif.Apply.Arcs

/-!
# C45: applying a transform to path data draws the transformed path
-/

namespace Verif.Apply

open Real Verif.Transform

theorem apply_sub (m : M) (p q : Pt) : m.apply p - m.apply q = relative m (p - q) := by
  unfold M.apply relative
  ext <;> simp <;> ring

theorem apply_add (m : M) (p q : Pt) : m.apply p + relative m q = m.apply (p + q) := by
  unfold M.apply relative
  ext <;> simp <;> ring

theorem apply_injective {m : M} (hm : det m ≠ 0) {p q : Pt} (h : m.apply p = m.apply q) : p = q := by
  unfold M.apply at h
  rw [Prod.mk.injEq] at h
  obtain ⟨h1, h2⟩ := h
  unfold det at hm
  ext
  · apply mul_left_cancel₀ hm; linear_combination m.d * h1 - m.c * h2
  · apply mul_left_cancel₀ hm; linear_combination m.a * h2 - m.b * h1

theorem apply_segment (m : M) (p q : Pt) (t : ℝ) : m.apply (segment p q t) = segment (m.apply p) (m.apply q) t := by
  unfold M.apply segment
  ext <;> simp <;> ring

/-- An arc whose ellipse is the image of the ellipse of an arc, and whose direction is that of the image, draws the image. -/
theorem arc_image_of_gram {m : M} (hm : det m ≠ 0) {p q : Pt} {a a' : Arc} {k : ℝ} (hkp : 0 < k)
    (hkr : k = 1 ∨ k = max 1 (reach a p q)) (hg : a'.gram = a.gram.push m k) (hl : a'.large = a.large)
    (hs : a'.sweep = if det m < 0 then !a.sweep else a.sweep) (γ : ℝ → Pt) (h : IsArc p a q γ) :
    IsArc (m.apply p) a' (m.apply q) (fun t => m.apply (γ t)) := by
  unfold IsArc at h ⊢
  by_cases hpq : p = q
  · rw [if_pos hpq] at h
    rw [if_pos (by rw [hpq])]
    intro t; dsimp only; rw [h]
  rw [if_neg hpq] at h
  rw [if_neg (fun e => hpq (apply_injective hm e))]
  by_cases hr : a.rx = 0 ∨ a.ry = 0
  · rw [if_pos hr] at h
    rw [if_pos]
    · intro t; dsimp only; rw [h, apply_segment]
    · have := gram_det hg
      have h0 : a.rx * a.ry = 0 := by rcases hr with h | h <;> rw [h] <;> simp
      rw [h0, mul_zero, zero_pow two_ne_zero, pow_eq_zero_iff two_ne_zero] at this
      exact mul_eq_zero.mp this
  rw [if_neg hr] at h
  rw [not_or] at hr
  obtain ⟨hx, hy, α, ε, he, hmap, hreach⟩ := ellipse_map hg hkp hm hr.1 hr.2
  rw [if_neg (by rw [not_or]; exact ⟨hx, hy⟩)]
  obtain ⟨c, θ, δ, h1, h2, h3, h4, h5, h6⟩ := h
  have hk : max 1 (reach a p q) / k = max 1 (reach a' (m.apply p) (m.apply q)) := by
    rw [hreach]
    rcases hkr with h | h
    · rw [h, div_one, div_one]
    · have h1 : reach a p q / k ≤ 1 := by rw [div_le_one hkp, h]; exact le_max_right _ _
      rw [max_eq_left h1, ← h, div_self hkp.ne']
  have hδ : δ ≠ 0 := by
    intro h0
    apply hpq
    rw [← h2, ← h3, h1, h1, h0]; simp
  refine ⟨m.apply c, ε * θ + α, ε * δ, ?_, ?_, ?_, ?_, ?_, ?_⟩
  · intro t
    dsimp only
    rw [h1, ← apply_add, hmap, hk]
    congr 2
    ring
  · dsimp only; rw [h2]
  · dsimp only; rw [h3]
  · rw [hs]
    rcases he with ⟨h, h'⟩ | ⟨h, h'⟩
    · rw [h, one_mul, if_neg (not_lt.mpr h'.le)]; exact h4
    · rw [h, neg_one_mul, if_pos h', Bool.not_eq_true', ← Bool.not_eq_true, ← h4, neg_pos, not_lt]
      exact ⟨fun h => h.le, fun h => lt_of_le_of_ne h hδ⟩
  · rcases he with ⟨h, _⟩ | ⟨h, _⟩ <;> rw [h] <;> simpa using h5
  · rw [hl]
    rcases he with ⟨h, _⟩ | ⟨h, _⟩ <;> rw [h] <;> simpa using h6

/-- **C45 (arcs).** If the matrix is invertible and changes the sign of `a` and `d` exactly if it reverses orientation, the
arc computed draws the image of the arc. -/
theorem arc_image {m : M} (hm : det m ≠ 0) (hf : ¬ (m.a < 0 ↔ m.d < 0) ↔ det m < 0) {p q : Pt} {a a' : Arc}
    (ha : transformArc m a (q - p) = some a') (γ : ℝ → Pt) (h : IsArc p a q γ) :
    IsArc (m.apply p) a' (m.apply q) (fun t => m.apply (γ t)) := by
  obtain ⟨hg, hl, hs⟩ := transformArc_gram m a a' _ ha
  refine arc_image_of_gram hm (enlarge_pos a.rx a.ry _ _ (q - p)) (enlarge_reach a p q) hg hl ?_ γ h
  rw [hs]
  change flips m ↔ det m < 0 at hf
  by_cases h1 : det m < 0
  · rw [if_pos h1, if_pos (hf.mpr h1)]
  · rw [if_neg h1, if_neg (fun h => h1 (hf.mp h))]

/-- The image of a control point. -/
def Control.map (m : M) : Control → Control
  | .other => .other
  | .cubic p => .cubic (m.apply p)
  | .quad p => .quad (m.apply p)

def Pen.map (m : M) (s : Pen) : Pen := ⟨m.apply s.start, m.apply s.cur, s.control.map m⟩

theorem apply_reflect (m : M) (p q : Pt) : m.apply (reflect p q) = reflect (m.apply p) (m.apply q) := by
  unfold M.apply reflect
  ext <;> simp <;> ring

theorem map_cubicStart (m : M) (p : Pt) (c : Control) : (c.map m).cubicStart (m.apply p) = m.apply (c.cubicStart p) := by
  cases c with
  | cubic q => simp only [Control.map, Control.cubicStart, apply_reflect]
  | _ => rfl

theorem map_quadStart (m : M) (p : Pt) (c : Control) : (c.map m).quadStart (m.apply p) = m.apply (c.quadStart p) := by
  cases c with
  | quad q => simp only [Control.map, Control.quadStart, apply_reflect]
  | _ => rfl

/-- A command is an arc. -/
def Op.isArc : Op → Bool
  | .arcTo _ _ => true
  | .arcBy _ _ => true
  | _ => false

/-- The image of a piece. -/
def Goes (m : M) (x y : Piece) : Prop :=
  x.kind = y.kind ∧ ∀ γ, x.Curve γ → y.Curve fun t => m.apply (γ t)

theorem goes_line (m : M) (p q : Pt) : Goes m (.line p q) (.line (m.apply p) (m.apply q)) :=
  ⟨rfl, fun γ h t => by dsimp only; rw [h t, apply_segment]⟩

theorem goes_cubic (m : M) (p p1 p2 q : Pt) :
    Goes m (.cubic p p1 p2 q) (.cubic (m.apply p) (m.apply p1) (m.apply p2) (m.apply q)) := by
  refine ⟨rfl, fun γ h t => ?_⟩
  dsimp only
  rw [h t]
  unfold M.apply
  ext <;> simp <;> ring

theorem goes_quad (m : M) (p p1 q : Pt) : Goes m (.quad p p1 q) (.quad (m.apply p) (m.apply p1) (m.apply q)) := by
  refine ⟨rfl, fun γ h t => ?_⟩
  dsimp only
  rw [h t]
  unfold M.apply
  ext <;> simp <;> ring

theorem track_draw (s : Pen) (op : Op) :
    track s.start s.cur (straighten s.cur op) = ((s.draw op).2.start, (s.draw op).2.cur) := by
  cases op <;> simp [straighten, track, Pen.draw, Prod.ext_iff]

theorem step_goes {m : M} {s : Pen} {op o : Op} (ha : op.isArc = true → det m ≠ 0 ∧ (¬ (m.a < 0 ↔ m.d < 0) ↔ det m < 0))
    (h : mapOp m s.cur (straighten s.cur op) = some o) :
    Goes m (s.draw op).1 ((s.map m).draw o).1 ∧ ((s.map m).draw o).2 = (s.draw op).2.map m := by
  have abs : ∀ p, absolute m p = m.apply p := fun _ => rfl
  cases op with
  | moveTo p => simp only [straighten, mapOp, Option.some.injEq] at h; subst h; exact ⟨⟨rfl, fun γ h t => by dsimp only; rw [h t]; rfl⟩, rfl⟩
  | moveBy p =>
    simp only [straighten, mapOp, Option.some.injEq] at h; subst h
    simp only [Pen.draw, Pen.map, apply_add]
    exact ⟨⟨rfl, fun γ h t => by dsimp only; rw [h t]⟩, rfl⟩
  | lineTo p => simp only [straighten, mapOp, Option.some.injEq] at h; subst h; exact ⟨goes_line _ _ _, rfl⟩
  | lineBy p =>
    simp only [straighten, mapOp, Option.some.injEq] at h; subst h
    simp only [Pen.draw, Pen.map, apply_add]
    exact ⟨goes_line _ _ _, rfl⟩
  | hTo x => simp only [straighten, mapOp, Option.some.injEq] at h; subst h; exact ⟨goes_line _ _ _, rfl⟩
  | vTo x => simp only [straighten, mapOp, Option.some.injEq] at h; subst h; exact ⟨goes_line _ _ _, rfl⟩
  | hBy x =>
    simp only [straighten, mapOp, Option.some.injEq] at h; subst h
    simp only [Pen.draw, Pen.map, apply_add]
    have : s.cur + (x, 0) = (s.cur.1 + x, s.cur.2) := by ext <;> simp
    rw [this]
    exact ⟨goes_line _ _ _, rfl⟩
  | vBy x =>
    simp only [straighten, mapOp, Option.some.injEq] at h; subst h
    simp only [Pen.draw, Pen.map, apply_add]
    have : s.cur + (0, x) = (s.cur.1, s.cur.2 + x) := by ext <;> simp
    rw [this]
    exact ⟨goes_line _ _ _, rfl⟩
  | cubicTo p1 p2 p => simp only [straighten, mapOp, Option.some.injEq] at h; subst h; exact ⟨goes_cubic _ _ _ _ _, rfl⟩
  | cubicBy p1 p2 p =>
    simp only [straighten, mapOp, Option.some.injEq] at h; subst h
    simp only [Pen.draw, Pen.map, apply_add]
    exact ⟨goes_cubic _ _ _ _ _, rfl⟩
  | smoothTo p2 p =>
    simp only [straighten, mapOp, Option.some.injEq] at h; subst h
    simp only [Pen.draw, Pen.map, map_cubicStart, abs]
    exact ⟨goes_cubic _ _ _ _ _, rfl⟩
  | smoothBy p2 p =>
    simp only [straighten, mapOp, Option.some.injEq] at h; subst h
    simp only [Pen.draw, Pen.map, map_cubicStart, apply_add]
    exact ⟨goes_cubic _ _ _ _ _, rfl⟩
  | quadTo p1 p => simp only [straighten, mapOp, Option.some.injEq] at h; subst h; exact ⟨goes_quad _ _ _ _, rfl⟩
  | quadBy p1 p =>
    simp only [straighten, mapOp, Option.some.injEq] at h; subst h
    simp only [Pen.draw, Pen.map, apply_add]
    exact ⟨goes_quad _ _ _ _, rfl⟩
  | tTo p =>
    simp only [straighten, mapOp, Option.some.injEq] at h; subst h
    simp only [Pen.draw, Pen.map, map_quadStart, abs]
    exact ⟨goes_quad _ _ _ _, rfl⟩
  | tBy p =>
    simp only [straighten, mapOp, Option.some.injEq] at h; subst h
    simp only [Pen.draw, Pen.map, map_quadStart, apply_add]
    exact ⟨goes_quad _ _ _ _, rfl⟩
  | arcTo a p =>
    simp only [straighten, mapOp, Option.map_eq_some_iff] at h
    obtain ⟨a', h1, rfl⟩ := h
    obtain ⟨hm, hf⟩ := ha rfl
    exact ⟨⟨rfl, fun γ h => arc_image hm hf h1 γ h⟩, rfl⟩
  | arcBy a p =>
    simp only [straighten, mapOp, Option.map_eq_some_iff] at h
    obtain ⟨a', h1, rfl⟩ := h
    obtain ⟨hm, hf⟩ := ha rfl
    simp only [Pen.draw, Pen.map, apply_add]
    exact ⟨⟨rfl, fun γ h => arc_image hm hf (by rw [add_sub_cancel_left]; exact h1) γ h⟩, rfl⟩
  | close =>
    simp only [straighten, mapOp, Option.some.injEq] at h; subst h
    exact ⟨⟨rfl, fun γ h t => by dsimp only; rw [h t, apply_segment]; rfl⟩, rfl⟩

theorem applyFrom_goes {m : M} (l : List Op) : ∀ (s : Pen) (out : List Op),
    (∀ op ∈ l, op.isArc = true → det m ≠ 0 ∧ (¬ (m.a < 0 ↔ m.d < 0) ↔ det m < 0)) → applyFrom m s.start s.cur l = some out →
    List.Forall₂ (Goes m) (s.pieces l) ((s.map m).pieces out) := by
  induction l with
  | nil => intro s out _ h; simp [applyFrom] at h; subst h; exact .nil
  | cons op l ih =>
    intro s out ha h
    rw [applyFrom] at h
    rw [track_draw] at h
    dsimp only at h
    split at h
    · next o rest ho hrest =>
      simp only [Option.some.injEq] at h
      subst h
      obtain ⟨h1, h2⟩ := step_goes (ha op (by simp)) ho
      have := ih (s.draw op).2 rest (fun x hx => ha x (by simp [hx])) hrest
      rw [Pen.pieces, Pen.pieces]
      refine .cons h1 ?_
      rw [h2]
      exact this
    · simp at h

theorem curves_map {m : M} {xs ys : List Piece} (h : List.Forall₂ (Goes m) xs ys) :
    ∀ (γs : List (Kind × (ℝ → Pt))), List.Forall₂ (fun x y => x.kind = y.1 ∧ x.Curve y.2) xs γs →
      List.Forall₂ (fun x y => x.kind = y.1 ∧ x.Curve y.2) ys (γs.map fun y => (y.1, fun t => m.apply (y.2 t))) := by
  induction h with
  | nil => intro γs h; cases h; exact .nil
  | cons h1 _ ih =>
    intro γs h
    cases h with
    | cons g1 g2 =>
      refine .cons ⟨h1.1 ▸ g1.1, h1.2 _ g1.2⟩ (ih _ g2)

theorem mapOp_move {m : M} {c : Pt} {op o : Op} (h : mapOp m c (straighten c op) = some o) : o.isMove = op.isMove := by
  cases op <;> simp only [straighten, mapOp, Option.some.injEq, Option.map_eq_some_iff] at h <;>
    first
    | (subst h; rfl)
    | (obtain ⟨a', _, rfl⟩ := h; rfl)

/-- **C45 (the path is moved as the transform says).** If path data results, it draws exactly the images of the curves
drawn before, in the same order and with the same subpaths, for every matrix if there are no arcs, and for paths with arcs
for every invertible matrix in which `a` and `d` have different signs exactly if it reverses orientation. Numbers
are real: what is missing is the rounding of `f64`.

For other matrices it is not so: `swap_violated`, `shear_violated`. When no path data results is shown by `apply_some`. -/
theorem apply_partial (m : M) (l out : List Op)
    (ha : ∀ op ∈ l, op.isArc = true → det m ≠ 0 ∧ (¬ (m.a < 0 ↔ m.d < 0) ↔ det m < 0)) (h : apply m l = some out)
    (γs : List (Kind × (ℝ → Pt))) (hd : Draws l γs) :
    Draws out (γs.map fun y => (y.1, fun t => m.apply (y.2 t))) := by
  unfold apply at h
  unfold Draws pieces at hd ⊢
  cases l with
  | nil => simp [anchor, applyFrom] at h; subst h; simp at hd ⊢; exact hd
  | cons op l =>
    by_cases hmv : op.isMove = true
    · obtain ⟨p, hp1, hp2⟩ : ∃ p, anchor (op :: l) = .moveTo p :: l ∧
          (Pen.mk 0 0 .other).draw op = (.move p, ⟨p, p, .other⟩) := by
        cases op <;> simp [Op.isMove] at hmv
        · next p => exact ⟨p, rfl, rfl⟩
        · next p => exact ⟨p, rfl, by simp [Pen.draw]⟩
      rw [hp1, applyFrom] at h
      split at h
      · next o rest ho hrest =>
        simp only [Option.some.injEq] at h
        subst h
        simp only [straighten, mapOp, Option.some.injEq] at ho
        subst ho
        simp only [List.head?_cons, Option.map_some, hmv, if_true] at hd
        have hhead : Option.map Op.isMove (Op.moveTo (absolute m p) :: rest).head? = some true := rfl
        rw [if_pos hhead]
        rw [Pen.pieces, hp2] at hd
        have := applyFrom_goes l ⟨p, p, .other⟩ rest (fun x hx => ha x (by simp [hx])) hrest
        refine curves_map (xs := .move p :: (Pen.mk p p .other).pieces l) ?_ γs hd
        exact .cons ⟨rfl, fun γ h t => by dsimp only; rw [h t]; rfl⟩ this
      · simp at h
    · have han : anchor (op :: l) = op :: l := by
        cases op <;> first | rfl | simp [Op.isMove] at hmv
      rw [han, applyFrom] at h
      split at h
      · next o rest ho hrest =>
        simp only [Option.some.injEq] at h
        subst h
        simp only [List.head?_cons, Option.map_some, hmv] at hd
        simp only [Option.some.injEq, Bool.false_eq_true, if_false] at hd
        cases hd
        simp only [List.head?_cons, Option.map_some, mapOp_move ho, hmv]
        exact .nil
      · simp at h

end Verif.Apply
