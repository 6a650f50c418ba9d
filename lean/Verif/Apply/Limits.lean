import Verif.Apply.Props

/-!
# Where applying a transform goes wrong
-/

namespace Verif.Apply

open Real Verif.Transform

/-- The difference of the squares of the semi-axes of an ellipse. -/
noncomputable def Gram.gap (g : Gram) : ℝ := √((g.xx - g.yy) ^ 2 + 4 * g.xy ^ 2)

theorem gap_arc (a : Arc) : a.gram.gap = |a.rx ^ 2 - a.ry ^ 2| := by
  rw [← sqrt_sq_eq_abs, Gram.gap, Arc.gram, gram]
  have p1 := cos_sq_add_sin_sq (a.rot * π / 180)
  generalize cos (a.rot * π / 180) = c at *
  generalize sin (a.rot * π / 180) = s at *
  congr 1
  linear_combination (a.rx ^ 2 - a.ry ^ 2) ^ 2 * (c ^ 2 + s ^ 2 + 1) * p1

theorem gap_push (m : M) (k : ℝ) (g : Gram) : (g.push m k).gap = k ^ 2 * (g.push m 1).gap := by
  have h : 0 ≤ k ^ 2 := sq_nonneg k
  unfold Gram.gap
  rw [← sqrt_sq h, ← sqrt_mul (sq_nonneg _)]
  simp only [Gram.push]
  congr 1
  ring

theorem gap_lin (n : Lin) : n.gram.gap = n.root := by
  rw [← sqrt_sq (root_nonneg n), root_sq, Gram.gap, Lin.gram, Lin.squareSum, Lin.lastCol, Lin.det]
  congr 1
  ring

/-- The Gram matrix of the map whose axes are computed. -/
theorem lin_gram (m : M) (a : Arc) (p : Pt) : (multiply m (ellipse a p)).gram =
    a.gram.push m (enlarge a.rx a.ry (cos (a.rot * π / 180)) (sin (a.rot * π / 180)) p) := by
  simp only [Lin.gram, multiply, ellipse, Gram.push, Arc.gram, gram]
  congr 1 <;> ring

theorem lin_det (m : M) (a : Arc) (p : Pt) : (multiply m (ellipse a p)).det =
    det m * (a.rx * a.ry) * enlarge a.rx a.ry (cos (a.rot * π / 180)) (sin (a.rot * π / 180)) p ^ 2 := by
  have p1 := cos_sq_add_sin_sq (a.rot * π / 180)
  simp only [Lin.det, multiply, ellipse, det]
  generalize enlarge a.rx a.ry (cos (a.rot * π / 180)) (sin (a.rot * π / 180)) p = k at *
  generalize cos (a.rot * π / 180) = c at *
  generalize sin (a.rot * π / 180) = s at *
  linear_combination (m.a * m.d - m.b * m.c) * (a.rx * a.ry) * k ^ 2 * p1

theorem enlarge_one_le (a b c s : ℝ) (p : Pt) : 1 ≤ enlarge a b c s p := by
  unfold enlarge
  split
  · dsimp only
    split
    · next h => exact one_le_sqrt.mpr h.le
    · exact le_refl _
  · exact le_refl _

/-- **C45 (when an arc is found).** An arc with radii that are not 0 under an invertible matrix has an image if the image is
a circle or the squares of its semi-axes differ by more than a millionth. -/
theorem transformArc_some {m : M} (hm : det m ≠ 0) {a : Arc} (hx : a.rx ≠ 0) (hy : a.ry ≠ 0)
    (hg : (a.gram.push m 1).gap = 0 ∨ 1 / 1000000 < (a.gram.push m 1).gap) (p : Pt) :
    ∃ a', transformArc m a p = some a' := by
  have hk := enlarge_one_le a.rx a.ry (cos (a.rot * π / 180)) (sin (a.rot * π / 180)) p
  have hroot := gap_lin (multiply m (ellipse a p))
  have hdet := lin_det m a p
  rw [lin_gram, gap_push] at hroot
  rw [transformArc]
  generalize enlarge a.rx a.ry (cos (a.rot * π / 180)) (sin (a.rot * π / 180)) p = k at *
  generalize multiply m (ellipse a p) = n at *
  have hn : n.det ≠ 0 := by
    rw [hdet]
    exact mul_ne_zero (mul_ne_zero hm (mul_ne_zero hx hy)) (pow_ne_zero 2 (by linarith))
  suffices h : ∃ x, axes n = some x by
    obtain ⟨x, hx⟩ := h
    rw [hx]; exact ⟨_, rfl⟩
  unfold axes
  by_cases h0 : n.root = 0
  · rw [if_pos h0]; exact ⟨_, rfl⟩
  rw [if_neg h0]
  have hbig : 1 / 1000000 < n.root := by
    rcases hg with h | h
    · rw [h, mul_zero] at hroot; exact absurd hroot.symm h0
    · rw [← hroot]
      have hk2 : 1 ≤ k ^ 2 := one_le_pow₀ hk
      nlinarith
  have hsub : n.sub ≠ 0 := by
    unfold Lin.sub
    intro h
    split at h
    · next hmaj => unfold Lin.major at hmaj; rw [h, abs_zero] at hmaj; norm_num at hmaj
    · next hmaj =>
      unfold Lin.major at hmaj
      apply hmaj
      have : n.majorSquare - n.lastCol = n.root := by
        unfold Lin.majorSquare Lin.minorSquare at *; linarith
      rw [this, abs_of_nonneg (root_nonneg n)]
      exact hbig
  unfold Lin.angle
  rw [if_neg]
  · exact ⟨_, rfl⟩
  · intro h
    have h2 := hypot_sq n.term1 n.term2
    rw [h, zero_pow two_ne_zero] at h2
    have e1 : n.term1 = 0 := by nlinarith [sq_nonneg n.term1, sq_nonneg n.term2]
    have e2 : n.term2 = 0 := by nlinarith [sq_nonneg n.term1, sq_nonneg n.term2]
    apply mul_ne_zero hn hsub
    unfold Lin.term1 at e1
    unfold Lin.term2 at e2
    unfold Lin.det
    linear_combination n.s * e1 - n.r * e2

/-- The arc of a command. -/
def Op.arc? : Op → Option Arc
  | .arcTo a _ => some a
  | .arcBy a _ => some a
  | _ => none

/-- **C45 (when path data results).** Path data results for every matrix if there are no arcs; with arcs, if the matrix is
invertible, no radius is 0 and no image of an arc is nearly but not quite a circle. -/
theorem apply_some (m : M) (l : List Op)
    (h : ∀ op ∈ l, ∀ a, op.arc? = some a → det m ≠ 0 ∧ a.rx ≠ 0 ∧ a.ry ≠ 0 ∧
      ((a.gram.push m 1).gap = 0 ∨ 1 / 1000000 < (a.gram.push m 1).gap)) : ∃ out, apply m l = some out := by
  have key : ∀ (l : List Op), (∀ op ∈ l, ∀ a, op.arc? = some a → det m ≠ 0 ∧ a.rx ≠ 0 ∧ a.ry ≠ 0 ∧
      ((a.gram.push m 1).gap = 0 ∨ 1 / 1000000 < (a.gram.push m 1).gap)) →
      ∀ s c, ∃ out, applyFrom m s c l = some out := by
    intro l
    induction l with
    | nil => intro _ s c; exact ⟨[], rfl⟩
    | cons op l ih =>
      intro h s c
      obtain ⟨rest, hrest⟩ := ih (fun op ho => h op (by simp [ho])) (track s c (straighten c op)).1
        (track s c (straighten c op)).2
      obtain ⟨o, ho⟩ : ∃ o, mapOp m c (straighten c op) = some o := by
        have := h op (by simp)
        cases op <;> first | exact ⟨_, rfl⟩ | skip
        · next a p =>
          obtain ⟨h1, h2, h3, h4⟩ := this a rfl
          obtain ⟨a', ha'⟩ := transformArc_some h1 h2 h3 h4 (p - c)
          exact ⟨.arcTo a' (absolute m p), by simp only [straighten, mapOp, ha', Option.map_some]⟩
        · next a p =>
          obtain ⟨h1, h2, h3, h4⟩ := this a rfl
          obtain ⟨a', ha'⟩ := transformArc_some h1 h2 h3 h4 p
          exact ⟨.arcBy a' (relative m p), by simp only [straighten, mapOp, ha', Option.map_some]⟩
      rw [applyFrom]
      rw [ho, hrest]
      exact ⟨_, rfl⟩
  refine key (anchor l) ?_ 0 0
  intro op hop a ha
  cases l with
  | nil => simp [anchor] at hop
  | cons x l =>
    by_cases hx : ∃ p, x = .moveBy p
    · obtain ⟨p, rfl⟩ := hx
      simp only [anchor, List.mem_cons] at hop
      rcases hop with rfl | hop
      · simp [Op.arc?] at ha
      · exact h op (by simp [hop]) a ha
    · have : anchor (x :: l) = x :: l := by
        cases x <;> first | rfl | exact absurd ⟨_, rfl⟩ hx
      rw [this] at hop
      exact h op hop a ha

/-- Every path draws something. -/
theorem draws_exists (l : List Op) : ∃ γs, Draws l γs := by
  unfold Draws
  generalize pieces l = ps
  induction ps with
  | nil => exact ⟨[], .nil⟩
  | cons x ps ih =>
    obtain ⟨γs, h⟩ := ih
    have : ∃ γ, x.Curve γ := by
      cases x with
      | arc p a q => exact arc_exists p a q
      | _ => exact ⟨_, fun _ => rfl⟩
    obtain ⟨γ, hγ⟩ := this
    exact ⟨(x.kind, γ) :: γs, .cons ⟨rfl, hγ⟩ h⟩

/-- No path draws two different things. -/
theorem draws_unique (l : List Op) (γs δs : List (Kind × (ℝ → Pt))) (h : Draws l γs) (h' : Draws l δs) : γs = δs := by
  unfold Draws at h h'
  generalize pieces l = ps at h h'
  induction h generalizing δs with
  | nil => cases h'; rfl
  | cons g1 g2 ih =>
    cases h' with
    | cons k1 k2 =>
      next x y xs ys y' ys' =>
      rw [ih _ k2]
      congr 1
      refine Prod.ext (g1.1.symm.trans k1.1) ?_
      have a := g1.2
      have b := k1.2
      cases x with
      | arc p a' q => exact arc_unique p a' q _ _ a b
      | _ => funext t; rw [a t, b t]

/-- **C45 (the picture of the path).** Under the conditions of both theorems: path data results, and where the path before
draws a list of curves, the path after draws their images. -/
theorem apply_draws_partial (m : M) (l : List Op)
    (h : ∀ op ∈ l, ∀ a, op.arc? = some a → det m ≠ 0 ∧ (¬ (m.a < 0 ↔ m.d < 0) ↔ det m < 0) ∧ a.rx ≠ 0 ∧ a.ry ≠ 0 ∧
      ((a.gram.push m 1).gap = 0 ∨ 1 / 1000000 < (a.gram.push m 1).gap)) :
    ∃ out γs, apply m l = some out ∧ Draws l γs ∧ Draws out (γs.map fun y => (y.1, fun t => m.apply (y.2 t))) := by
  obtain ⟨out, ho⟩ := apply_some m l fun op hop a ha =>
    ⟨(h op hop a ha).1, (h op hop a ha).2.2.1, (h op hop a ha).2.2.2.1, (h op hop a ha).2.2.2.2⟩
  obtain ⟨γs, hγ⟩ := draws_exists l
  refine ⟨out, γs, ho, hγ, apply_partial m l out (fun op hop ha => ?_) ho γs hγ⟩
  obtain ⟨a, ha'⟩ : ∃ a, op.arc? = some a := by
    cases op <;> simp [Op.isArc] at ha <;> exact ⟨_, rfl⟩
  exact ⟨(h op hop a ha').1, (h op hop a ha').2.1⟩

/-- The same arc the other way round. -/
def Arc.other (a : Arc) : Arc := { a with sweep := !a.sweep }

/-- No curve is the curve of an arc and of the arc the other way round. -/
theorem arc_other {p q : Pt} (hpq : p ≠ q) {a : Arc} (hx : a.rx ≠ 0) (hy : a.ry ≠ 0) {γ : ℝ → Pt} (h : IsArc p a q γ)
    (h' : IsArc p a.other q γ) : False := by
  unfold IsArc at h h'
  rw [if_neg hpq, if_neg (by rw [not_or]; exact ⟨hx, hy⟩)] at h
  rw [if_neg hpq, if_neg (by rw [not_or]; exact ⟨hx, hy⟩)] at h'
  have hk : 0 < max 1 (reach a p q) := lt_of_lt_of_le one_pos (le_max_left _ _)
  have hoth : max 1 (reach a.other p q) = max 1 (reach a p q) := rfl
  rw [hoth] at h'
  generalize max 1 (reach a p q) = k at *
  obtain ⟨c, θ, δ, h1, h2, h3, h4, h5, h6⟩ := h
  obtain ⟨c', θ', δ', h1', h2', h3', h4', h5', h6'⟩ := h'
  have hpi := pi_pos
  have hell : ∀ x, onEllipse a.other k x = onEllipse a k x := fun _ => rfl
  have d0 : δ ≠ 0 := by
    intro h; subst h; apply hpq; rw [← h2, ← h3, h1, h1]; simp
  have d0' : δ' ≠ 0 := by
    intro h; subst h; apply hpq; rw [← h2', ← h3', h1', h1']; simp
  -- the chords agree at every time
  have hch : ∀ t, sin (t * δ / 2) * -sin (θ + t * δ / 2) = sin (t * δ' / 2) * -sin (θ' + t * δ' / 2) ∧
      sin (t * δ / 2) * cos (θ + t * δ / 2) = sin (t * δ' / 2) * cos (θ' + t * δ' / 2) := by
    intro t
    have e : stretch a k ((cos (θ + t * δ), sin (θ + t * δ)) - (cos θ, sin θ)) =
        stretch a k ((cos (θ' + t * δ'), sin (θ' + t * δ')) - (cos θ', sin θ')) := by
      rw [← stretch_sub, ← stretch_sub, ← onEllipse_eq, ← onEllipse_eq, ← onEllipse_eq, ← onEllipse_eq]
      have e1 : onEllipse a k (θ + t * δ) = γ t - c := by rw [h1]; simp
      have e2 : onEllipse a k θ = γ 0 - c := by rw [h1]; simp
      have e3 : onEllipse a k (θ' + t * δ') = γ t - c' := by rw [h1', hell]; simp
      have e4 : onEllipse a k θ' = γ 0 - c' := by rw [h1', hell]; simp
      rw [e1, e2, e3, e4]; simp
    have e := stretch_injective a hx hy k hk.ne' _ _ e
    rw [chord, chord, Prod.mk.injEq] at e
    constructor <;> linarith [e.1, e.2]
  have q1 := abs_pos.mpr d0
  have q2 := abs_pos.mpr d0'
  have s1 : 0 < sin (|δ| / 2) := sin_pos_of_pos_of_lt_pi (by linarith) (by linarith)
  have s2 : 0 < sin (|δ'| / 2) := sin_pos_of_pos_of_lt_pi (by linarith) (by linarith)
  have habs : ∀ x : ℝ, sin (x / 2) ^ 2 = sin (|x| / 2) ^ 2 := by
    intro x
    rcases abs_cases x with ⟨h, _⟩ | ⟨h, _⟩
    · rw [h]
    · rw [h, neg_div, sin_neg, neg_sq]
  have ss : sin (|δ| / 2) = sin (|δ'| / 2) := by
    obtain ⟨e1, e2⟩ := hch 1
    rw [one_mul, one_mul] at e1 e2
    have t1 := cos_sq_add_sin_sq (θ + δ / 2)
    have t2 := cos_sq_add_sin_sq (θ' + δ' / 2)
    have m1 := congrArg (· ^ 2) e1
    have m2 := congrArg (· ^ 2) e2
    have sqs : sin (δ / 2) ^ 2 = sin (δ' / 2) ^ 2 := by
      linear_combination (m1 + m2) - sin (δ / 2) ^ 2 * t1 + sin (δ' / 2) ^ 2 * t2
    rw [habs δ, habs δ'] at sqs
    exact (pow_left_inj₀ s1.le s2.le two_ne_zero).mp sqs
  have abs_eq : |δ| = |δ'| := by
    have hlo : a.other.large = a.large := rfl
    rw [hlo] at h6'
    by_cases hl : a.large = true
    · rw [if_pos hl] at h6 h6'
      rw [← sin_pi_sub, ← sin_pi_sub (|δ'| / 2)] at ss
      have := injOn_sin (show π - |δ| / 2 ∈ Set.Icc (-(π / 2)) (π / 2) by constructor <;> linarith)
        (show π - |δ'| / 2 ∈ Set.Icc (-(π / 2)) (π / 2) by constructor <;> linarith) ss
      linarith
    · rw [if_neg hl] at h6 h6'
      have := injOn_sin (show |δ| / 2 ∈ Set.Icc (-(π / 2)) (π / 2) by constructor <;> linarith)
        (show |δ'| / 2 ∈ Set.Icc (-(π / 2)) (π / 2) by constructor <;> linarith) ss
      linarith
  have hδ : δ' = -δ := by
    have hso : a.other.sweep = !a.sweep := rfl
    rw [hso] at h4'
    rcases abs_eq_abs.mp abs_eq with h | h
    · exfalso
      rw [← h] at h4'
      rw [h4] at h4'
      cases a.sweep <;> simp at h4'
    · linarith
  subst hδ
  -- compare at two times
  have g1 := hch (π / δ)
  have g2 := hch (π / 2 / δ)
  have r1 : π / δ * δ / 2 = π / 2 := by field_simp
  have r2 : π / δ * -δ / 2 = -(π / 2) := by field_simp
  have r3 : π / 2 / δ * δ / 2 = π / 4 := by field_simp; norm_num
  have r4 : π / 2 / δ * -δ / 2 = -(π / 4) := by field_simp; norm_num
  rw [r1, r2, sin_neg, sin_pi_div_two, sin_add_pi_div_two, cos_add_pi_div_two, ← sub_eq_add_neg, sin_sub_pi_div_two,
    cos_sub_pi_div_two] at g1
  rw [r3, r4, sin_neg, sin_pi_div_four, sin_add, cos_add, sin_add, cos_add, cos_neg, sin_neg, sin_pi_div_four,
    cos_pi_div_four] at g2
  have hq : √2 ^ 2 = 2 := sq_sqrt (by norm_num)
  have t := cos_sq_add_sin_sq θ
  obtain ⟨a1, a2⟩ := g1
  obtain ⟨b1, b2⟩ := g2
  have c1 : cos θ' = cos θ := by linarith
  have c2 : sin θ' = sin θ := by linarith
  rw [c1, c2] at b1 b2
  have z1 : sin θ = 0 := by
    have : √2 ^ 2 * sin θ = 0 := by linear_combination -2 * b1
    rw [hq] at this; linarith
  have z2 : cos θ = 0 := by
    have : √2 ^ 2 * cos θ = 0 := by linear_combination 2 * b2
    rw [hq] at this; linarith
  rw [z1, z2] at t
  norm_num at t

/-- **C45 (when an arc is drawn the right way round).** For an invertible matrix and an arc that is not a straight line,
the arc computed draws the image of the arc if and only if `a` and `d` have different signs exactly if the matrix reverses
orientation. -/
theorem arc_image_iff {m : M} (hm : det m ≠ 0) {p q : Pt} (hpq : p ≠ q) {a a' : Arc} (hx : a.rx ≠ 0) (hy : a.ry ≠ 0)
    (ha : transformArc m a (q - p) = some a') (γ : ℝ → Pt) (h : IsArc p a q γ) :
    IsArc (m.apply p) a' (m.apply q) (fun t => m.apply (γ t)) ↔ (¬ (m.a < 0 ↔ m.d < 0) ↔ det m < 0) := by
  refine ⟨fun hi => ?_, fun hf => arc_image hm hf ha γ h⟩
  by_contra hcon
  obtain ⟨hg, hl, hs⟩ := transformArc_gram m a a' _ ha
  have hkp := enlarge_pos a.rx a.ry (cos (a.rot * π / 180)) (sin (a.rot * π / 180)) (q - p)
  obtain ⟨hx', hy', _⟩ := ellipse_map hg hkp hm hx hy
  refine arc_other (fun e => hpq (apply_injective hm e)) hx' hy' hi ?_
  change ¬ (flips m ↔ det m < 0) at hcon
  have key : (flips m ↔ ¬ det m < 0) := by
    by_cases h1 : flips m <;> by_cases h2 : det m < 0 <;> simp [h1, h2] at hcon ⊢
  -- the image of the arc, from the theorem for a matrix with the same sign rule
  exact arc_image_of_gram hm hkp (enlarge_reach a p q) (a' := a'.other) hg hl (by
    show (!a'.sweep) = _
    rw [hs]
    by_cases h1 : flips m
    · rw [if_pos h1, if_neg (key.mp h1), Bool.not_not]
    · rw [if_neg h1, if_pos (by by_contra h2; exact h1 (key.mpr h2))]) γ h

theorem apply_two {m : M} {p q : Pt} {a a' : Arc} (h : transformArc m a (q - p) = some a') :
    apply m [.moveTo p, .arcTo a q] = some [.moveTo (absolute m p), .arcTo a' (absolute m q)] := by
  simp only [apply, anchor, applyFrom, straighten, mapOp, track, h, Option.map_some]

/-- **C45 violated (arcs the wrong way round).** A path with an arc, an invertible matrix whose `a` and `d` do not tell
whether it reverses orientation: the path data written draws something else than the image. -/
theorem direction_violated {m : M} (hm : det m ≠ 0) (hf : ¬ (¬ (m.a < 0 ↔ m.d < 0) ↔ det m < 0)) {p q : Pt} (hpq : p ≠ q) {a : Arc}
    (hx : a.rx ≠ 0) (hy : a.ry ≠ 0)
    (hg : (a.gram.push m 1).gap = 0 ∨ 1 / 1000000 < (a.gram.push m 1).gap) :
    ∃ out, apply m [.moveTo p, .arcTo a q] = some out ∧ ∀ γs, Draws [.moveTo p, .arcTo a q] γs →
      ¬ Draws out (γs.map fun y => (y.1, fun t => m.apply (y.2 t))) := by
  obtain ⟨a', ha'⟩ := transformArc_some hm hx hy hg (q - p)
  refine ⟨_, apply_two ha', fun γs h h' => hf ?_⟩
  cases h with
  | cons h1 h =>
    cases h with
    | cons h2 h =>
      cases h
      cases h' with
      | cons k1 k =>
        cases k with
        | cons k2 k => exact (arc_image_iff hm hpq hx hy ha' _ h2.2).mp k2.2

/-- **C45 violated (swapping the axes).** `matrix(0 1 1 0 0 0)` reflects, but arcs keep their direction. -/
theorem swap_violated : ∃ out, apply ⟨0, 1, 1, 0, 0, 0⟩ [.moveTo (0, 0), .arcTo ⟨1, 1, 0, false, true⟩ (2, 0)] = some out ∧
    ∀ γs, Draws [.moveTo (0, 0), .arcTo ⟨1, 1, 0, false, true⟩ (2, 0)] γs →
      ¬ Draws out (γs.map fun y => (y.1, fun t => M.apply ⟨0, 1, 1, 0, 0, 0⟩ (y.2 t))) := by
  refine direction_violated (by norm_num [det]) (by norm_num [det]) (by simp) (by norm_num) (by norm_num) (.inl ?_)
  simp [Gram.gap, Gram.push, Arc.gram, gram]

/-- **C45 violated (shears).** `matrix(-1 2 -1 1 0 0)` keeps orientation, but arcs change their direction. -/
theorem shear_violated : ∃ out, apply ⟨-1, 2, -1, 1, 0, 0⟩ [.moveTo (0, 0), .arcTo ⟨1, 1, 0, false, true⟩ (2, 0)] = some out ∧
    ∀ γs, Draws [.moveTo (0, 0), .arcTo ⟨1, 1, 0, false, true⟩ (2, 0)] γs →
      ¬ Draws out (γs.map fun y => (y.1, fun t => M.apply ⟨-1, 2, -1, 1, 0, 0⟩ (y.2 t))) := by
  refine direction_violated (by norm_num [det]) (by norm_num [det]) (by simp) (by norm_num) (by norm_num) (.inr ?_)
  simp only [Gram.gap, Gram.push, Arc.gram, gram]
  rw [zero_mul, zero_div, cos_zero, sin_zero]
  apply lt_sqrt_of_sq_lt
  norm_num

/-- **C45 violated (flat arcs).** An arc with first radius 0 is a straight line, but under every invertible matrix, even one
that only moves, its image gets numbers that are not numbers. -/
theorem flat_violated {m : M} (hm : det m ≠ 0) {a : Arc} (hx : a.rx = 0) (hy : a.ry ≠ 0) (p q : Pt) :
    apply m [.moveTo p, .arcTo a q] = none := by
  suffices h : transformArc m a (q - p) = none by
    simp only [apply, anchor, applyFrom, straighten, mapOp, track, h, Option.map_none]
  have hk := enlarge_pos a.rx a.ry (cos (a.rot * π / 180)) (sin (a.rot * π / 180)) (q - p)
  have p1 := cos_sq_add_sin_sq (a.rot * π / 180)
  have hdet := lin_det m a (q - p)
  rw [hx, zero_mul, mul_zero, zero_mul] at hdet
  have hp : (multiply m (ellipse a (q - p))).p = 0 := by simp [multiply, ellipse, hx]
  have hq : (multiply m (ellipse a (q - p))).q = 0 := by simp [multiply, ellipse, hx]
  have hl : 0 < (multiply m (ellipse a (q - p))).lastCol := by
    simp only [Lin.lastCol, multiply, ellipse]
    generalize enlarge a.rx a.ry (cos (a.rot * π / 180)) (sin (a.rot * π / 180)) (q - p) = k at *
    generalize cos (a.rot * π / 180) = c at *
    generalize sin (a.rot * π / 180) = s at *
    have hyk : (a.ry * k) ^ 2 ≠ 0 := pow_ne_zero 2 (mul_ne_zero hy hk.ne')
    have e : (m.a * (-(a.ry * k) * s) + m.c * (a.ry * k * c)) * (m.a * (-(a.ry * k) * s) + m.c * (a.ry * k * c)) +
        (m.b * (-(a.ry * k) * s) + m.d * (a.ry * k * c)) * (m.b * (-(a.ry * k) * s) + m.d * (a.ry * k * c)) =
        (a.ry * k) ^ 2 * ((m.c * c - m.a * s) ^ 2 + (m.d * c - m.b * s) ^ 2) := by ring
    rw [e]
    refine mul_pos (lt_of_le_of_ne (sq_nonneg _) hyk.symm) ?_
    by_contra hcon
    have z1 : m.c * c - m.a * s = 0 := by nlinarith [sq_nonneg (m.c * c - m.a * s), sq_nonneg (m.d * c - m.b * s)]
    have z2 : m.d * c - m.b * s = 0 := by nlinarith [sq_nonneg (m.c * c - m.a * s), sq_nonneg (m.d * c - m.b * s)]
    apply hm
    unfold det
    have s1 : (m.a * m.d - m.b * m.c) * c = 0 := by linear_combination m.a * z2 - m.b * z1
    have s2 : (m.a * m.d - m.b * m.c) * s = 0 := by linear_combination m.c * z2 - m.d * z1
    linear_combination c * s1 + s * s2 - (m.a * m.d - m.b * m.c) * p1
  rw [transformArc]
  generalize multiply m (ellipse a (q - p)) = n at *
  have hss : n.squareSum = n.lastCol := by unfold Lin.squareSum; rw [hp, hq]; ring
  have hr : n.root = n.lastCol := by
    have := root_sq n
    rw [hdet, hss, zero_pow two_ne_zero, mul_zero, sub_zero] at this
    exact (pow_left_inj₀ (root_nonneg n) hl.le two_ne_zero).mp this
  have hmaj : ¬ n.major := by
    unfold Lin.major Lin.majorSquare
    rw [hss, hr]; norm_num
  have hrow : n.rowsSum = 0 := by unfold Lin.rowsSum; rw [hp, hq]; ring
  have h1 : n.term1 = 0 := by unfold Lin.term1; rw [hp, hrow]; ring
  have h2 : n.term2 = 0 := by unfold Lin.term2; rw [hq, hrow]; ring
  have hang : n.angle = none := by rw [Lin.angle, if_pos (by rw [h1, h2]; simp [hypot])]
  have hax : axes n = none := by rw [axes, if_neg (by rw [hr]; exact hl.ne'), hang]; rfl
  rw [hax]; rfl

/-- **C45 violated (small arcs).** Stretching a small circle by a little more in one direction gives numbers that are not
numbers. -/
theorem small_violated {r x e f : ℝ} (hr : 0 < r) (hx : 1 < x) (h : (x ^ 2 - 1) * r ^ 2 ≤ 1 / 1000000)
    (large sweep : Bool) (p q : Pt) (hpq : ((q - p).1) ^ 2 + ((q - p).2) ^ 2 ≤ (2 * r) ^ 2) :
    apply ⟨x, 0, 0, 1, e, f⟩ [.moveTo p, .arcTo ⟨r, r, 0, large, sweep⟩ q] = none := by
  suffices h : transformArc ⟨x, 0, 0, 1, e, f⟩ ⟨r, r, 0, large, sweep⟩ (q - p) = none by
    simp only [apply, anchor, applyFrom, straighten, mapOp, track, h, Option.map_none]
  have hen : enlarge r r 1 0 (q - p) = 1 := by
    unfold enlarge
    rw [if_pos ⟨hr, hr⟩]
    dsimp only
    rw [if_neg]
    rw [not_lt, ← add_div, div_le_one (by positivity)]
    nlinarith
  rw [transformArc]
  have hn : multiply ⟨x, 0, 0, 1, e, f⟩ (ellipse ⟨r, r, 0, large, sweep⟩ (q - p)) = ⟨x * r, 0, 0, r⟩ := by
    simp only [multiply, ellipse, zero_mul, zero_div, cos_zero, sin_zero, hen]
    ext <;> simp
  rw [hn]
  have hlt : r ^ 2 < (x * r) ^ 2 := by
    have h1 : 1 < x ^ 2 := by nlinarith
    have h2 : 0 < r ^ 2 := by positivity
    rw [mul_pow]; nlinarith
  have hroot : (Lin.mk (x * r) 0 0 r).root = (x * r) ^ 2 - r ^ 2 := by
    have := root_sq (Lin.mk (x * r) 0 0 r)
    have e : (Lin.mk (x * r) 0 0 r).squareSum ^ 2 - 4 * (Lin.mk (x * r) 0 0 r).det ^ 2 = ((x * r) ^ 2 - r ^ 2) ^ 2 := by
      simp only [Lin.squareSum, Lin.lastCol, Lin.det]; ring
    rw [e] at this
    exact (pow_left_inj₀ (root_nonneg _) (by linarith) two_ne_zero).mp this
  have hss : (Lin.mk (x * r) 0 0 r).squareSum = (x * r) ^ 2 + r ^ 2 := by
    simp only [Lin.squareSum, Lin.lastCol]; ring
  have hlc : (Lin.mk (x * r) 0 0 r).lastCol = r ^ 2 := by
    simp only [Lin.lastCol]; ring
  have hmaj : ¬ (Lin.mk (x * r) 0 0 r).major := by
    unfold Lin.major Lin.majorSquare
    rw [hss, hroot, hlc, not_lt, abs_le]
    constructor <;> nlinarith
  have hrow : (Lin.mk (x * r) 0 0 r).rowsSum = 0 := by unfold Lin.rowsSum; ring
  have hsub : (Lin.mk (x * r) 0 0 r).sub = 0 := by
    unfold Lin.sub Lin.minorSquare
    rw [if_neg hmaj, hss, hroot, hlc]; ring
  have h1 : (Lin.mk (x * r) 0 0 r).term1 = 0 := by unfold Lin.term1; rw [hsub, hrow]; ring
  have h2 : (Lin.mk (x * r) 0 0 r).term2 = 0 := by unfold Lin.term2; rw [hsub, hrow]; ring
  have hang : (Lin.mk (x * r) 0 0 r).angle = none := by rw [Lin.angle, if_pos (by rw [h1, h2]; simp [hypot])]
  have hax : axes (Lin.mk (x * r) 0 0 r) = none := by rw [axes, if_neg (by rw [hroot]; linarith), hang]; rfl
  rw [hax]; rfl

/-! ## Examples -/

example : apply ⟨2, 0, 0, 3, 1, 1⟩ [.moveBy (1, 1), .hBy 2, .vTo 4, .close] =
    some [.moveTo (3, 4), .lineBy (4, 0), .lineTo (7, 13), .close] := by
  simp [apply, anchor, applyFrom, straighten, mapOp, track, absolute, relative]
  norm_num

/-- A circle under a stretch of more than a little. -/
example (p q : Pt) (large sweep : Bool) : ∃ out, apply ⟨2, 0, 0, -1, 5, 6⟩ [.moveTo p, .arcTo ⟨1, 1, 0, large, sweep⟩ q] = some out ∧
    ∃ γs, Draws [.moveTo p, .arcTo ⟨1, 1, 0, large, sweep⟩ q] γs ∧
      Draws out (γs.map fun y => (y.1, fun t => M.apply ⟨2, 0, 0, -1, 5, 6⟩ (y.2 t))) := by
  obtain ⟨out, γs, h⟩ := apply_draws_partial ⟨2, 0, 0, -1, 5, 6⟩ [.moveTo p, .arcTo ⟨1, 1, 0, large, sweep⟩ q] (by
    intro op hop a ha
    simp only [List.mem_cons, List.not_mem_nil, or_false] at hop
    rcases hop with rfl | rfl
    · simp [Op.arc?] at ha
    · simp only [Op.arc?, Option.some.injEq] at ha
      subst ha
      refine ⟨by norm_num [det], by norm_num [det], by norm_num, by norm_num, .inr ?_⟩
      simp only [Gram.gap, Gram.push, Arc.gram, gram]
      rw [zero_mul, zero_div, cos_zero, sin_zero]
      apply lt_sqrt_of_sq_lt
      norm_num)
  exact ⟨out, h.1, γs, h.2⟩

/-- The sign rule holds for every matrix without skewing, and for every turn by less than a right angle. -/
example (a d e f : ℝ) (ha : a ≠ 0) (hd : d ≠ 0) : ¬ (a < 0 ↔ d < 0) ↔ det ⟨a, 0, 0, d, e, f⟩ < 0 := by
  unfold det
  simp only [zero_mul, sub_zero]
  rcases lt_or_gt_of_ne ha with h1 | h1 <;> rcases lt_or_gt_of_ne hd with h2 | h2
  · simp [h1, h2, (mul_pos_of_neg_of_neg h1 h2).le]
  · simp [h1, not_lt.mpr h2.le, mul_neg_of_neg_of_pos h1 h2]
  · simp [h2, not_lt.mpr h1.le, mul_neg_of_pos_of_neg h1 h2]
  · simp [not_lt.mpr h1.le, not_lt.mpr h2.le, (mul_pos h1 h2).le]

example : apply ⟨1, 0, 0, 1, 3, 4⟩ [.moveTo (0, 0), .arcTo ⟨0, 5, 0, false, true⟩ (2, 0)] = none :=
  flat_violated (by norm_num [det]) rfl (by norm_num) _ _

example : apply ⟨2, 0, 0, 1, 0, 0⟩ [.moveTo (0, 0), .arcTo ⟨1 / 2000, 1 / 2000, 0, false, true⟩ (1 / 1000, 0)] = none :=
  small_violated (by norm_num) (by norm_num) (by norm_num) _ _ _ _ (by norm_num)

end Verif.Apply
