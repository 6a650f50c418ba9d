import Verif.Transform.Props

/-!
# Model: transforms in CSS notation

`crates/oxvg_collections/src/attribute/transform.rs`, the conversions between `SVGTransform` and `Transform` of
lightningcss, which are used when styles become attributes and attributes become styles.
-/

namespace Verif.Transform

open Real

noncomputable section

/-- lightningcss, `LengthPercentage`: a length that is known in pixels, or another. -/
inductive Len (U : Type) where
  | px (x : ℝ)
  | other (u : U)

/-- lightningcss, `NumberOrPercentage`; a percentage is stored as a fraction. -/
inductive Factor where
  | number (x : ℝ)
  | percentage (x : ℝ)

/-- lightningcss, `Transform`; `O` are the forms in three dimensions. -/
inductive C (U O : Type) where
  | matrix (m : M)
  | translate (x y : Len U)
  | translateX (x : Len U)
  | translateY (y : Len U)
  | scale (x y : Factor)
  | scaleX (x : Factor)
  | scaleY (y : Factor)
  | rotate (a : ℝ)
  | skewX (a : ℝ)
  | skewY (a : ℝ)
  | other (o : O)

variable {U O : Type}

/-- transform.rs:419-450, `From<SVGTransform> for Transform`. -/
def T.toCss : T (C U O) → C U O
  | .matrix m => .matrix m
  | .translate x y => .translate (.px x) (.px y)
  | .scale x y => .scale (.number x) (.number y)
  | .rotate a x y =>
    if x = 0 ∧ y = 0 then .rotate a
    else .matrix ⟨cos (rad a), sin (rad a), -sin (rad a), cos (rad a), (1 - cos (rad a)) * x + sin (rad a) * y,
      (1 - cos (rad a)) * y - sin (rad a) * x⟩
  | .skewX a => .skewX a
  | .skewY a => .skewY a
  | .css c => c

/-- transform.rs:491-498, the conversion through the matrix, if there is one (`toMatrix` is lightningcss's). -/
def viaMatrix (toMatrix : C U O → Option M) (c : C U O) : Option (T (C U O)) := (toMatrix c).map .matrix

/-- transform.rs:452-500, `TryFrom<&Transform> for SVGTransform`. Angles are in degrees. -/
def fromCss (toMatrix : C U O → Option M) : C U O → Option (T (C U O))
  | .matrix m => some (.matrix m)
  | .translate (.px x) (.px y) => some (.translate x y)
  | .translateX (.px x) => some (.translate x 0)
  | .scale (.number x) (.number y) => some (.scale x y)
  | .scale _ _ => none
  | .scaleX (.number x) => some (.scale x 0)
  | .scaleX (.percentage _) => none
  | .rotate a => some (.rotate a 0 0)
  | .skewX a => some (.skewX a)
  | .skewY a => some (.skewY a)
  | c => viaMatrix toMatrix c

/-! ## What CSS says (CSS Transforms Module Level 1, 12.1) -/

def Len.value (len : U → ℝ) : Len U → ℝ
  | .px x => x
  | .other u => len u

def Factor.value : Factor → ℝ
  | .number x => x
  | .percentage x => x

/-- A point under a transform in CSS notation; `len` tells the lengths in pixels, `other` what is done in three
dimensions. -/
def C.move (len : U → ℝ) (other : O → Pt → Pt) : C U O → Pt → Pt
  | .matrix m, p => m.apply p
  | .translate x y, p => (p.1 + x.value len, p.2 + y.value len)
  | .translateX x, p => (p.1 + x.value len, p.2)
  | .translateY y, p => (p.1, p.2 + y.value len)
  | .scale x y, p => (x.value * p.1, y.value * p.2)
  | .scaleX x, p => (x.value * p.1, p.2)
  | .scaleY y, p => (p.1, y.value * p.2)
  | .rotate a, p => (cos (a * π / 180) * p.1 - sin (a * π / 180) * p.2, sin (a * π / 180) * p.1 + cos (a * π / 180) * p.2)
  | .skewX a, p => (p.1 + tan (a * π / 180) * p.2, p.2)
  | .skewY a, p => (p.1, p.2 + tan (a * π / 180) * p.1)
  | .other o, p => other o p

variable {len : U → ℝ} {other : O → Pt → Pt} {toMatrix : C U O → Option M}

/-- **C44 (from SVG to CSS).** A transform moves every point the same way after it is converted to CSS. -/
theorem toCss_move (t : T (C U O)) (q : Pt) : t.toCss.move len other q = t.move (C.move len other) q := by
  cases t with
  | rotate a x y =>
    simp only [T.toCss]
    split
    · next h =>
      simp only [C.move, T.move, h.1, h.2]
      ext
      · dsimp only; ring
      · dsimp only; ring
    · simp only [C.move, T.move, M.apply, rad]
      ext
      · dsimp only; ring
      · dsimp only; ring
  | _ => rfl

/-- **C44 (from CSS to SVG).** A transform other than `scaleX` that can be converted from CSS moves every point the
same way afterwards, provided that the matrices lightningcss computes do. For `scaleX` it is not so:
`scaleX_violated`. -/
theorem fromCss_partial (hm : ∀ c m, toMatrix c = some m → c.move len other = m.apply) (c : C U O)
    (hx : ∀ x, c ≠ .scaleX x) (t : T (C U O)) (h : fromCss toMatrix c = some t) (q : Pt) :
    t.move (C.move len other) q = c.move len other q := by
  have via : viaMatrix toMatrix c = some t → t.move (C.move len other) q = c.move len other q := by
    intro h
    rw [viaMatrix, Option.map_eq_some_iff] at h
    obtain ⟨m, h1, rfl⟩ := h
    rw [hm c m h1]
    rfl
  unfold fromCss at h
  split at h
  · simp at h; subst h; rfl
  · simp at h; subst h; rfl
  · simp at h; subst h; simp [T.move, C.move, Len.value]
  · simp at h; subst h; rfl
  · simp at h
  · next x => exact absurd rfl (hx _)
  · next x => exact absurd rfl (hx _)
  · simp at h; subst h
    simp only [T.move, C.move]
    ext
    · dsimp only; ring
    · dsimp only; ring
  · simp at h; subst h; rfl
  · simp at h; subst h; rfl
  · exact via h

/-- **C44 (`scaleX` flattens the picture).** `scaleX(x)` becomes `scale(x 0)`: whatever the factor, everything ends up on
the horizontal axis. -/
theorem scaleX_violated (x : ℝ) : ∃ t, fromCss toMatrix (.scaleX (.number x) : C U O) = some t ∧
    (∀ q, (t.move (C.move len other) q).2 = 0) ∧
    ∀ q : Pt, ((.scaleX (.number x) : C U O).move len other q).2 = q.2 :=
  ⟨_, rfl, fun q => by simp [T.move], fun _ => rfl⟩

/-- **C44 (there and back).** What was converted to CSS can be converted back, and moves every point as before. -/
theorem css_round_trip (hm : ∀ c m, toMatrix c = some m → c.move len other = m.apply) (t : T (C U O))
    (ht : ∀ c, t ≠ .css c) :
    ∃ u, fromCss toMatrix t.toCss = some u ∧ ∀ q, u.move (C.move len other) q = t.move (C.move len other) q := by
  have hsome : ∃ u, fromCss toMatrix t.toCss = some u := by
    cases t with
    | css c => exact absurd rfl (ht c)
    | rotate a x y => simp only [T.toCss]; split <;> exact ⟨_, rfl⟩
    | _ => exact ⟨_, rfl⟩
  obtain ⟨u, hu⟩ := hsome
  refine ⟨u, hu, fun q => ?_⟩
  rw [fromCss_partial hm _ ?_ u hu, toCss_move]
  intro x hx
  cases t with
  | css c => exact ht c rfl
  | rotate a y z => simp only [T.toCss] at hx; split at hx <;> simp at hx
  | _ => simp [T.toCss] at hx

end

/-! ## Examples -/

/-- A rotation about (10, 0) becomes a matrix in CSS, and both move (10, 1) to (9, 0). -/
example (len : U → ℝ) (other : O → Pt → Pt) :
    (T.rotate 90 10 0 : T (C U O)).toCss.move len other (10, 1) = (9, 0) := by
  rw [toCss_move]
  have h : (90 : ℝ) * π / 180 = π / 2 := by ring
  simp only [T.move, h, cos_pi_div_two, sin_pi_div_two]
  norm_num

/-- `translateX(5px)`. -/
example (toMatrix : C U O → Option M) : fromCss toMatrix (.translateX (.px 5)) = some (.translate 5 0) := rfl

end Verif.Transform
