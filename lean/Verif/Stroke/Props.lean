import Verif.Stroke.Lemmas

/-!
# C51: applying transforms keeps what a path looks like
-/

namespace Verif.Stroke

open Real Verif.Transform Verif.Apply

noncomputable section

variable {U O : Type}

/-! ## Steps -/

theorem curves_draws (ops : List Op) : Draws ops (curves ops) := Classical.choose_spec (draws_exists ops)

theorem curves_eq {ops : List Op} {γs : Curves} (h : Draws ops γs) : curves ops = γs :=
  draws_unique ops _ _ (curves_draws ops) h

/-- What `element` does, in one of two ways: nothing, or all of it. -/
theorem element_cases {env : Env (C U O)} {cfg : Config} {sheet : Sheet U O} {as as' : List (Attr U O)}
    (h : element env cfg (.ok sheet) as = .ok as') : as' = as ∨
    ∃ ops t l m out bs, as.findSome? Attr.ops? = some ops ∧ as.any Attr.stops = false ∧
      as.findSome? Attr.transform? = some (.is (t :: l)) ∧
      unclear (computed sheet.stroke (as.findSome? Attr.stroke?)) = false ∧
      unclear (computed sheet.width (as.findSome? Attr.width?)) = false ∧
      toMatrix env (t :: l) = some m ∧ stroked cfg sheet m as = some bs ∧ apply m ops = some out ∧
      as' = removeTransform (setData out bs) := by
  unfold element at h
  rw [data_eq, transformOf_eq] at h
  cases hd : as.findSome? Attr.ops? with
  | none => rw [hd] at h; exact Or.inl (by simpa using h.symm)
  | some ops =>
    rw [hd] at h
    simp only at h
    cases hs : as.any Attr.stops with
    | true => rw [hs] at h; exact Or.inl (by simpa using h.symm)
    | false =>
      rw [hs] at h
      simp only [Bool.false_eq_true, if_false] at h
      split at h
      · rename_i t l ht
        split at h
        · cases h
        · exact Or.inl (by simpa using h.symm)
        · unfold withTransform at h
          rw [strokeOf_eq, widthOf_eq] at h
          cases h1 : unclear (computed sheet.stroke (as.findSome? Attr.stroke?)) with
          | true => rw [h1] at h; exact Or.inl (by simpa using h.symm)
          | false =>
            cases h2 : unclear (computed sheet.width (as.findSome? Attr.width?)) with
            | true => rw [h1, h2] at h; exact Or.inl (by simpa using h.symm)
            | false =>
              rw [h1, h2] at h
              simp only [Bool.false_eq_true, if_false] at h
              cases hm : toMatrix env (t :: l) with
              | none => rw [hm] at h; exact Or.inl (by simpa using h.symm)
              | some m =>
                rw [hm] at h
                simp only at h
                cases hb : stroked cfg sheet m as with
                | none => rw [hb] at h; exact Or.inl (by simpa using h.symm)
                | some bs =>
                  rw [hb] at h
                  simp only [finish] at h
                  cases ha : apply m ops with
                  | none => rw [ha] at h; cases h
                  | some out =>
                    rw [ha] at h
                    exact Or.inr ⟨ops, t, l, m, out, bs, rfl, rfl, ht, rfl, rfl, hm, hb, ha, by simpa using h.symm⟩
      · exact Or.inl (by simpa using h.symm)

/-- A stroke is either left as it is or scaled. -/
theorem stroked_cases {cfg : Config} {sheet : Sheet U O} {m : M} {as bs : List (Attr U O)}
    (h : stroked cfg sheet m as = some bs) :
    (bs = as ∧ ((∀ p, computed sheet.stroke (as.findSome? Attr.stroke?) ≠ some (.is p, .static)) ∨
      computed sheet.stroke (as.findSome? Attr.stroke?) = some (.is .nothing, .static) ∨
      as.findSome? Attr.vectorEffect? = some true ∨ factor cfg m = 1) ∧
      ((∃ p, p ≠ .nothing ∧ computed sheet.stroke (as.findSome? Attr.stroke?) = some (.is p, .static)) →
        (m.a = m.d ∧ m.b = -m.c) ∨ (m.a = -m.d ∧ m.b = m.c))) ∨
    (as.findSome? Attr.vectorEffect? ≠ some true ∧ ((m.a = m.d ∧ m.b = -m.c) ∨ (m.a = -m.d ∧ m.b = m.c)) ∧
      bs = scaleDashes (factor cfg m) (scaleOffset (factor cfg m)
        (setWidth (newWidth (factor cfg m) (computed sheet.width (as.findSome? Attr.width?))) as))) := by
  unfold stroked at h
  rw [strokeOf_eq, widthOf_eq] at h
  split at h
  · rename_i p hp
    unfold applyStroked at h
    rw [vectorEffectOf_eq] at h
    split at h
    · simp only [Option.some.injEq] at h
      exact Or.inl ⟨h.symm, Or.inr (Or.inl hp), fun ⟨q, hq, hc⟩ => by rw [hp] at hc; simp at hc; exact absurd hc.symm hq⟩
    · rename_i hne
      split at h
      · cases h
      split at h
      · cases h
      rename_i hsim
      have hsim' : (m.a = m.d ∧ m.b = -m.c) ∨ (m.a = -m.d ∧ m.b = m.c) := by
        by_contra hc
        push Not at hc
        refine hsim ⟨?_, ?_⟩
        · by_cases hx : m.a = m.d
          · exact Or.inr (hc.1 hx)
          · exact Or.inl hx
        · by_cases hx : m.a = -m.d
          · exact Or.inr (hc.2 hx)
          · exact Or.inl hx
      split at h
      · rename_i hv
        simp only [Option.some.injEq] at h
        exact Or.inl ⟨h.symm, Or.inr (Or.inr (Or.inl hv)), fun _ => hsim'⟩
      · rename_i hv
        split at h
        · rename_i hf
          simp only [Option.some.injEq] at h
          exact Or.inl ⟨h.symm, Or.inr (Or.inr (Or.inr hf)), fun _ => hsim'⟩
        · simp only [Option.some.injEq] at h
          exact Or.inr ⟨hv, hsim', h.symm⟩
  · rename_i hne
    simp only [Option.some.injEq] at h
    exact Or.inl ⟨h.symm, Or.inl hne, fun ⟨p, _, hc⟩ => absurd hc (hne p)⟩

theorem fromAbove_none {V : Type} (holds : Bool) (initial : V) (l : List (Option (Val V × Mode))) (h : ∀ x ∈ l, x = none) :
    fromAbove holds initial l = initial := by
  induction l with
  | nil => rfl
  | cons x l ih =>
    rw [h x (by simp)]
    exact ih fun y hy => h y (by simp [hy])

theorem fromAbove_found {V : Type} (holds : Bool) (initial : V) (l : List (Option (Val V × Mode))) (v : V)
    (h : l.findSome? id = some (.is v, .static)) : fromAbove holds initial l = v := by
  induction l with
  | nil => cases h
  | cons x l ih => cases x with
    | none => exact ih (by simpa using h)
    | some y =>
      simp only [List.findSome?_cons, id, Option.some.injEq] at h
      subst h
      simp [fromAbove]

theorem findSome_mem {V : Type} {l : List (Option V)} {v : V} (h : l.findSome? id = some v) : some v ∈ l := by
  obtain ⟨a, ha, hv⟩ := List.exists_of_findSome?_eq_some h
  simp only [id] at hv
  exact hv ▸ ha

/-- Where the code has an answer, the value is that. -/
theorem used_computed {V : Type} (holds : Bool) (initial : V) (s : Source V) (attr : Option (Val V)) (v : V)
    (h : computed s attr = some (.is v, .static)) : used holds initial s attr = v := by
  unfold computed at h
  unfold used
  cases hr : s.rule with
  | some x =>
    rw [hr] at h
    simp only [Option.some_or, Option.some.injEq] at h
    subst h
    simp
  | none =>
    rw [hr] at h
    cases attr with
    | some a =>
      simp only [Option.none_or, Option.map_some, Option.some_or, Option.some.injEq, Prod.mk.injEq, and_true] at h
      subst h
      rfl
    | none => exact fromAbove_found holds initial _ v (by simpa using h)

/-- Where nothing is unclear or inherited, the code has an answer or nothing is said. -/
theorem computed_cases {V : Type} (s : Source V) (attr : Option (Val V)) (h : NoInherit s attr)
    (hu : unclear (computed s attr) = false) :
    (∃ v, computed s attr = some (.is v, .static)) ∨
      (computed s attr = none ∧ ∀ holds initial, used holds initial s attr = initial) := by
  cases hc : computed s attr with
  | none =>
    refine Or.inr ⟨rfl, fun holds initial => ?_⟩
    simp only [computed, Option.or_eq_none_iff, Option.map_eq_none_iff] at hc
    obtain ⟨hr, ha, hb⟩ := hc
    simp only [used, hr, ha, fromAttr]
    exact fromAbove_none _ _ _ fun x hx => by simpa using List.findSome?_eq_none_iff.1 hb x hx
  | some x =>
    obtain ⟨v, mode⟩ := x
    rw [hc] at hu
    cases v with
    | odd v => simp [unclear] at hu
    | is v => cases mode with
      | static => exact Or.inl ⟨v, rfl⟩
      | dynamic => simp [unclear] at hu
    | inherit =>
      exfalso
      unfold computed at hc
      cases hr : s.rule with
      | some y =>
        rw [hr] at hc
        simp only [Option.some_or, Option.some.injEq] at hc
        exact h.1 mode (by rw [hr, hc])
      | none =>
        rw [hr] at hc
        cases ha : attr with
        | some a =>
          rw [ha] at hc
          simp only [Option.none_or, Option.map_some, Option.some_or, Option.some.injEq, Prod.mk.injEq] at hc
          exact h.2.1 (by rw [ha, hc.1])
        | none =>
          rw [ha] at hc
          exact h.2.2 mode (findSome_mem (by simpa using hc))

theorem image_image (f g : Pt → Pt) (γs : Curves) : image f (image g γs) = image (f ∘ g) γs := by
  simp [image, Function.comp_def]

/-- Along curves that are stretched, a stroke covers what is stretched. -/
theorem along_similar (b : Brush) {m : M} {s : ℝ} (hs : 0 < s) (h : Similar m.apply s) {l l' : Look} (hstroke : l'.stroke = l.stroke)
    (hw : l'.width = s * l.width)
    (hd : (l.dashes = [] ∧ l'.dashes = []) ∨ (l'.dashes = l.dashes.map (s * ·) ∧ l'.offset = s * l.offset ∧
      l.pathLength = none ∧ l'.pathLength = none)) (γs : Curves) :
    l'.along b (image m.apply γs) = m.apply '' l.along b γs := by
  have hnil := b.similar m s hs h γs l.width [] 0
  simp only [List.map_nil, mul_zero] at hnil
  unfold Look.along
  rw [hstroke, hw]
  rcases hd with ⟨h1, h2⟩ | ⟨h1, h2, h3, h4⟩
  · rw [h1, h2]
    cases l.stroke <;> simp [hnil]
  · rw [h1, h2, h3, h4]
    have hds := b.similar m s hs h γs l.width l.dashes l.offset
    cases hl : l.dashes with
    | nil => cases l.stroke <;> simp [hnil]
    | cons x ds =>
      rw [hl] at hds
      cases l.stroke <;> simp_all

theorem similar_of {m : M} (h : (m.a = m.d ∧ m.b = -m.c) ∨ (m.a = -m.d ∧ m.b = m.c)) :
    Similar m.apply (√(m.a * m.a + m.b * m.b)) := by
  rw [similar_iff (Real.sqrt_nonneg _), Real.sq_sqrt (by nlinarith)]
  rcases h with ⟨h1, h2⟩ | ⟨h1, h2⟩
  · refine ⟨by ring, by rw [h1, h2]; ring, by rw [h1, h2]; ring⟩
  · refine ⟨by ring, by rw [h1, h2]; ring, by rw [h1, h2]; ring⟩

theorem mul_value (unit s : ℝ) (l : Len) : (l.mul s).value unit = s * l.value unit := by
  simp only [Len.value, Len.mul]; ring

/-- The edits, seen from each kind of attribute but those edited. -/
theorem edits_other {B : Type} {f : Attr U O → Option B} (h1 : ∀ x, f (.d x) = none) (h2 : ∀ x, f (.transform x) = none)
    (out : List Op) (as : List (Attr U O)) :
    (removeTransform (setData out as)).findSome? f = as.findSome? f := by
  rw [removeTransform_other h2, setData_other h1]

theorem scale_other {B : Type} {f : Attr U O → Option B} (h3 : ∀ x, f (.width x) = none) (h4 : ∀ x, f (.offset x) = none)
    (h5 : ∀ x, f (.dashes x) = none) (s : ℝ) (w : Len) (as : List (Attr U O)) :
    (scaleDashes s (scaleOffset s (setWidth w as))).findSome? f = as.findSome? f := by
  rw [scaleDashes_other h5, scaleOffset_other h4, setWidth_other h3]

/-- All of a stroke but its width and dashes is left alone by scaling. -/
theorem stroked_other {cfg : Config} {sheet : Sheet U O} {m : M} {as bs : List (Attr U O)} (h : stroked cfg sheet m as = some bs) :
    (∀ {B : Type} (f : Attr U O → Option B), (∀ x, f (.width x) = none) → (∀ x, f (.offset x) = none) →
      (∀ x, f (.dashes x) = none) → bs.findSome? f = as.findSome? f) ∧
    bs.filter Attr.isOther = as.filter Attr.isOther ∧ bs.filter Attr.isTransform = as.filter Attr.isTransform := by
  rcases stroked_cases h with ⟨rfl, _⟩ | ⟨_, _, rfl⟩
  · exact ⟨fun _ _ _ _ => rfl, rfl, rfl⟩
  · exact ⟨fun f h1 h2 h3 => scale_other h1 h2 h3 _ _ _, by rw [other_scaleDashes, other_scaleOffset, other_setWidth],
      by rw [filter_scaleDashes, filter_scaleOffset, filter_setWidth]⟩

/-- A path that is not stopped has no reference into the document. -/
theorem no_urls {as : List (Attr U O)} (hs : as.any Attr.stops = false) (hi : ∀ a ∈ as, ∀ u ∈ a.urls, u.startsWith "#") :
    as.flatMap Attr.urls = [] := by
  rw [List.flatMap_eq_nil_iff]
  intro a ha
  have h0 := List.any_eq_false.1 hs a ha
  cases hu : a.urls with
  | nil => rfl
  | cons u us =>
    exfalso
    have h1 := hi a ha u (by simp [hu])
    apply h0
    cases a <;> simp_all [Attr.stops, Attr.urls]

/-- **C51 (the picture).** If a path has its transform, and if it has a stroke its width and dashes, from its own attributes, the
job does not change the outline, what the stroke covers, for any way to draw strokes that goes with similarities, and where
gradients and the like are laid out; whatever the conditions in styles, the size of percentages and the transforms of the
ancestors. Missing: what the hypotheses `Own` and `OwnStroke` rule out, singular transforms of strokes, arcs for which C45 fails,
precisions. -/
theorem apply_picture_partial {env : Env (C U O)} {css : C U O → Pt → Pt}
    (hcss : ∀ c m, env.cssMatrix c = some m → css c = m.apply) {cfg : Config} (hp : cfg.precision = none)
    {sheet : Sheet U O} {as as' : List (Attr U O)} (unit : ℝ) (holds : Bool) (h : element env cfg (.ok sheet) as = .ok as')
    (hown : Own sheet as)
    (hstroke : (look css unit holds sheet as).stroke ≠ .nothing → OwnStroke sheet as ∧
      Function.Injective (look css unit holds sheet as).place)
    (harc : ∀ m : M, (look css unit holds sheet as).place = m.apply → ∀ op ∈ (look css unit holds sheet as).ops, op.isArc →
      det m ≠ 0 ∧ (¬ (m.a < 0 ↔ m.d < 0) ↔ det m < 0))
    (b : Brush) (screen : Pt → Pt) :
    (look css unit holds sheet as').picture b screen = (look css unit holds sheet as).picture b screen := by
  rcases element_cases h with rfl | ⟨ops, t, l, m, out, bs, hops, hstop, htr, hus, huw, hm, hbs, hout, rfl⟩
  · rfl
  obtain ⟨hkeep, hother, htrans⟩ := stroked_other hbs
  have sel : ∀ {B : Type} (f : Attr U O → Option B), (∀ x, f (.d x) = none) → (∀ x, f (.transform x) = none) →
      (∀ x, f (.width x) = none) → (∀ x, f (.offset x) = none) → (∀ x, f (.dashes x) = none) →
      (removeTransform (setData out bs)).findSome? f = as.findSome? f :=
    fun f h1 h2 h3 h4 h5 => by rw [edits_other h1 h2, hkeep f h3 h4 h5]
  -- places
  have hmove : draw css (t :: l) = m.apply := funext fun q => (toMatrix_spec hcss _ m hm q).symm
  have hplace : (look css unit holds sheet as).place = m.apply := by
    funext p
    simp [look, hown.transform, hown.origin.1, hown.origin.2, htr, moved, moveAttr, hmove, around]
  have hplace' : (look css unit holds sheet (removeTransform (setData out bs))).place = id := by
    funext p
    have h1 : (removeTransform (setData out bs)).findSome? Attr.transform? = none :=
      removeTransform_none (by rw [filter_setData, htrans]; exact hown.one)
    have h2 := sel Attr.origin? (fun _ => rfl) (fun _ => rfl) (fun _ => rfl) (fun _ => rfl) (fun _ => rfl)
    simp [look, hown.transform, hown.origin.1, hown.origin.2, h1, h2, moved, moveAttr, around]
  -- data
  have hl : (look css unit holds sheet as).ops = ops := by simp [look, hops]
  have hl' : (look css unit holds sheet (removeTransform (setData out bs))).ops = out := by
    have : bs.findSome? Attr.ops? = some ops := by rw [hkeep _ (fun _ => rfl) (fun _ => rfl) (fun _ => rfl), hops]
    simp [look, removeTransform_other (f := Attr.ops?) (fun _ => rfl), setData_ops this]
  have hcurves : curves out = image m.apply (curves ops) :=
    curves_eq (apply_partial m ops out (fun op hop ha => harc m hplace op (by rw [hl]; exact hop) ha) hout _ (curves_draws ops))
  -- references
  have hserv : (look css unit holds sheet as).servers = [] := by
    simp [look, hown.servers, no_urls hstop hown.inner]
  have hserv' : (look css unit holds sheet (removeTransform (setData out bs))).servers = [] := by
    simp only [look, hown.servers, List.nil_append]
    rw [urls_other, other_removeTransform, other_setData, hother, ← urls_other, no_urls hstop hown.inner]
  -- strokes
  have hst : (look css unit holds sheet (removeTransform (setData out bs))).stroke = (look css unit holds sheet as).stroke := by
    simp only [look]
    rw [sel Attr.stroke? (fun _ => rfl) (fun _ => rfl) (fun _ => rfl) (fun _ => rfl) (fun _ => rfl)]
  have hfix : (look css unit holds sheet (removeTransform (setData out bs))).fixed = (look css unit holds sheet as).fixed := by
    simp only [look]
    rw [sel Attr.vectorEffect? (fun _ => rfl) (fun _ => rfl) (fun _ => rfl) (fun _ => rfl) (fun _ => rfl)]
  have hpl : (look css unit holds sheet (removeTransform (setData out bs))).pathLength =
      (look css unit holds sheet as).pathLength := by
    simp only [look]
    rw [sel Attr.pathLength? (fun _ => rfl) (fun _ => rfl) (fun _ => rfl) (fun _ => rfl) (fun _ => rfl)]
  have hink : ((look css unit holds sheet (removeTransform (setData out bs))).picture b screen).ink =
      ((look css unit holds sheet as).picture b screen).ink := by
    simp only [Look.picture]
    rw [hfix, hplace, hplace', hl, hl', hcurves, image_image, Function.comp_id]
    by_cases hno : (look css unit holds sheet as).stroke = .nothing
    · have e : ∀ γs, (look css unit holds sheet as).along b γs = ∅ := fun γs => by simp [Look.along, hno]
      have e' : ∀ γs, (look css unit holds sheet (removeTransform (setData out bs))).along b γs = ∅ := fun γs => by
        simp [Look.along, hst, hno]
      simp [e, e']
    obtain ⟨hos, hinj⟩ := hstroke hno
    have hcomp : ∃ p, p ≠ .nothing ∧ computed sheet.stroke (as.findSome? Attr.stroke?) = some (.is p, .static) := by
      rcases computed_cases _ _ hos.stroke hus with ⟨p, hp⟩ | ⟨_, hu⟩
      · exact ⟨p, fun hpn => hno (by simp only [look]; rw [used_computed _ _ _ _ _ hp, hpn]), hp⟩
      · exact absurd (by simp only [look]; exact hu _ _) hno
    have hsimm : (m.a = m.d ∧ m.b = -m.c) ∨ (m.a = -m.d ∧ m.b = m.c) := by
      rcases stroked_cases hbs with ⟨_, _, h3⟩ | ⟨_, h3, _⟩
      · exact h3 hcomp
      · exact h3
    have hsim := similar_of hsimm
    have hfac : factor cfg m = √(m.a * m.a + m.b * m.b) := by simp [factor, hp]
    have hpos : 0 < √(m.a * m.a + m.b * m.b) := by
      rcases (Real.sqrt_nonneg (m.a * m.a + m.b * m.b)).lt_or_eq with h0 | h0
      · exact h0
      · exfalso
        have h1 := hsim (1, 0) 0
        rw [← h0, zero_mul] at h1
        have h2 := congrArg (· ^ 2) h1
        simp only [distance_sq] at h2
        rw [hplace] at hinj
        have h3 : m.apply (1, 0) = m.apply 0 := Prod.ext (by nlinarith [sq_nonneg ((m.apply (1, 0)).1 - (m.apply 0).1), sq_nonneg ((m.apply (1, 0)).2 - (m.apply 0).2)])
          (by nlinarith [sq_nonneg ((m.apply (1, 0)).1 - (m.apply 0).1), sq_nonneg ((m.apply (1, 0)).2 - (m.apply 0).2)])
        have := hinj h3
        simp [Prod.ext_iff] at this
    -- dashes that are there come from the attributes
    have hdash : (look css unit holds sheet as).dashes = [] ∨ ((∃ ds, as.findSome? Attr.dashes? = some (.is ds)) ∧
        (look css unit holds sheet as).pathLength = none ∧ sheet.offset.rule = none ∧
        ((as.findSome? Attr.offset? = none ∧ ∀ x ∈ sheet.offset.above, x = none) ∨
          ∃ o, as.findSome? Attr.offset? = some (.is o))) := by
      rcases hos.dashes.2 with ⟨h1, h2⟩ | h1
      · left
        simp [look, used, hos.dashes.1, h1, fromAttr, fromAbove_none _ _ _ h2]
      · exact Or.inr h1
    have hkind : ∀ {B : Type} (f : Attr U O → Option B), (∀ x, f (.d x) = none) → (∀ x, f (.transform x) = none) →
        (removeTransform (setData out bs)).findSome? f = bs.findSome? f := fun f h1 h2 => edits_other h1 h2 _ _
    rcases stroked_cases hbs with ⟨rfl, hwhy, _⟩ | ⟨hv, _, hb⟩
    · -- nothing is scaled
      have hw : (look css unit holds sheet (removeTransform (setData out bs))).width = (look css unit holds sheet bs).width := by
        simp only [look]
        rw [hkind Attr.width? (fun _ => rfl) (fun _ => rfl)]
      have hd : (look css unit holds sheet (removeTransform (setData out bs))).dashes = (look css unit holds sheet bs).dashes := by
        simp only [look]
        rw [hkind Attr.dashes? (fun _ => rfl) (fun _ => rfl)]
      have ho : (look css unit holds sheet (removeTransform (setData out bs))).offset = (look css unit holds sheet bs).offset := by
        simp only [look]
        rw [hkind Attr.offset? (fun _ => rfl) (fun _ => rfl)]
      have halong : ∀ γs, (look css unit holds sheet (removeTransform (setData out bs))).along b γs =
          (look css unit holds sheet bs).along b γs := fun γs => by
        unfold Look.along
        rw [hst, hd, hpl, hw, ho]
      simp only [halong]
      split
      · rfl
      · rename_i hnf
        have hone : factor cfg m = 1 := by
          obtain ⟨p, hpn, hpc⟩ := hcomp
          rcases hwhy with h1 | h1 | h1 | h1
          · exact absurd hpc (h1 p)
          · rw [hpc] at h1; simp at h1; exact absurd h1 hpn
          · exact absurd (by simp [look, hos.effect, h1]) hnf
          · exact h1
        rw [hfac] at hone
        rw [hone] at hsim hpos
        have := along_similar b hpos hsim (l := look css unit holds sheet bs) (l' := look css unit holds sheet bs) rfl (by ring)
          (by
            rcases hdash with h1 | ⟨_, h2, _⟩
            · exact Or.inl ⟨h1, h1⟩
            · exact Or.inr ⟨by simp, by ring, h2, h2⟩) (curves ops)
        rw [this, Set.image_comp]
    · -- all is scaled
      have hnf : (look css unit holds sheet as).fixed = false := by
        simp only [look, hos.effect, Option.none_or]
        cases hve : as.findSome? Attr.vectorEffect? with
        | none => rfl
        | some x => cases x with
          | false => rfl
          | true => exact absurd hve hv
      rw [hnf]
      simp only [Bool.false_eq_true, if_false]
      have hw : (look css unit holds sheet (removeTransform (setData out bs))).width =
          factor cfg m * (look css unit holds sheet as).width := by
        have e : bs.findSome? Attr.width? = some (.is (newWidth (factor cfg m) (computed sheet.width (as.findSome? Attr.width?)))) := by
          rw [hb, scaleDashes_other (fun _ => rfl), scaleOffset_other (fun _ => rfl), setWidth_width]
        simp only [look]
        rw [hkind Attr.width? (fun _ => rfl) (fun _ => rfl), e]
        have e2 : used holds ⟨1, 0⟩ sheet.width (some (.is (newWidth (factor cfg m) (computed sheet.width (as.findSome? Attr.width?))))) =
            newWidth (factor cfg m) (computed sheet.width (as.findSome? Attr.width?)) := by
          simp [used, hos.width.1, fromAttr]
        rw [e2]
        rcases computed_cases _ _ hos.width.2 huw with ⟨v, hv⟩ | ⟨hv, hu⟩
        · rw [hv, used_computed _ _ _ _ _ hv]
          exact mul_value _ _ _
        · rw [hv, hu]
          simp [newWidth, Len.value]
      have ha : (look css unit holds sheet (removeTransform (setData out bs))).along b (image m.apply (curves ops)) =
          m.apply '' (look css unit holds sheet as).along b (curves ops) := by
        rw [hfac] at hw
        refine along_similar b hpos hsim hst hw ?_ (curves ops)
        have e : bs.findSome? Attr.dashes? = (as.findSome? Attr.dashes?).map (Val.map' fun l => l.map fun x => x.mul (factor cfg m)) := by
          rw [hb, scaleDashes_dashes, scaleOffset_other (fun _ => rfl), setWidth_other (fun _ => rfl)]
        have e2 : bs.findSome? Attr.offset? = (as.findSome? Attr.offset?).map (Val.map' fun l => l.mul (factor cfg m)) := by
          rw [hb, scaleDashes_other (fun _ => rfl), scaleOffset_offset, setWidth_other (fun _ => rfl)]
        rcases hos.dashes.2 with ⟨h1, h2⟩ | ⟨⟨ds, h1⟩, h2, h3, h4⟩
        · left
          constructor
          · simp [look, used, hos.dashes.1, h1, fromAttr, fromAbove_none _ _ _ h2]
          · simp only [look]
            rw [hkind Attr.dashes? (fun _ => rfl) (fun _ => rfl), e, h1]
            simp [used, hos.dashes.1, fromAttr, fromAbove_none _ _ _ h2]
        · right
          refine ⟨?_, ?_, h2, by rw [hpl]; exact h2⟩
          · simp only [look]
            rw [hkind Attr.dashes? (fun _ => rfl) (fun _ => rfl), e, h1]
            simp [used, hos.dashes.1, fromAttr, Val.map', hfac, Function.comp_def, mul_value]
          · simp only [look]
            rw [hkind Attr.offset? (fun _ => rfl) (fun _ => rfl), e2]
            rcases h4 with ⟨h5, h6⟩ | ⟨o, h5⟩
            · rw [h5]
              simp [used, h3, fromAttr, fromAbove_none _ _ _ h6, Len.value]
            · rw [h5]
              simp [used, h3, fromAttr, Val.map', hfac, mul_value]
      rw [ha, Set.image_comp]
  -- all together
  have h1 : ((look css unit holds sheet (removeTransform (setData out bs))).picture b screen).outline =
      ((look css unit holds sheet as).picture b screen).outline := by
    simp only [Look.picture]
    rw [hplace, hplace', hl, hl', hcurves, image_image, Function.comp_id]
  have h2 : ((look css unit holds sheet (removeTransform (setData out bs))).picture b screen).servers =
      ((look css unit holds sheet as).picture b screen).servers := by
    simp only [Look.picture]
    rw [hserv, hserv']
    rfl
  cases hx : (look css unit holds sheet (removeTransform (setData out bs))).picture b screen
  cases hy : (look css unit holds sheet as).picture b screen
  rw [hx, hy] at h1 h2 hink
  simp_all

/-- **C51 (everything else stays).** Attributes other than the data, the transform, the width of the stroke and its dashes
are left as they are, in their order. -/
theorem others_kept {env : Env (C U O)} {cfg : Config} {sheet : Except String (Sheet U O)} {as as' : List (Attr U O)}
    (h : element env cfg sheet as = .ok as') : as'.filter Attr.isOther = as.filter Attr.isOther := by
  cases sheet with
  | error e =>
    unfold element at h
    split at h
    · simp at h; rw [h]
    · split at h
      · simp at h; rw [h]
      · cases h
  | ok sheet =>
    rcases element_cases h with rfl | ⟨ops, t, l, m, out, bs, _, _, _, _, _, _, hbs, _, rfl⟩
    · rfl
    · rw [other_removeTransform, other_setData, (stroked_other hbs).2.1]

/-- **C51 (what is left alone).** A path with an id, with a `style` attribute, or with an attribute that refers to an id or
to something in the document, is left as it is. -/
theorem left_alone {env : Env (C U O)} {cfg : Config} {sheet : Except String (Sheet U O)} {as : List (Attr U O)}
    (h : .id ∈ as ∨ .style ∈ as ∨ (∃ name ids urls, .other name ids urls ∈ as ∧ (ids ≠ [] ∨ ∃ u ∈ urls, u.startsWith "#")) ∨
      ∃ u, .stroke (.is (.server u)) ∈ as ∧ u.startsWith "#") : element env cfg sheet as = .ok as := by
  have hs : as.any Attr.stops = true := by
    rw [List.any_eq_true]
    rcases h with h | h | ⟨name, ids, urls, h, hi⟩ | ⟨u, h, hu⟩
    · exact ⟨_, h, rfl⟩
    · exact ⟨_, h, rfl⟩
    · refine ⟨_, h, ?_⟩
      simp only [Attr.stops, Attr.ids, Attr.urls, Bool.or_eq_true, Bool.not_eq_true', List.isEmpty_eq_false_iff, List.any_eq_true]
      exact hi
    · exact ⟨_, h, by simp [Attr.stops, Attr.ids, Attr.urls, hu]⟩
  unfold element
  split
  · rfl
  · rw [hs]; rfl

/-- A transform that is not in CSS notation keeps its matrix on the way to a style and back. -/
theorem back_and_forth (env : Env (C U O)) (t : T (C U O)) (ht : ∀ c, t ≠ .css c) :
    ∃ u, fromCss env.cssMatrix t.toCss = some u ∧ u.toMatrix env = t.toMatrix env := by
  cases t with
  | css c => exact absurd rfl (ht c)
  | rotate a x y =>
    by_cases h : x = 0 ∧ y = 0
    · refine ⟨.rotate a 0 0, by simp [T.toCss, h, fromCss], by simp [T.toMatrix, h]⟩
    · refine ⟨.matrix ⟨cos (rad a), sin (rad a), -sin (rad a), cos (rad a), (1 - cos (rad a)) * x + sin (rad a) * y,
        (1 - cos (rad a)) * y - sin (rad a) * x⟩, ?_, ?_⟩
      · simp only [T.toCss, h, if_false, fromCss]
      · simp only [T.toMatrix, h, if_false]
  | _ => exact ⟨_, by simp only [T.toCss, fromCss], rfl⟩

theorem readCss_toCss (env : Env (C U O)) (l : List (T (C U O))) (hl : ∀ c, T.css c ∉ l) :
    ∃ us, readCss env (l.map T.toCss) = some us ∧ toMatrix env us = toMatrix env l := by
  have key : ∀ l : List (T (C U O)), (∀ c, T.css c ∉ l) → ∃ us, readCss env (l.map T.toCss) = some us ∧
      ∀ m, toMatrixFrom env m us = toMatrixFrom env m l := by
    intro l
    induction l with
    | nil => exact fun _ => ⟨[], rfl, fun _ => rfl⟩
    | cons t l ih =>
      intro hl
      obtain ⟨u, hu, hm⟩ := back_and_forth env t fun c hc => hl c (by simp [hc])
      obtain ⟨us, hus, hms⟩ := ih fun c hc => hl c (by simp [hc])
      simp only [readCss] at hus
      refine ⟨u :: us, by simp [readCss, List.mapM_cons, hu, hus], fun m => ?_⟩
      simp only [toMatrixFrom, hm]
      cases t.toMatrix env with
      | none => rfl
      | some n => exact hms _
  obtain ⟨us, h1, h2⟩ := key l hl
  exact ⟨us, h1, h2 _⟩

theorem similar_dichotomy {m : M} {s : ℝ} (h : Similar m.apply s) :
    (m.a = m.d ∧ m.b = -m.c) ∨ (m.a = -m.d ∧ m.b = m.c) := by
  have hs : 0 ≤ s := by
    have h1 := h (1, 0) 0
    have h2 : distance (1, 0) 0 = 1 := by simp [distance]
    rw [h2, mul_one] at h1
    exact h1 ▸ distance_nonneg _ _
  obtain ⟨h1, h2, h3⟩ := (similar_iff hs).1 h
  have h4 : (m.a * m.d - m.b * m.c - s ^ 2) * (m.a * m.d - m.b * m.c + s ^ 2) = 0 := by
    linear_combination (m.c ^ 2 + m.d ^ 2) * h1 + s ^ 2 * h2 - (m.a * m.c + m.b * m.d) * h3
  rcases mul_eq_zero.1 h4 with h5 | h5
  · left
    have h6 : (m.a - m.d) ^ 2 + (m.b + m.c) ^ 2 = 0 := by nlinarith
    constructor <;> nlinarith [sq_nonneg (m.a - m.d), sq_nonneg (m.b + m.c)]
  · right
    have h6 : (m.a + m.d) ^ 2 + (m.b - m.c) ^ 2 = 0 := by nlinarith
    constructor <;> nlinarith [sq_nonneg (m.a + m.d), sq_nonneg (m.b - m.c)]

theorem transform_of_filter {as : List (Attr U O)} {v : Val (List (T (C U O)))}
    (h : as.filter Attr.isTransform = [.transform v]) : as.findSome? Attr.transform? = some v := by
  induction as with
  | nil => cases h
  | cons a as ih => cases a with
    | transform w =>
      simp only [List.filter_cons, Attr.isTransform, Attr.transform?, Option.isSome_some, if_true, List.cons.injEq,
        Attr.transform.injEq] at h
      simp [Attr.transform?, List.findSome?_cons, h.1]
    | _ =>
      simp only [List.findSome?_cons, Attr.transform?]
      exact ih (by simpa [List.filter_cons, Attr.isTransform, Attr.transform?] using h)

theorem stops_false {as : List (Attr U O)}
    (hid : .id ∉ as ∧ .style ∉ as ∧ ∀ name ids urls, .other name ids urls ∈ as → ids = [] ∧ ∀ u ∈ urls, ¬ u.startsWith "#")
    (hst : ∀ u, .stroke (.is (.server u)) ∈ as → ¬ u.startsWith "#") : as.any Attr.stops = false := by
  rw [List.any_eq_false]
  intro a ha
  cases a with
  | id => exact absurd ha hid.1
  | style => exact absurd ha hid.2.1
  | other name ids urls =>
    obtain ⟨h1, h2⟩ := hid.2.2 name ids urls ha
    simp only [Attr.stops, Attr.ids, Attr.urls, h1, List.isEmpty_nil, Bool.not_true, Bool.false_or, List.any_eq_true, not_exists,
      not_and]
    exact h2
  | stroke v => cases v with
    | is p => cases p with
      | server u => simpa [Attr.stops, Attr.ids, Attr.urls] using hst u ha
      | _ => simp [Attr.stops, Attr.ids, Attr.urls]
    | _ => simp [Attr.stops, Attr.ids, Attr.urls]
  | _ => simp [Attr.stops, Attr.ids, Attr.urls]

/-- **C51 (the job does its work).** Where a path without an id, a `style` attribute and references has a transform in SVG's
notation and no other, and where it has no stroke or the transform is a similarity and the option is off, the transform is
gone afterwards. Data and arcs are to be such that there is a result (C45). -/
theorem applied {env : Env (C U O)} {css : C U O → Pt → Pt} (hcss : ∀ c m, env.cssMatrix c = some m → css c = m.apply)
    {cfg : Config} {sheet : Sheet U O} {as : List (Attr U O)}
    {ops : List Op} (hd : as.findSome? Attr.ops? = some ops)
    (hid : .id ∉ as ∧ .style ∉ as ∧ ∀ name ids urls, .other name ids urls ∈ as → ids = [] ∧ ∀ u ∈ urls, ¬ u.startsWith "#")
    (hst : ∀ u, .stroke (.is (.server u)) ∈ as → ¬ u.startsWith "#")
    {l : List (T (C U O))} (hne : l ≠ []) (ht : as.filter Attr.isTransform = [.transform (.is l)]) (hl : ∀ c, T.css c ∉ l)
    (hr : sheet.transform = none)
    (hstroke : (sheet.stroke.rule = none ∧ as.findSome? Attr.stroke? = none ∧ ∀ x ∈ sheet.stroke.above, x = none) ∨
      (cfg.stroked = false ∧ (∃ s, Similar (draw css l) s) ∧
        (∃ p, sheet.stroke.rule = none ∧ as.findSome? Attr.stroke? = some (.is p))))
    (hwidth : sheet.width.rule = none ∧ (∀ x ∈ sheet.width.above, ∀ v mode, x = some (v, mode) → mode = .static ∧ ∀ w, v ≠ .odd w) ∧
      ∀ w, as.findSome? Attr.width? ≠ some (.odd w))
    (harc : ∀ m : M, draw css l = m.apply → ∀ op ∈ ops, ∀ a, op.arc? = some a → det m ≠ 0 ∧ a.rx ≠ 0 ∧ a.ry ≠ 0 ∧
      ((a.gram.push m 1).gap = 0 ∨ 1 / 1000000 < (a.gram.push m 1).gap)) :
    ∃ as', element env cfg (.ok sheet) as = .ok as' ∧ ∀ v, .transform v ∉ as' := by
  have hstop := stops_false hid hst
  have htr := transform_of_filter ht
  obtain ⟨us, hread, hsame⟩ := readCss_toCss env l hl
  have hcon : contradicts env sheet l = .ok false := by
    simp [contradicts, hr, hread, hsame]
  obtain ⟨m, hm⟩ := Option.isSome_iff_exists.1 (toMatrix_isSome (env := env) l fun c hc => absurd hc (hl c))
  have hmove : draw css l = m.apply := funext fun q => (toMatrix_spec hcss _ m hm q).symm
  obtain ⟨out, hout⟩ := apply_some m ops (harc m hmove)
  have hus : unclear (computed sheet.stroke (as.findSome? Attr.stroke?)) = false := by
    rcases hstroke with ⟨h1, h2, h3⟩ | ⟨_, _, p, h1, h2⟩
    · have : sheet.stroke.above.findSome? id = none := by
        rw [List.findSome?_eq_none_iff]; intro x hx; rw [h3 x hx]; rfl
      simp [computed, h1, h2, this, unclear]
    · simp [computed, h1, h2, unclear]
  have huw : unclear (computed sheet.width (as.findSome? Attr.width?)) = false := by
    unfold computed
    rw [hwidth.1]
    cases hw : as.findSome? Attr.width? with
    | some v => cases v with
      | odd w => exact absurd hw (hwidth.2.2 w)
      | _ => simp [unclear]
    | none =>
      simp only [Option.map_none, Option.none_or]
      cases hf : sheet.width.above.findSome? id with
      | none => rfl
      | some x =>
        obtain ⟨v, mode⟩ := x
        obtain ⟨h1, h2⟩ := hwidth.2.1 _ (findSome_mem hf) v mode rfl
        subst h1
        cases v with
        | odd w => exact absurd rfl (h2 w)
        | _ => rfl
  have hbs : ∃ bs, stroked cfg sheet m as = some bs := by
    unfold stroked
    rw [strokeOf_eq]
    rcases hstroke with ⟨h1, h2, h3⟩ | ⟨hc, ⟨s, hs⟩, p, h1, h2⟩
    · have : sheet.stroke.above.findSome? id = none := by
        rw [List.findSome?_eq_none_iff]; intro x hx; rw [h3 x hx]; rfl
      simp [computed, h1, h2, this]
    · rw [hmove] at hs
      have hd := similar_dichotomy hs
      simp only [computed, h1, h2, Option.none_or, Option.map_some, Option.some_or, applyStroked, hc, Bool.false_eq_true, if_false]
      have hn : ¬ ((m.a ≠ m.d ∨ m.b ≠ -m.c) ∧ (m.a ≠ -m.d ∨ m.b ≠ m.c)) := by
        rintro ⟨h3, h4⟩
        rcases hd with ⟨h5, h6⟩ | ⟨h5, h6⟩
        · exact h3.elim (fun h => h h5) fun h => h h6
        · exact h4.elim (fun h => h h5) fun h => h h6
      cases p with
      | nothing => exact ⟨_, rfl⟩
      | _ =>
        simp only [hn, if_false]
        split
        · exact ⟨_, rfl⟩
        · split <;> exact ⟨_, rfl⟩
  obtain ⟨bs, hbs⟩ := hbs
  cases l with
  | nil => exact absurd rfl hne
  | cons t l =>
    refine ⟨removeTransform (setData out bs), ?_, fun v hv => ?_⟩
    · simp only [element, data_eq, hd, hstop, Bool.false_eq_true, if_false, transformOf_eq, htr, hcon, withTransform, strokeOf_eq,
        widthOf_eq, hus, huw, hm, hbs, finish, hout]
    · have h1 : (removeTransform (setData out bs)).findSome? Attr.transform? = none :=
        removeTransform_none (by rw [filter_setData, (stroked_other hbs).2.2, ht]; simp)
      have := List.findSome?_eq_none_iff.1 h1 _ hv
      simp [Attr.transform?] at this

/-- **C51 (failures).** The job fails only if the styles have a bad selector, if a rule sets a transform that no attribute can
hold, or if an arc cannot be transformed (C45). -/
theorem fails_only {env : Env (C U O)} {css : C U O → Pt → Pt} (hcss : ∀ c m, env.cssMatrix c = some m → css c = m.apply)
    {cfg : Config} {sheet : Except String (Sheet U O)} {as : List (Attr U O)} {e : String}
    (h : element env cfg sheet as = .error e) :
    sheet = .error e ∨ ∃ s, sheet = .ok s ∧
      ((∃ c mode, s.transform = some (c, mode) ∧ ∃ t ∈ c, fromCss env.cssMatrix t = none) ∨
        ∃ l m ops, as.findSome? Attr.transform? = some (.is l) ∧ draw css l = m.apply ∧ as.findSome? Attr.ops? = some ops ∧
          ∃ op ∈ ops, ∃ a, op.arc? = some a ∧ ¬ (det m ≠ 0 ∧ a.rx ≠ 0 ∧ a.ry ≠ 0 ∧
            ((a.gram.push m 1).gap = 0 ∨ 1 / 1000000 < (a.gram.push m 1).gap))) := by
  have hmap : ∀ c : List (C U O), readCss env c = none → ∃ t ∈ c, fromCss env.cssMatrix t = none := by
    intro c
    induction c with
    | nil => intro h; cases h
    | cons t c ih =>
      intro h
      cases ht : fromCss env.cssMatrix t with
      | none => exact ⟨t, by simp, ht⟩
      | some u =>
        cases hc : readCss env c with
        | none =>
          obtain ⟨t', ht', h'⟩ := ih hc
          exact ⟨t', by simp [ht'], h'⟩
        | some us =>
          simp only [readCss] at hc h
          simp [List.mapM_cons, ht, hc] at h
  unfold element at h
  rw [data_eq, transformOf_eq] at h
  split at h
  · cases h
  · rename_i ops hd
    split at h
    · cases h
    · cases sheet with
      | error e' => left; simpa using h
      | ok s =>
        refine Or.inr ⟨s, rfl, ?_⟩
        simp only at h
        split at h
        · rename_i t l ht
          split at h
          · rename_i e' hc
            left
            unfold contradicts at hc
            split at hc
            · rename_i c mode hs
              split at hc
              · rename_i hr
                exact ⟨c, mode, hs, hmap c hr⟩
              · cases hc
            · cases hc
          · cases h
          · unfold withTransform at h
            split at h
            · cases h
            split at h
            · cases h
            split at h
            · cases h
            rename_i m hm
            split at h
            · cases h
            unfold finish at h
            split at h
            · rename_i hout
              right
              refine ⟨_, m, ops, ht, funext fun q => (toMatrix_spec hcss _ m hm q).symm, hd, ?_⟩
              by_contra hno
              push Not at hno
              obtain ⟨out, ho⟩ := apply_some m ops fun op hop a ha => by
                have := hno op hop a ha
                exact this
              rw [hout] at ho
              cases ho
            · cases h
        · cases h

end

end Verif.Stroke
