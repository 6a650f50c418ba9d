import Verif.Retain.Lemmas

/-!
# C54: removing attributes that say nothing
-/

namespace Verif.Retain

open Verif.Tree Verif.Names
open Verif.Unknowns (Key Val Attr AId E El Item Run property inheritedProperties otherProperties inlineBlock own styleOf content
  elementOf)
open Verif.Viewport (edit editAll)

variable {Sel C : Type}

/-! ## Styles -/

theorem findSome?_filter_of {A B : Type} (f : A → Option B) (p : A → Bool) (l : List A)
    (h : ∀ a ∈ l, p a = false → f a = none) : (l.filter p).findSome? f = l.findSome? f := by
  induction l with
  | nil => rfl
  | cons a l ih =>
    have ih := ih fun b hb => h b (by simp [hb])
    cases hp : p a with
    | true => rw [List.filter_cons_of_pos hp, List.findSome?_cons, List.findSome?_cons, ih]
    | false => rw [List.filter_cons_of_neg (by simp [hp]), List.findSome?_cons, h a (by simp) hp, ih]

/-- Elements that say the same about a property. -/
def Says (k : Key) (e e' : E) : Prop :=
  Cascade.valuesOf k (e'.2.filterMap property) = Cascade.valuesOf k (e.2.filterMap property) ∧
  (e'.2.findSome? inlineBlock).getD ⟨[], []⟩ = (e.2.findSome? inlineBlock).getD ⟨[], []⟩

theorem specified_says (r : Run Sel C) (fonts : Val → List (Key × Val)) (holds : C → Bool) (k : Key) (e e' : E)
    (cs cs' : List E) (ht : ∀ s, r.test [s] (e' :: cs') = r.test [s] (e :: cs)) (h : Says k e e') :
    Cascade.specified r.test (own fonts) (Unknowns.expandRules fonts r.rules) holds (e' :: cs') k =
      Cascade.specified r.test (own fonts) (Unknowns.expandRules fonts r.rules) holds (e :: cs) k := by
  obtain ⟨h1, h2⟩ := h
  unfold Cascade.specified
  rw [Unknowns.appliedAll_congr r.test holds (e' :: cs') (e :: cs) ht]
  have h3 : ∀ (pick : Cascade.Block Key Val → List (Key × Val)), pick ⟨[], []⟩ = [] →
      ((own fonts (e' :: cs')).inline.map pick).getD [] = ((own fonts (e :: cs)).inline.map pick).getD [] := by
    intro pick hp
    have h0 : ∀ o : Option (Cascade.Block Key Val), ((o.map (Unknowns.expandBlock fonts)).map pick).getD [] =
        pick (Unknowns.expandBlock fonts (o.getD ⟨[], []⟩)) := by
      intro o
      cases o with
      | none => simp [Unknowns.expandBlock, hp]
      | some b => rfl
    simp only [own, h0, h2]
  rw [h3 (·.important) rfl, h3 (·.declarations) rfl]
  have h4 : Cascade.valuesOf k (own fonts (e' :: cs')).attr = Cascade.valuesOf k (own fonts (e :: cs)).attr := h1
  rw [h4]

theorem style_says (r : Run Sel C) (fonts : Val → List (Key × Val)) (holds : C → Bool) (k : Key) (g : E → E) : ∀ c : List E,
    (∀ ss s, r.test ss (s.map g) = r.test ss s) →
    (∀ e ∈ (if k ∈ inheritedProperties then c else c.take 1), Says k e (g e)) →
    styleOf r fonts holds (c.map g) k = styleOf r fonts holds c k
  | [], _, _ => rfl
  | e :: cs, ht, h => by
    rw [List.map_cons, styleOf, styleOf,
      specified_says r fonts holds k e (g e) cs (cs.map g) (fun s => ht [s] (e :: cs))
        (h e (by split <;> simp))]
    split
    · next hk =>
      rw [style_says r fonts holds k g cs ht (by
        intro x hx
        rw [if_pos hk] at hx
        exact h x (by rw [if_pos hk]; simp [hx]))]
    · rfl

/-! ## Empty attributes -/

/-- The attribute says something: it has a value, or it is a condition. -/
def Spoken : Attr → Prop
  | .style b => b.declarations ≠ [] ∨ b.important ≠ []
  | .plain (.known k) v => k ∈ [Key.RequiredFeatures, .RequiredExtensions, .SystemLanguage] ∨ v ≠ .parts []
  | .plain (.other _ _) v => v ≠ .parts []

theorem conditional_iff (k : Key) :
    Unknowns.Group.ConditionalProcessing ∈ k.groups ↔ k ∈ [Key.RequiredFeatures, .RequiredExtensions, .SystemLanguage] := by
  cases k <;> decide

theorem keepsFilled_iff (a : Attr) : keepsFilled a = true ↔ Spoken a := by
  match a with
  | .style b =>
    simp only [keepsFilled, isEmpty, Spoken, ne_eq, Bool.not_eq_true', Bool.and_eq_false_iff]
    simp [List.isEmpty_eq_false_iff]
  | .plain (.known k) v => simp [keepsFilled, isEmpty, Spoken, conditional_iff]
  | .plain (.other _ _) v => simp [keepsFilled, isEmpty, Spoken]

/-- What is done to an element by `removeEmptyAttrs`. -/
def filled (_ : EName) (as : List Attr) : List Attr := as.filter keepsFilled

theorem empty_along (on : Bool) (doc : List (Node Attr)) (P : List E → List E → Prop)
    (h : on = true → ∀ c, .elem c ∈ content doc → P c (c.map (onAttrs filled)))
    (h' : on = false → ∀ c, .elem c ∈ content doc → P c c) :
    List.Forall₂ (Along P) (content doc) (content (removeEmptyAttrs on doc)) := by
  unfold removeEmptyAttrs
  split
  · next ho => exact along_edit filled doc P (h ho)
  · next ho => exact along_same doc P (h' (by simpa using ho))

open Classical in
/-- **C54 (exactly the empty attributes are removed).** `removeEmptyAttrs` removes the attributes of all elements that have no
value, but for conditions, and changes nothing else. -/
theorem empty_removed (on : Bool) (doc : List (Node Attr)) :
    List.Forall₂ (Along (List.Forall₂ fun e e' =>
      e'.1 = e.1 ∧ e'.2 = if on then e.2.filter (fun a => decide (Spoken a)) else e.2))
      (content doc) (content (removeEmptyAttrs on doc)) := by
  apply empty_along
  · rintro rfl c _
    rw [List.forall₂_map_right_iff, List.forall₂_same]
    intro e _
    refine ⟨rfl, ?_⟩
    simp only [onAttrs, filled, if_true]
    congr 1
    funext a
    rw [Bool.eq_iff_iff, keepsFilled_iff, decide_eq_true_eq]
  · rintro rfl c _
    rw [List.forall₂_same]
    exact fun e _ => ⟨rfl, rfl⟩

theorem label_filled (e : E) : label (onAttrs filled e) = label e := by
  unfold label onAttrs filled
  simp only [Prod.mk.injEq, true_and]
  apply Unknowns.filterMap_filter_of
  intro a _ h
  have h0 : ¬ Spoken a := by rw [← keepsFilled_iff]; simp [h]
  match a, h0 with
  | .style _, _ => rfl
  | .plain (.other _ _) _, _ => rfl
  | .plain (.known k) v, h0 =>
    simp only [Spoken, not_or, ne_eq, not_not] at h0
    obtain ⟨_, rfl⟩ := h0
    split <;> first | rfl | simp_all

theorem label_valid (e : E) : label (valid e) = label e := by
  unfold label valid
  simp only [Prod.mk.injEq, true_and]
  apply Unknowns.filterMap_filter_of
  intro a _ h
  have h0 : Invalid a := by simpa using h
  obtain ⟨k, hk⟩ := h0
  match a, hk with
  | .plain (.known l) v, hk =>
    simp only [property] at hk
    split at hk
    · next hl =>
      have h1 : Key.Class ∉ inheritedProperties ∧ Key.Class ∉ otherProperties := by decide
      have h2 : Key.Id ∉ inheritedProperties ∧ Key.Id ∉ otherProperties := by decide
      split
      · next h3 =>
        cases h3
        exact absurd hl (by rintro (h | h); exacts [h1.1 h, h1.2 h])
      · next h3 =>
        cases h3
        exact absurd hl (by rintro (h | h); exacts [h2.1 h, h2.2 h])
      · rfl
    · simp at hk

theorem inline_filled (e : E) (h : (e.2.map idOf).Nodup) :
    ((onAttrs filled e).2.findSome? inlineBlock).getD ⟨[], []⟩ = (e.2.findSome? inlineBlock).getD ⟨[], []⟩ := by
  obtain ⟨n, as⟩ := e
  simp only [onAttrs, filled] at h ⊢
  induction as with
  | nil => rfl
  | cons a as ih =>
    rw [List.map_cons, List.nodup_cons] at h
    have ih := ih h.2
    match a with
    | .plain i v =>
      rw [List.filter_cons]
      split
      · rw [List.findSome?_cons, List.findSome?_cons]
        exact ih
      · rw [List.findSome?_cons]
        exact ih
    | .style b =>
      have hn : ∀ l : List Attr, (none : Option AId) ∉ l.map idOf → l.findSome? inlineBlock = none := by
        intro l hl
        rw [List.findSome?_eq_none_iff]
        intro x hx
        match x with
        | .plain _ _ => rfl
        | .style b' => exact absurd (List.mem_map.mpr ⟨_, hx, rfl⟩) hl
      rw [List.filter_cons]
      split
      · rw [List.findSome?_cons, List.findSome?_cons]
        rfl
      · next hk =>
        have h0 : ¬ Spoken (.style b) := by rw [← keepsFilled_iff]; exact hk
        simp only [Spoken, not_or, ne_eq, not_not] at h0
        have h1 : b = ⟨[], []⟩ := by
          cases b
          simpa using h0
        have h2 : (as.filter keepsFilled).findSome? inlineBlock = none := by
          apply hn
          intro hm
          rw [List.mem_map] at hm
          obtain ⟨x, hx, hx'⟩ := hm
          exact h.1 (List.mem_map.mpr ⟨x, List.mem_of_mem_filter hx, hx'⟩)
        rw [h2, h1]
        rfl

theorem valid_filled (e : E) : valid (onAttrs filled e) = onAttrs filled (valid e) := by
  simp [valid, onAttrs, filled, List.filter_filter, Bool.and_comm]

theorem says_filled (k : Key) (e : E) (h : (e.2.map idOf).Nodup) : Says k (valid e) (onAttrs filled (valid e)) := by
  constructor
  · congr 1
    apply Unknowns.filterMap_filter_of
    intro a ha hk
    have h0 : ¬ Spoken a := by rw [← keepsFilled_iff]; simp [hk]
    have h1 : ¬ Invalid a := by simpa [valid] using (List.mem_filter.mp ha).2
    match a, h0, h1 with
    | .style _, _, _ => rfl
    | .plain (.other _ _) _, _, _ => rfl
    | .plain (.known l) v, h0, h1 =>
      simp only [Spoken, not_or, ne_eq, not_not] at h0
      obtain ⟨_, rfl⟩ := h0
      simp only [property]
      split
      · next hl => exact absurd ⟨l, by simp [property, hl]⟩ h1
      · rfl
  · apply inline_filled
    exact h.sublist (List.Sublist.map _ List.filter_sublist)

/-- **C54 (empty attributes: no property changes).** For all documents, options and rules whose selectors ask for names,
classes and ids: after `removeEmptyAttrs` all elements have the values they had for all properties. -/
theorem empty_styles (on : Bool) (doc : List (Node Attr)) (hw : Wellformed doc) (r : Run Sel C)
    (hs : ∀ ss c c', c.map label = c'.map label → r.test ss c = r.test ss c')
    (fonts : Val → List (Key × Val)) (holds : C → Bool) (k : Key) :
    List.Forall₂ (Along fun c c' => shown r fonts holds c' k = shown r fonts holds c k)
      (content doc) (content (removeEmptyAttrs on doc)) := by
  apply empty_along
  · rintro _ c hc
    unfold shown
    have : (c.map (onAttrs filled)).map valid = (c.map valid).map (onAttrs filled) := by
      simp [List.map_map, Function.comp_def, valid_filled]
    rw [this]
    apply style_says
    · intro ss s
      apply hs
      simp [List.map_map, Function.comp_def, label_filled]
    · intro e he
      have he : e ∈ c.map valid := by
        split at he
        · exact he
        · exact List.mem_of_mem_take he
      obtain ⟨x, hx, rfl⟩ := List.mem_map.mp he
      obtain ⟨cs, hcs⟩ := content_ancestor doc c hc x hx
      exact says_filled k x (hw x cs hcs)
  · exact fun _ _ _ => rfl

theorem valueOf_filled (k : Key) (n : EName) (as : List Attr)
    (h : k ∈ [Key.RequiredFeatures, .RequiredExtensions, .SystemLanguage] ∨ .plain (.known k) (.parts []) ∉ as) :
    valueOf k (filled n as) = valueOf k as := by
  unfold valueOf filled
  apply findSome?_filter_of
  intro a ha hk
  have h0 : ¬ Spoken a := by rw [← keepsFilled_iff]; simp [hk]
  match a, h0 with
  | .style _, _ => rfl
  | .plain (.other _ _) _, _ => rfl
  | .plain (.known l) v, h0 =>
    simp only [Spoken, not_or, ne_eq, not_not] at h0
    obtain ⟨h1, rfl⟩ := h0
    simp only [ite_eq_right_iff, reduceCtorEq, imp_false]
    rintro rfl
    exact h.elim h1 (fun h => h ha)

/-- **C54 (empty attributes: conditions stay).** `removeEmptyAttrs` does not change which elements are shown by
`requiredExtensions`, `systemLanguage` and so on, whatever is required. -/
theorem empty_conditions (on : Bool) (doc : List (Node Attr)) (met : Key → Val → Bool) :
    List.Forall₂ (Along (List.Forall₂ fun e e' => passes met e' ↔ passes met e))
      (content doc) (content (removeEmptyAttrs on doc)) := by
  apply empty_along
  · rintro _ c _
    rw [List.forall₂_map_right_iff, List.forall₂_same]
    intro e _
    unfold passes
    refine forall₂_congr fun k hk => ?_
    have : valueOf k (onAttrs filled e).2 = valueOf k e.2 := valueOf_filled k e.1 e.2 (.inl hk)
    rw [this]
  · rintro _ c _
    rw [List.forall₂_same]
    exact fun _ _ => Iff.rfl

/-- An attribute that is there without a value. -/
def Blank (k : Key) (e : E) : Prop := .plain (.known k) (.parts []) ∈ e.2

theorem language_filled : ∀ c : List E, (∀ e ∈ c, ¬ Blank .Lang e ∧ ¬ Blank .XmlLang e) →
    language (c.map (onAttrs filled)) = language c
  | [], _ => rfl
  | e :: cs, h => by
    have h1 := h e (by simp)
    have e1 : valueOf .XmlLang (onAttrs filled e).2 = valueOf .XmlLang e.2 := valueOf_filled _ e.1 e.2 (.inr h1.2)
    have e2 : valueOf .Lang (onAttrs filled e).2 = valueOf .Lang e.2 := valueOf_filled _ e.1 e.2 (.inr h1.1)
    rw [List.map_cons, language, language, e1, e2, language_filled cs fun x hx => h x (by simp [hx])]

theorem namespace_filled : ∀ c : List E, (∀ e ∈ c, ¬ Blank .XMLNS e) →
    defaultNamespace (c.map (onAttrs filled)) = defaultNamespace c
  | [], _ => rfl
  | e :: cs, h => by
    have e1 : valueOf .XMLNS (onAttrs filled e).2 = valueOf .XMLNS e.2 := valueOf_filled _ e.1 e.2 (.inr (h e (by simp)))
    rw [List.map_cons, defaultNamespace, defaultNamespace, e1, namespace_filled cs fun x hx => h x (by simp [hx])]

/-- **C54 (empty attributes: languages, namespaces and animations), partial.** After `removeEmptyAttrs` elements have the language
they had if no `lang` or `xml:lang` around them is empty, the default namespace they had if no `xmlns` is, and animations do
what they did if they have no empty list of values and no empty value to begin or end with. -/
theorem empty_meaning_partial (on : Bool) (doc : List (Node Attr)) :
    List.Forall₂ (Along fun c c' =>
      ((∀ e ∈ c, ¬ Blank .Lang e ∧ ¬ Blank .XmlLang e) → language c' = language c) ∧
      ((∀ e ∈ c, ¬ Blank .XMLNS e) → defaultNamespace c' = defaultNamespace c) ∧
      List.Forall₂ (fun e e' => (¬ Blank .ValuesAnimate e ∧ ¬ Blank .From e ∧ ¬ Blank .To e ∧ ¬ Blank .By e) →
        course e' = course e) c c')
      (content doc) (content (removeEmptyAttrs on doc)) := by
  apply empty_along
  · rintro _ c _
    refine ⟨language_filled c, namespace_filled c, ?_⟩
    rw [List.forall₂_map_right_iff, List.forall₂_same]
    rintro e _ ⟨h1, h2, h3, h4⟩
    have e1 : ∀ k, ¬ Blank k e → valueOf k (onAttrs filled e).2 = valueOf k e.2 :=
      fun k hk => valueOf_filled k e.1 e.2 (.inr hk)
    unfold course
    rw [e1 _ h1, e1 _ h2, e1 _ h3, e1 _ h4]
  · rintro _ c _
    refine ⟨fun _ => rfl, fun _ => rfl, ?_⟩
    rw [List.forall₂_same]
    exact fun _ _ _ => rfl

/-! ## Attributes of groups -/

theorem keepsOnGroup_iff (k : Key) (v : Val) :
    keepsOnGroup (.plain (.known k) v) = true ↔ k ≠ .VectorEffect ∧ k ≠ .TransformOrigin := by
  cases k <;> simp only [keepsOnGroup] <;> decide

theorem group_along (on : Bool) (doc : List (Node Attr)) (P : List E → List E → Prop)
    (h : on = true → ∀ c, .elem c ∈ content doc → P c (c.map (onAttrs groupHook)))
    (h' : on = false → ∀ c, .elem c ∈ content doc → P c c) :
    List.Forall₂ (Along P) (content doc) (content (removeGroupAttrs on doc)) := by
  unfold removeGroupAttrs
  split
  · next ho => exact along_edit groupHook doc P (h ho)
  · next ho => exact along_same doc P (h' (by simpa using ho))

/-- The attribute is `vector-effect` or `transform-origin`. -/
def Ungrouped (a : Attr) : Prop := ∃ v, a = .plain (.known .VectorEffect) v ∨ a = .plain (.known .TransformOrigin) v

theorem ungrouped_iff (a : Attr) : keepsOnGroup a = true ↔ ¬ Ungrouped a := by
  match a with
  | .style _ => simp [keepsOnGroup, Ungrouped]
  | .plain (.other _ _) _ => simp [keepsOnGroup, Ungrouped]
  | .plain (.known k) v =>
    rw [keepsOnGroup_iff]
    simp only [Ungrouped, Attr.plain.injEq, AId.known.injEq, exists_or, exists_eq_right', not_or]

open Classical in
/-- **C54 (what is removed from groups).** `removeNonInheritableGroupAttrs` removes the attributes `vector-effect` and
`transform-origin` of groups, and changes nothing else. -/
theorem group_removed (on : Bool) (doc : List (Node Attr)) :
    List.Forall₂ (Along (List.Forall₂ fun e e' => e'.1 = e.1 ∧
      e'.2 = if on ∧ elementOf e.1 = some .G then e.2.filter (fun a => decide (¬ Ungrouped a)) else e.2))
      (content doc) (content (removeGroupAttrs on doc)) := by
  apply group_along
  · rintro rfl c _
    rw [List.forall₂_map_right_iff, List.forall₂_same]
    intro e _
    refine ⟨rfl, ?_⟩
    simp only [onAttrs, groupHook, true_and]
    split
    · congr 1
      funext a
      rw [Bool.eq_iff_iff, ungrouped_iff, decide_eq_true_eq]
    · rfl
  · rintro rfl c _
    rw [List.forall₂_same]
    exact fun e _ => ⟨rfl, by simp⟩

theorem badge_group (e : E) : Unknowns.badge (onAttrs groupHook e) = Unknowns.badge e := by
  unfold Unknowns.badge onAttrs groupHook
  simp only [Prod.mk.injEq, true_and]
  split
  · apply Unknowns.filterMap_filter_of
    intro a _ h
    have h0 : ¬ keepsOnGroup a = true := by simp [h]
    rw [ungrouped_iff, not_not] at h0
    obtain ⟨v, rfl | rfl⟩ := h0 <;> rfl
  · rfl

theorem says_group (k : Key) (e : E) (h : elementOf e.1 ≠ some .G ∨ (k ≠ .VectorEffect ∧ k ≠ .TransformOrigin)) :
    Says k e (onAttrs groupHook e) := by
  unfold Says onAttrs groupHook
  simp only
  split
  · next hg =>
    have hk := h.resolve_left (fun h => h hg)
    constructor
    · unfold Cascade.valuesOf
      rw [List.filterMap_filterMap, List.filterMap_filterMap]
      apply Unknowns.filterMap_filter_of
      intro a _ h
      have h0 : ¬ keepsOnGroup a = true := by simp [h]
      rw [ungrouped_iff, not_not] at h0
      have h1 : Key.VectorEffect ∈ otherProperties := by decide
      have h2 : Key.TransformOrigin ∈ otherProperties := by decide
      obtain ⟨v, rfl | rfl⟩ := h0
      · simp [property, h1, Ne.symm hk.1]
      · simp [property, h2, Ne.symm hk.2]
    · congr 1
      apply findSome?_filter_of
      intro a _ h
      have h0 : ¬ keepsOnGroup a = true := by simp [h]
      rw [ungrouped_iff, not_not] at h0
      obtain ⟨v, rfl | rfl⟩ := h0 <;> rfl
  · exact ⟨rfl, rfl⟩

/-- **C54 (groups: no property of other elements changes), partial.** For all documents and rules whose selectors ask for
names, classes and ids: after `removeNonInheritableGroupAttrs` all elements have the values they had for all properties,
but for `vector-effect` and `transform-origin` of groups. Values that refer to the parent's are not resolved. -/
theorem group_styles_partial (on : Bool) (doc : List (Node Attr)) (r : Run Sel C)
    (hs : ∀ ss c c', c.map Unknowns.badge = c'.map Unknowns.badge → r.test ss c = r.test ss c')
    (fonts : Val → List (Key × Val)) (holds : C → Bool) (k : Key) :
    List.Forall₂ (Along fun c c' =>
      ((∀ e cs, c = e :: cs → elementOf e.1 ≠ some .G) ∨ (k ≠ .VectorEffect ∧ k ≠ .TransformOrigin)) →
      styleOf r fonts holds c' k = styleOf r fonts holds c k)
      (content doc) (content (removeGroupAttrs on doc)) := by
  apply group_along
  · rintro _ c hc h
    apply style_says
    · intro ss s
      apply hs
      simp [List.map_map, Function.comp_def, badge_group]
    · intro e he
      apply says_group
      rcases h with h | h
      · by_cases hk : k ≠ .VectorEffect ∧ k ≠ .TransformOrigin
        · exact .inr hk
        · left
          have hi : k ∉ inheritedProperties := by
            have h1 : Key.VectorEffect ∉ inheritedProperties := by decide
            have h2 : Key.TransformOrigin ∉ inheritedProperties := by decide
            rintro hi
            apply hk
            exact ⟨fun h => h1 (h ▸ hi), fun h => h2 (h ▸ hi)⟩
          rw [if_neg hi] at he
          cases c with
          | nil => simp at he
          | cons x xs =>
            simp at he
            subst he
            exact h e xs rfl
      · exact .inr h
  · exact fun _ _ _ _ => rfl

/-! ## Deprecated attributes -/

theorem pre_cases (k : Key) : (k.pre = none) ∨ k.pre = some "xml" ∧ (k = .XmlBase ∨ k = .XmlLang ∨ k = .XmlSpace) ∨
    k.pre = some "xlink" ∧ k.outdated = false ∧ k.discouraged = false := by
  by_cases h : k.pre = none
  · exact .inl h
  · right
    unfold Key.pre at h
    split at h
    · exact .inr ⟨rfl, rfl, rfl⟩
    · exact .inr ⟨rfl, rfl, rfl⟩
    · exact .inr ⟨rfl, rfl, rfl⟩
    · exact .inr ⟨rfl, rfl, rfl⟩
    · exact .inr ⟨rfl, rfl, rfl⟩
    · exact .inr ⟨rfl, rfl, rfl⟩
    · exact .inr ⟨rfl, rfl, rfl⟩
    · exact .inl ⟨rfl, .inl rfl⟩
    · exact .inl ⟨rfl, .inr (.inl rfl)⟩
    · exact .inl ⟨rfl, .inr (.inr rfl)⟩
    · simp at h

/-- What the job takes away. -/
def Dropped (removeAny : Bool) (names : List (Option Str × Str)) (as : List Attr) (a : Attr) : Prop :=
  ∃ k v, a = .plain (.known k) v ∧ containsQual names k = false ∧
    (k.outdated = true ∨ (removeAny = true ∧ k.discouraged = true) ∨
      (k = .XmlLang ∧ ∃ w, .plain (.known .Lang) w ∈ as))

theorem any_isKey (k : Key) (as : List Attr) : as.any (isKey k) = true ↔ ∃ v, .plain (.known k) v ∈ as := by
  rw [List.any_eq_true]
  constructor
  · rintro ⟨a, ha, h⟩
    match a, h with
    | .plain (.known l) v, h =>
      simp only [isKey, decide_eq_true_eq] at h
      subst h
      exact ⟨v, ha⟩
  · rintro ⟨v, hv⟩
    exact ⟨_, hv, by simp [isKey]⟩

theorem keepsCurrent_false (removeAny : Bool) (names : List (Option Str × Str)) (as : List Attr) (a : Attr)
    (h : keepsCurrent removeAny names a = false) : Dropped removeAny names as a := by
  match a, h with
  | .plain (.known k) v, h =>
    simp only [keepsCurrent] at h
    split at h
    · simp at h
    · next hc =>
      refine ⟨k, v, rfl, by simpa using hc, ?_⟩
      simp only [Bool.not_eq_false', Bool.or_eq_true, Bool.and_eq_true] at h
      exact h.elim .inl (fun h => .inr (.inl h))

theorem deprecated_sublist (removeAny : Bool) (names : List (Option Str × Str)) (as : List Attr) :
    (deprecatedHook removeAny names as).Sublist as := by
  unfold deprecatedHook
  simp only
  split
  · exact List.filter_sublist.trans List.eraseP_sublist
  · exact List.filter_sublist

theorem isKey_iff (k : Key) (a : Attr) : isKey k a = true ↔ ∃ v, a = .plain (.known k) v := by
  match a with
  | .style _ => simp [isKey]
  | .plain (.other _ _) _ => simp [isKey]
  | .plain (.known l) v => simp [isKey]

theorem deprecated_dropped (removeAny : Bool) (names : List (Option Str × Str)) (as : List Attr) (a : Attr) (ha : a ∈ as)
    (h : a ∉ deprecatedHook removeAny names as) : Dropped removeAny names as a := by
  unfold deprecatedHook at h
  simp only at h
  by_cases hk : keepsCurrent removeAny names a = true
  · have h1 : a ∉ (if as.any (isKey .XmlLang) && as.any (isKey .Lang) && !containsQual names .XmlLang
        then as.eraseP (isKey .XmlLang) else as) := fun h' => h (List.mem_filter.mpr ⟨h', hk⟩)
    split at h1
    · next hc =>
      simp only [Bool.and_eq_true, any_isKey, Bool.not_eq_true'] at hc
      by_cases hx : isKey .XmlLang a = true
      · obtain ⟨v, rfl⟩ := (isKey_iff _ _).mp hx
        exact ⟨_, v, rfl, hc.2, .inr (.inr ⟨rfl, hc.1.2⟩)⟩
      · exact absurd ((List.mem_eraseP_of_neg hx).mpr ha) h1
    · exact absurd ha h1
  · exact keepsCurrent_false removeAny names as a (by simpa using hk)

theorem dropped_deprecated (removeAny : Bool) (names : List (Option Str × Str)) (as : List Attr) (hw : (as.map idOf).Nodup)
    (a : Attr) (h : Dropped removeAny names as a) : a ∉ deprecatedHook removeAny names as := by
  obtain ⟨k, v, rfl, hc, h⟩ := h
  unfold deprecatedHook
  simp only [List.mem_filter, not_and, Bool.not_eq_true]
  intro hm
  rcases h with h | h | ⟨rfl, w, hw'⟩
  · simp [keepsCurrent, hc, h]
  · simp [keepsCurrent, hc, h]
  · by_cases hx : as.any (isKey .XmlLang) = true
    · have h1 : as.any (isKey .Lang) = true := (any_isKey _ _).mpr ⟨w, hw'⟩
      rw [if_pos (by simp [hx, h1, hc])] at hm
      exfalso
      clear hx h1 hw' hc
      induction as with
      | nil => simp at hm
      | cons b as ih =>
        rw [List.map_cons, List.nodup_cons] at hw
        rw [List.eraseP_cons] at hm
        cases hb : isKey .XmlLang b with
        | true =>
          simp only [hb, cond_true] at hm
          obtain ⟨u, rfl⟩ := (isKey_iff _ _).mp hb
          exact hw.1 (List.mem_map.mpr ⟨_, hm, rfl⟩)
        | false =>
          simp only [hb, cond_false] at hm
          rcases List.mem_cons.mp hm with h | h
          · subst h
            simp [isKey] at hb
          · exact ih hw.2 h
    · rw [if_neg (by simp [hx])] at hm
      exact absurd ((any_isKey _ _).mpr ⟨v, hm⟩) hx

theorem deprecated_along (removeAny : Bool) (sheet : List (List Comp)) (doc : List (Node Attr))
    (P : List E → List E → Prop)
    (h : ∀ c, .elem c ∈ content doc → P c (c.map (onAttrs fun _ => deprecatedHook removeAny (extract sheet)))) :
    List.Forall₂ (Along P) (content doc) (content (removeDeprecatedAttrs removeAny sheet doc)) :=
  along_edit (fun _ => deprecatedHook removeAny (extract sheet)) doc P h

/-- A selector names an attribute: `[a]` and `[a=…]` do so, `[p|a]` does with the same prefix. Presence is asked for in
lower case. What is within `:not` is not looked at. -/
def Names (sheet : List (List Comp)) (k : Key) : Prop :=
  ∃ s ∈ sheet, ∃ c ∈ s,
    (k.pre = none ∧ ((∃ n, c = .present n ∧ lower n = lit k.loc) ∨ ∃ ask, c = .valued (lit k.loc) ask ∨
      c = .other .absent (lit k.loc) ask ∨ c = .other .any (lit k.loc) ask)) ∨
    ∃ p uri ask, k.pre = some p ∧ c = .other (.bound (lit p) uri) (lit k.loc) ask

theorem names_iff (sheet : List (List Comp)) (k : Key) : containsQual (extract sheet) k = true ↔ Names sheet k := by
  unfold containsQual extract Names
  simp only [List.any_flatMap, List.any_eq_true, Bool.and_eq_true, decide_eq_true_eq, List.mem_filterMap]
  constructor
  · rintro ⟨s, hs, x, ⟨c, hc, hx⟩, h1, h2⟩
    refine ⟨s, hs, c, hc, ?_⟩
    match c, hx with
    | .present n, hx =>
      simp only [collected, Option.some.injEq] at hx
      subst hx
      left
      exact ⟨by cases hp : k.pre <;> simp_all, .inl ⟨n, rfl, h2⟩⟩
    | .valued n ask, hx =>
      simp only [collected, Option.some.injEq] at hx
      subst hx
      left
      exact ⟨by cases hp : k.pre <;> simp_all, .inr ⟨ask, .inl (by rw [← h2])⟩⟩
    | .other .absent n ask, hx =>
      simp only [collected, Option.some.injEq] at hx
      subst hx
      left
      exact ⟨by cases hp : k.pre <;> simp_all, .inr ⟨ask, .inr (.inl (by rw [← h2]))⟩⟩
    | .other .any n ask, hx =>
      simp only [collected, Option.some.injEq] at hx
      subst hx
      left
      exact ⟨by cases hp : k.pre <;> simp_all, .inr ⟨ask, .inr (.inr (by rw [← h2]))⟩⟩
    | .other (.bound p uri) n ask, hx =>
      simp only [collected, Option.some.injEq] at hx
      subst hx
      right
      cases hp : k.pre with
      | none => simp [hp] at h1
      | some q =>
        simp only [hp, Option.map_some, Option.some.injEq] at h1
        exact ⟨q, uri, ask, rfl, by rw [← h1, ← h2]⟩
    | .without _, hx => simp [collected] at hx
    | .rest _, hx => simp [collected] at hx
  · rintro ⟨s, hs, c, hc, ⟨hp, h⟩ | ⟨p, uri, ask, hp, rfl⟩⟩
    · refine ⟨s, hs, (none, lit k.loc), ⟨c, hc, ?_⟩, by simp [hp], rfl⟩
      rcases h with ⟨n, rfl, h⟩ | ⟨ask, rfl | rfl | rfl⟩
      · simp [collected, h]
      · rfl
      · rfl
      · rfl
    · exact ⟨s, hs, (some (lit p), lit k.loc), ⟨_, hc, rfl⟩, by simp [hp], rfl⟩

/-- **C54 (exactly what is removed as deprecated).** `removeDeprecatedAttrs` removes those attributes that no selector names and that
are `version`, or `xml:lang` beside `lang`, or, if `removeAny` is given, one of the others that are deprecated. The order
of the others is kept, and nothing else changes. -/
theorem deprecated_removed (removeAny : Bool) (sheet : List (List Comp)) (doc : List (Node Attr)) (hw : Wellformed doc) :
    List.Forall₂ (Along (List.Forall₂ fun e e' => e'.1 = e.1 ∧ e'.2.Sublist e.2 ∧ ∀ a ∈ e.2, a ∉ e'.2 ↔
      ∃ k v, a = .plain (.known k) v ∧ ¬ Names sheet k ∧
        (k = .Version ∨ (removeAny = true ∧ k.discouraged = true) ∨ (k = .XmlLang ∧ ∃ w, .plain (.known .Lang) w ∈ e.2))))
      (content doc) (content (removeDeprecatedAttrs removeAny sheet doc)) := by
  apply deprecated_along
  intro c hc
  rw [List.forall₂_map_right_iff, List.forall₂_same]
  intro e he
  refine ⟨rfl, deprecated_sublist _ _ _, ?_⟩
  intro a ha
  obtain ⟨cs, hcs⟩ := content_ancestor doc c hc e he
  have h1 : a ∉ deprecatedHook removeAny (extract sheet) e.2 ↔ Dropped removeAny (extract sheet) e.2 a :=
    ⟨deprecated_dropped _ _ _ a ha, dropped_deprecated _ _ _ (hw e cs hcs) a⟩
  have h2 : ∀ k : Key, k.outdated = true ↔ k = .Version := by
    intro k
    unfold Key.outdated
    split <;> simp_all
  simp only [onAttrs]
  rw [h1]
  unfold Dropped
  refine exists_congr fun k => exists_congr fun v => and_congr_right fun _ => ?_
  rw [← names_iff, h2]
  simp

theorem any_sublist {A : Type} (as as' : List A) (P : A → Bool) (h : as'.Sublist as)
    (hd : ∀ a ∈ as, a ∉ as' → P a = false) : as'.any P = as.any P := by
  rw [Bool.eq_iff_iff, List.any_eq_true, List.any_eq_true]
  constructor
  · rintro ⟨a, ha, hp⟩
    exact ⟨a, h.subset ha, hp⟩
  · rintro ⟨a, ha, hp⟩
    by_cases hm : a ∈ as'
    · exact ⟨a, hm, hp⟩
    · rw [hd a ha hm] at hp
      simp at hp

theorem lower_small (s : Str) (h : ∀ c ∈ s, ¬ (65 ≤ c ∧ c ≤ 90)) : lower s = s := by
  unfold lower
  conv => rhs; rw [← List.map_id s]
  apply List.map_congr_left
  intro c hc
  rw [if_neg (h c hc)]
  rfl

theorem metAll_rest (rest : Nat → Bool) (as as' : List Attr) : ∀ cs : List Comp, (∀ c ∈ cs, ∃ i, c = .rest i) →
    metAll rest as cs = metAll rest as' cs
  | [], _ => by simp [metAll]
  | c :: cs, h => by
    obtain ⟨i, rfl⟩ := h c (by simp)
    simp only [metAll, met, metAll_rest rest as as' cs fun c hc => h c (by simp [hc])]

theorem any_named (as : List Attr) (P : Str × Str × Val → Bool) :
    (as.filterMap named).any P = as.any fun a => ((named a).map P).getD false := by
  induction as with
  | nil => rfl
  | cons a as ih =>
    rw [List.filterMap_cons, List.any_cons, ← ih]
    cases named a <;> simp

/-- The namespace of an attribute with a known name. -/
def nsOf (k : Key) : Str :=
  match k.pre with
  | some "xml" => lit "http://www.w3.org/XML/1998/namespace"
  | some "xlink" => lit "http://www.w3.org/1999/xlink"
  | _ => []

theorem named_known (k : Key) (v : Val) : named (.plain (.known k) v) = some (nsOf k, lit k.loc, v) := rfl

theorem met_deprecated (removeAny : Bool) (sheet : List (List Comp)) (as : List Attr) (rest : Nat → Bool) (s : List Comp)
    (hs : s ∈ sheet) (c : Comp) (hc : c ∈ s) (hp : c.Plain) :
    met rest (deprecatedHook removeAny (extract sheet) as) c = met rest as c := by
  have key : ∀ P : Str × Str × Val → Bool,
      (∀ k v, (k.pre = none ∨ k.pre = some "xml" ∧ (k = .XmlBase ∨ k = .XmlLang ∨ k = .XmlSpace)) → ¬ Names sheet k →
        P (nsOf k, lit k.loc, v) = false) →
      ((deprecatedHook removeAny (extract sheet) as).filterMap named).any P = (as.filterMap named).any P := by
    intro P hP
    rw [any_named, any_named]
    apply any_sublist _ _ _ (deprecated_sublist _ _ _)
    intro a ha hm
    obtain ⟨k, v, rfl, hq, hk⟩ := deprecated_dropped _ _ _ a ha hm
    rw [named_known]
    simp only [Option.map_some, Option.getD_some]
    apply hP
    · rcases pre_cases k with h | h | h
      · exact .inl h
      · exact .inr h
      · exfalso
        rcases hk with hk | hk | ⟨rfl, _⟩
        · rw [h.2.1] at hk; simp at hk
        · rw [h.2.2] at hk; simp at hk
        · have h2 : Key.XmlLang.discouraged = true := rfl
          rw [h2] at h
          simp at h
    · rw [← names_iff, hq]; simp
  have hx : ∀ k : Key, k.pre = some "xml" → nsOf k = lit "http://www.w3.org/XML/1998/namespace" := by
    intro k h
    unfold nsOf
    rw [h]
    rfl
  have hne : lit "http://www.w3.org/XML/1998/namespace" ≠ [] := by decide
  have hn : ∀ k : Key, k.pre = none → nsOf k = [] := by
    intro k h
    unfold nsOf
    rw [h]
  match c, hc, hp with
  | .present name, hc, hp =>
    simp only [met]
    apply key
    intro k v hk hnot
    rw [Bool.eq_false_iff]
    intro h
    simp only [Bool.and_eq_true, beq_iff_eq] at h
    obtain ⟨h1, rfl⟩ := h
    rcases hk with hk | hk
    · exact hnot ⟨s, hs, _, hc, .inl ⟨hk, .inl ⟨_, rfl, lower_small _ hp⟩⟩⟩
    · rw [hx k hk.1] at h1
      exact hne h1
  | .valued name ask, hc, hp =>
    simp only [met]
    apply key
    intro k v hk hnot
    rw [Bool.eq_false_iff]
    intro h
    simp only [Bool.and_eq_true, beq_iff_eq] at h
    obtain ⟨⟨h1, rfl⟩, _⟩ := h
    rcases hk with hk | hk
    · exact hnot ⟨s, hs, _, hc, .inl ⟨hk, .inr ⟨_, .inl rfl⟩⟩⟩
    · rw [hx k hk.1] at h1
      exact hne h1
  | .other .absent name ask, hc, hp =>
    simp only [met]
    apply key
    intro k v hk hnot
    rw [Bool.eq_false_iff]
    intro h
    simp only [Bool.and_eq_true, beq_iff_eq] at h
    obtain ⟨⟨h1, rfl⟩, _⟩ := h
    rcases hk with hk | hk
    · exact hnot ⟨s, hs, _, hc, .inl ⟨hk, .inr ⟨_, .inr (.inl rfl)⟩⟩⟩
    · rw [hx k hk.1] at h1
      exact hne h1
  | .other .any name ask, hc, hp =>
    simp only [met]
    apply key
    intro k v hk hnot
    rw [Bool.eq_false_iff]
    intro h
    simp only [Bool.and_eq_true, beq_iff_eq] at h
    obtain ⟨rfl, _⟩ := h
    rcases hk with hk | ⟨_, hk⟩
    · exact hnot ⟨s, hs, _, hc, .inl ⟨hk, .inr ⟨_, .inr (.inr rfl)⟩⟩⟩
    · simp only [Comp.Plain, List.mem_cons, List.not_mem_nil, or_false, not_or] at hp
      rcases hk with rfl | rfl | rfl
      · exact hp.1 rfl
      · exact hp.2.1 rfl
      · exact hp.2.2 rfl
  | .other (.bound p uri) name ask, hc, hp =>
    simp only [met]
    apply key
    intro k v hk hnot
    rw [Bool.eq_false_iff]
    intro h
    simp only [Bool.and_eq_true, beq_iff_eq] at h
    obtain ⟨⟨h1, rfl⟩, _⟩ := h
    rcases hk with hk | hk
    · rw [hn k hk] at h1
      exact hp.2 h1.symm
    · rw [hx k hk.1] at h1
      have h2 := hp.1.mpr h1.symm
      subst h2
      exact hnot ⟨s, hs, _, hc, .inr ⟨_, _, _, hk.1, rfl⟩⟩
  | .without cs, hc, hp =>
    simp only [met, metAll_rest rest as (deprecatedHook removeAny (extract sheet) as) cs hp]
  | .rest i, _, _ => simp only [met]

/-- **C54 (deprecated attributes: selectors), partial.** For all documents, options and style sheets whose selectors are
plain: after `removeDeprecatedAttrs` every part of every selector is met by the elements that met it before. -/
theorem deprecated_selectors_partial (removeAny : Bool) (sheet : List (List Comp)) (doc : List (Node Attr))
    (hp : ∀ s ∈ sheet, ∀ c ∈ s, c.Plain) :
    List.Forall₂ (Along (List.Forall₂ fun e e' => ∀ s ∈ sheet, ∀ c ∈ s, ∀ rest, met rest e'.2 c = met rest e.2 c))
      (content doc) (content (removeDeprecatedAttrs removeAny sheet doc)) := by
  apply deprecated_along
  intro c _
  rw [List.forall₂_map_right_iff, List.forall₂_same]
  intro e _ s hs p hps rest
  exact met_deprecated removeAny sheet e.2 rest s hs p hps (hp s hs p hps)

theorem properties_current : ∀ k ∈ inheritedProperties ++ otherProperties, k.outdated = false ∧ k ≠ .XmlLang := by
  decide +kernel

theorem says_deprecated (sheet : List (List Comp)) (k : Key) (n : EName) (as : List Attr) :
    Says k (n, as) (n, deprecatedHook false (extract sheet) as) := by
  have hx : ∀ v, property (.plain (.known .XmlLang) v) = none := fun v => rfl
  have hdrop : ∀ a, keepsCurrent false (extract sheet) a = false → ∃ v, a = .plain (.known .Version) v := by
    intro a ha
    match a, ha with
    | .plain (.known l) v, ha =>
      simp only [keepsCurrent, Bool.false_and, Bool.or_false] at ha
      split at ha
      · simp at ha
      · have h3 : l.outdated = true := by simpa using ha
        unfold Key.outdated at h3
        split at h3
        · exact ⟨v, rfl⟩
        · simp at h3
  have herase : ∀ {B : Type} (f : Attr → Option B), (∀ v, f (.plain (.known .XmlLang) v) = none) → ∀ l : List Attr,
      (l.eraseP (isKey .XmlLang)).filterMap f = l.filterMap f ∧
      (l.eraseP (isKey .XmlLang)).findSome? f = l.findSome? f := by
    intro B f hf l
    induction l with
    | nil => exact ⟨rfl, rfl⟩
    | cons a l ih =>
      rw [List.eraseP_cons]
      cases ha : isKey .XmlLang a with
      | true =>
        obtain ⟨v, rfl⟩ := (isKey_iff _ _).mp ha
        rw [List.filterMap_cons, List.findSome?_cons, hf v]
        exact ⟨rfl, rfl⟩
      | false =>
        simp only [cond_false]
        rw [List.filterMap_cons, List.filterMap_cons, List.findSome?_cons, List.findSome?_cons, ih.1, ih.2]
        exact ⟨rfl, rfl⟩
  have hfil : ∀ l : List Attr, (l.filter (keepsCurrent false (extract sheet))).filterMap property = l.filterMap property ∧
      (l.filter (keepsCurrent false (extract sheet))).findSome? inlineBlock = l.findSome? inlineBlock := by
    intro l
    constructor
    · apply Unknowns.filterMap_filter_of
      intro a _ ha
      obtain ⟨v, rfl⟩ := hdrop a ha
      rfl
    · apply findSome?_filter_of
      intro a _ ha
      obtain ⟨v, rfl⟩ := hdrop a ha
      rfl
  unfold Says deprecatedHook
  simp only
  rw [(hfil _).1, (hfil _).2]
  split
  · rw [(herase property hx as).1, (herase inlineBlock (fun _ => rfl) as).2]
    exact ⟨rfl, rfl⟩
  · exact ⟨rfl, rfl⟩

/-- **C54 (deprecated attributes: no property changes), partial.** Unless `removeAny` is given, after `removeDeprecatedAttrs` all
elements have the values they had for all properties, for style sheets with plain selectors: what these say about elements
depends on the names of elements and on which parts of selectors are met. -/
theorem deprecated_styles_partial (sheet : List (List Comp)) (doc : List (Node Attr))
    (hp : ∀ s ∈ sheet, ∀ c ∈ s, c.Plain) (r : Run Sel C)
    (hs : ∀ ss c c', List.Forall₂ (fun e e' : E => e'.1 = e.1 ∧ ∀ s ∈ sheet, ∀ p ∈ s, ∀ rest,
      met rest e'.2 p = met rest e.2 p) c c' → r.test ss c' = r.test ss c)
    (fonts : Val → List (Key × Val)) (holds : C → Bool) (k : Key) :
    List.Forall₂ (Along fun c c' => styleOf r fonts holds c' k = styleOf r fonts holds c k)
      (content doc) (content (removeDeprecatedAttrs false sheet doc)) := by
  apply deprecated_along
  intro c _
  apply style_says
  · intro ss s
    apply hs
    rw [List.forall₂_map_right_iff, List.forall₂_same]
    intro e _
    exact ⟨rfl, fun s hs p hps rest => met_deprecated false sheet e.2 rest s hs p hps (hp s hs p hps)⟩
  · intro e _
    exact says_deprecated sheet k e.1 e.2

theorem valueOf_mem (k : Key) (as : List Attr) (v : Val) (h : .plain (.known k) v ∈ as) (hw : (as.map idOf).Nodup) :
    valueOf k as = some v := by
  induction as with
  | nil => simp at h
  | cons a as ih =>
    rw [List.map_cons, List.nodup_cons] at hw
    rcases List.mem_cons.mp h with rfl | h
    · simp [valueOf]
    · have ih := ih h hw.2
      unfold valueOf at ih ⊢
      rw [List.findSome?_cons]
      have : idOf a ≠ some (.known k) := fun e => hw.1 (List.mem_map.mpr ⟨_, h, e.symm⟩)
      match a, this with
      | .style _, _ => exact ih
      | .plain (.other _ _) _, _ => exact ih
      | .plain (.known l) w, hne =>
        have : l ≠ k := by
          rintro rfl
          exact hne rfl
        simp only [this, if_false]
        exact ih

theorem valueOf_some (k : Key) (as : List Attr) (v : Val) (h : valueOf k as = some v) : .plain (.known k) v ∈ as := by
  unfold valueOf at h
  obtain ⟨a, ha, h⟩ := List.exists_of_findSome?_eq_some h
  match a, ha, h with
  | .plain (.known l) w, ha, h =>
    simp only [Option.ite_none_right_eq_some, Option.some.injEq] at h
    obtain ⟨rfl, rfl⟩ := h
    exact ha

theorem valueOf_none (k : Key) (as : List Attr) (h : valueOf k as = none) (v : Val) : .plain (.known k) v ∉ as := by
  intro hm
  unfold valueOf at h
  rw [List.findSome?_eq_none_iff] at h
  have := h _ hm
  simp at this

theorem lang_deprecated (sheet : List (List Comp)) (as : List Attr) (hw : (as.map idOf).Nodup)
    (hb : ∀ v w, .plain (.known .XmlLang) v ∈ as → .plain (.known .Lang) w ∈ as → v = w) :
    ((valueOf .XmlLang (deprecatedHook false (extract sheet) as)).or
      (valueOf .Lang (deprecatedHook false (extract sheet) as))) = (valueOf .XmlLang as).or (valueOf .Lang as) := by
  have hsub := deprecated_sublist false (extract sheet) as
  have hw' : ((deprecatedHook false (extract sheet) as).map idOf).Nodup := hw.sublist (hsub.map _)
  have hlang : valueOf .Lang (deprecatedHook false (extract sheet) as) = valueOf .Lang as := by
    cases h : valueOf .Lang as with
    | some w =>
      apply valueOf_mem _ _ _ _ hw'
      by_contra hm
      obtain ⟨k, v, he, _, h1 | h1 | h1⟩ := deprecated_dropped _ _ _ _ (valueOf_some _ _ _ h) hm
      · cases he
        exact absurd h1 (by decide)
      · simp at h1
      · cases he
        exact absurd h1.1 (fun h => Key.noConfusion h)
    | none =>
      cases h' : valueOf .Lang (deprecatedHook false (extract sheet) as) with
      | none => rfl
      | some w => exact absurd (hsub.subset (valueOf_some _ _ _ h')) (valueOf_none _ _ h w)
  rw [hlang]
  cases h : valueOf .XmlLang as with
  | none =>
    cases h' : valueOf .XmlLang (deprecatedHook false (extract sheet) as) with
    | none => rfl
    | some w => exact absurd (hsub.subset (valueOf_some _ _ _ h')) (valueOf_none _ _ h w)
  | some v =>
    have hv := valueOf_some _ _ _ h
    by_cases hm : .plain (.known .XmlLang) v ∈ deprecatedHook false (extract sheet) as
    · rw [valueOf_mem _ _ _ hm hw']
    · obtain ⟨k, v', he, _, h1 | h1 | ⟨_, w, hl⟩⟩ := deprecated_dropped _ _ _ _ hv hm
      · cases he
        exact absurd h1 (by decide)
      · simp at h1
      · cases he
        have hx : valueOf .XmlLang (deprecatedHook false (extract sheet) as) = none := by
          cases h' : valueOf .XmlLang (deprecatedHook false (extract sheet) as) with
          | none => rfl
          | some u =>
            have h2 := valueOf_some _ _ _ h'
            have h3 : u = v := by
              have h4 := valueOf_mem _ _ _ (hsub.subset h2) hw
              rw [h] at h4
              exact (Option.some.inj h4).symm
            exact absurd (h3 ▸ h2) hm
        rw [hx, valueOf_mem _ _ _ hl hw, hb v w hv hl]
        rfl

/-- **C54 (deprecated attributes: languages), partial.** Unless `removeAny` is given, after `removeDeprecatedAttrs` all elements have
the language they had, if `xml:lang` and `lang` are the same where both are given. -/
theorem deprecated_language_partial (sheet : List (List Comp)) (doc : List (Node Attr)) (hw : Wellformed doc)
    (hb : ∀ e cs, .elem (e :: cs) ∈ content doc → ∀ v w, .plain (.known .XmlLang) v ∈ e.2 →
      .plain (.known .Lang) w ∈ e.2 → v = w) :
    List.Forall₂ (Along fun c c' => language c' = language c)
      (content doc) (content (removeDeprecatedAttrs false sheet doc)) := by
  apply deprecated_along
  intro c hc
  have h : ∀ e ∈ c, (e.2.map idOf).Nodup ∧ ∀ v w, .plain (.known .XmlLang) v ∈ e.2 →
      .plain (.known .Lang) w ∈ e.2 → v = w := by
    intro e he
    obtain ⟨cs, hcs⟩ := content_ancestor doc c hc e he
    exact ⟨hw e cs hcs, hb e cs hcs⟩
  clear hc
  induction c with
  | nil => rfl
  | cons e c ih =>
    rw [List.map_cons, language, language, ih fun x hx => h x (by simp [hx])]
    have := lang_deprecated sheet e.2 (h e (by simp)).1 (h e (by simp)).2
    simp only [onAttrs]
    rw [this]

end Verif.Retain
