import Verif.Jsx.Preset
import Verif.Jsx.Spec

/-!
# What the component renders

How React renders JSX with given properties: the value of an attribute is the one that is written
last, a spread gives everything it has, `undefined` leaves an attribute out.
-/

namespace Verif.Jsx

/-- The values of the variables; nothing is `undefined`. -/
abbrev Vars := String → Option AVal

/-- What counts as true. -/
def AVal.truthy : AVal → Bool
  | .str s => s != ""
  | .num q => q.1 != 0
  | .bool b => b
  | _ => true

/-- The value of an expression. -/
def AVal.eval (ρ : Vars) : AVal → Option AVal
  | .ident x => ρ x
  | .either x e => match ρ x with
    | some v => if v.truthy then some v else e.eval ρ
    | none => e.eval ρ
  | v => some v

/-- The value of an attribute: nothing if it is not mentioned. -/
def valueOf (ρ σ : Vars) : List JAttr → String → Option (Option AVal)
  | [], _ => none
  | .attr m v :: as, n => (valueOf ρ σ as n).or
      (if m = n then some (match v with | some v => v.eval ρ | none => some (.bool true)) else none)
  | .spread _ :: as, n => (valueOf ρ σ as n).or ((σ n).map some)

/-- What is rendered. -/
inductive R
  | el (name : String) (attrs : String → Option (Option AVal)) (kids : List R)
  | tx (s : List Char)
  | ex (v : AVal)

mutual
/-- Rendering with the variables `ρ` and the other properties `σ`. -/
def render (ρ σ : Vars) : Jsx → List R
  | .elem n as _ _ ks => [.el n (valueOf ρ σ as) (renders ρ σ ks)]
  | .frag ks => renders ρ σ ks
  | .text s => [.tx s]
  | .empty => []
  | .ident x => (ρ x).toList.map .ex
  | .cond (.undef x) a b => if (ρ x).isNone then render ρ σ a else render ρ σ b
  | .cond (.truthy x) a b => if (ρ x).any AVal.truthy then render ρ σ a else render ρ σ b
  | .null => []
def renders (ρ σ : Vars) : List Jsx → List R
  | [] => []
  | j :: js => render ρ σ j ++ renders ρ σ js
end

/-- The names of attributes. -/
def attrNames : List JAttr → List String
  | [] => []
  | .attr n _ :: as => n :: attrNames as
  | .spread _ :: as => attrNames as

/-- Attributes as a document has them: no spread, no name twice. -/
def Plain (as : List JAttr) : Prop := (∀ a ∈ as, ∃ n v, a = .attr n (some v)) ∧ (attrNames as).Nodup

/-! ## The attributes of the `svg` element -/

private theorem mem_setAttr_names (n : String) (v : AVal) (as : List JAttr) (m : String) :
    m ∈ attrNames (setAttr n v as) ↔ m ∈ attrNames as ∨ m = n := by
  induction as with
  | nil => simp [setAttr, attrNames]
  | cons a as ih =>
    cases a with
    | attr k w =>
      simp only [setAttr]
      split
      · rename_i h
        subst h
        simp only [attrNames, List.mem_cons]
        grind
      · simp only [attrNames, List.mem_cons, ih]
        grind
    | spread x => simpa [setAttr, attrNames] using ih

private theorem plain_setAttr (n : String) (v : AVal) (as : List JAttr) (h : Plain as) :
    Plain (setAttr n v as) := by
  obtain ⟨h1, h2⟩ := h
  induction as with
  | nil => exact ⟨by simp [setAttr], by simp [setAttr, attrNames]⟩
  | cons a as ih =>
    obtain ⟨k, w, rfl⟩ := h1 a (by simp)
    have h1' : ∀ b ∈ as, ∃ n v, b = .attr n (some v) := fun b hb => h1 b (List.mem_cons_of_mem _ hb)
    simp only [attrNames, List.nodup_cons] at h2
    simp only [setAttr]
    split
    · refine ⟨?_, by simpa [attrNames] using h2⟩
      intro b hb
      rcases List.mem_cons.mp hb with rfl | hb
      · exact ⟨_, _, rfl⟩
      · exact h1' b hb
    · rename_i hne
      obtain ⟨g1, g2⟩ := ih h1' h2.2
      refine ⟨?_, ?_⟩
      · intro b hb
        rcases List.mem_cons.mp hb with rfl | hb
        · exact ⟨_, _, rfl⟩
        · exact g1 b hb
      · simp only [attrNames, List.nodup_cons, mem_setAttr_names]
        exact ⟨by rintro (h | h); exact h2.1 h; exact hne h, g2⟩

private theorem valueOf_not_mem (ρ σ : Vars) (as : List JAttr) (h : Plain as) (n : String)
    (hn : n ∉ attrNames as) : valueOf ρ σ as n = none := by
  obtain ⟨h1, h2⟩ := h
  induction as with
  | nil => rfl
  | cons a as ih =>
    obtain ⟨k, w, rfl⟩ := h1 a (by simp)
    simp only [attrNames, List.mem_cons, not_or, List.nodup_cons] at hn h2
    have hk : ¬ k = n := fun h => hn.1 h.symm
    simp [valueOf, ih hn.2 (fun b hb => h1 b (List.mem_cons_of_mem _ hb)) h2.2, hk]

private theorem valueOf_setAttr (ρ σ : Vars) (m : String) (v : AVal) (as : List JAttr) (h : Plain as)
    (n : String) :
    valueOf ρ σ (setAttr m v as) n = if n = m then some (v.eval ρ) else valueOf ρ σ as n := by
  obtain ⟨h1, h2⟩ := h
  induction as with
  | nil =>
    simp only [setAttr, valueOf, Option.none_or]
    split <;> split <;> simp_all
  | cons a as ih =>
    obtain ⟨k, w, rfl⟩ := h1 a (by simp)
    have h1' : ∀ b ∈ as, ∃ n v, b = .attr n (some v) := fun b hb => h1 b (List.mem_cons_of_mem _ hb)
    simp only [attrNames, List.nodup_cons] at h2
    simp only [setAttr]
    split
    · rename_i hk
      subst hk
      simp only [valueOf]
      by_cases hn : n = k
      · subst hn
        simp [valueOf_not_mem ρ σ as ⟨h1', h2.2⟩ n h2.1]
      · have hk : ¬ k = n := fun h => hn h.symm
        simp [hn, hk]
    · rename_i hk
      simp only [valueOf, ih h1' h2.2]
      by_cases hn : n = m
      · subst hn
        simp
      · simp [hn]

private theorem plain_setAll (vs : List (String × AVal)) (as : List JAttr) (h : Plain as) :
    Plain (setAll vs as) := by
  induction vs generalizing as with
  | nil => exact h
  | cons p vs ih => exact ih _ (plain_setAttr _ _ _ h)

private theorem valueOf_setAll (ρ σ : Vars) (vs : List (String × AVal)) (hv : (vs.map (·.1)).Nodup)
    (as : List JAttr) (h : Plain as) (n : String) :
    valueOf ρ σ (setAll vs as) n =
      ((vs.find? fun p => p.1 == n).map fun p => p.2.eval ρ).or (valueOf ρ σ as n) := by
  induction vs generalizing as with
  | nil => simp [setAll]
  | cons p vs ih =>
    simp only [List.map_cons, List.nodup_cons] at hv
    have e : setAll (p :: vs) as = setAll vs (setAttr p.1 p.2 as) := rfl
    rw [e, ih hv.2 _ (plain_setAttr _ _ _ h), valueOf_setAttr ρ σ _ _ _ h, List.find?_cons]
    by_cases hp : p.1 = n
    · subst hp
      have : (vs.find? fun q => q.1 == p.1) = none := by
        rw [List.find?_eq_none]
        intro q hq hqe
        simp only [beq_iff_eq] at hqe
        exact hv.1 (List.mem_map.mpr ⟨q, hq, hqe⟩)
      simp [this]
    · have : (p.1 == n) = false := by simpa using hp
      have hn : ¬ n = p.1 := fun h => hp h.symm
      simp [this, hn]

private theorem plain_noDims (as : List JAttr) (h : Plain as) : Plain (noDims as) := by
  refine ⟨fun a ha => h.1 a (List.mem_filter.mp ha).1, ?_⟩
  have : List.Sublist (attrNames (noDims as)) (attrNames as) := by
    clear h
    induction as with
    | nil => exact List.Sublist.refl _
    | cons a as ih =>
      cases a with
      | attr n v =>
        simp only [noDims, List.filter_cons] at ih ⊢
        split
        · simpa [attrNames] using ih.cons_cons n
        · simpa [attrNames] using ih.cons n
      | spread x => simpa [noDims, List.filter_cons, attrNames] using ih
  exact this.nodup h.2

private theorem valueOf_noDims (ρ σ : Vars) (as : List JAttr) (h : Plain as) (n : String) :
    valueOf ρ σ (noDims as) n =
      if n = "width" ∨ n = "height" then none else valueOf ρ σ as n := by
  obtain ⟨h1, h2⟩ := h
  induction as with
  | nil => simp [noDims, valueOf]
  | cons a as ih =>
    obtain ⟨k, w, rfl⟩ := h1 a (by simp)
    have h1' : ∀ b ∈ as, ∃ n v, b = .attr n (some v) := fun b hb => h1 b (List.mem_cons_of_mem _ hb)
    simp only [attrNames, List.nodup_cons] at h2
    have ih := ih h1' h2.2
    simp only [noDims, List.filter_cons] at ih ⊢
    split
    · rename_i hk
      simp only [valueOf, ih]
      simp at hk
      split
      · rename_i hn
        have : k ≠ n := by rintro rfl; rcases hn with h | h; exact hk.1 h; exact hk.2 h
        simp [this]
      · rfl
    · rename_i hk
      rw [ih]
      simp at hk
      split
      · rfl
      · rename_i hn
        have : k ≠ n := by
          rintro rfl
          by_cases h : k = "width"
          · exact hn (Or.inl h)
          · exact hn (Or.inr (hk h))
        simp [valueOf, this]

private theorem valueOf_append (ρ σ : Vars) (as bs : List JAttr) (n : String) :
    valueOf ρ σ (as ++ bs) n = (valueOf ρ σ bs n).or (valueOf ρ σ as n) := by
  induction as with
  | nil => simp [valueOf]
  | cons a as ih =>
    cases a with
    | attr m v => simp only [List.cons_append, valueOf, ih, Option.or_assoc]
    | spread x => simp only [List.cons_append, valueOf, ih, Option.or_assoc]

/-- **C86 (the attributes of the `svg` element)**: the value of an attribute is the first of: the
one among the other properties if they come last, the size of the icon, nothing for dimensions that
are removed, the properties for the description, the title and the reference, the configured one,
the one of the document; and the one among the other properties if they come first. -/
theorem svgAttrs_value (ρ σ : Vars) (c : Config) (vs : List (String × AVal))
    (hv : (vs.map (·.1)).Nodup) (as : List JAttr) (h : Plain as) (n : String) :
    valueOf ρ σ (svgAttrs c vs as) n =
      (if c.expand = .last then (σ n).map some else none).or
        ((if n = "width" ∨ n = "height" then (iconVal (c.native.getD false) c.icon).map (AVal.eval ρ) else none).or
        ((if c.dimensions = some false ∧ (n = "width" ∨ n = "height") then none
          else (if c.descProp = some true ∧ n = "aria-describedby" then some (ρ "descId") else none).or
            ((if c.titleProp = some true ∧ n = "aria-labelledby" then some (ρ "titleId") else none).or
            ((if c.ref = some true ∧ n = "ref" then some (ρ "ref") else none).or
            (((vs.find? fun p => p.1 == n).map fun p => p.2.eval ρ).or (valueOf ρ σ as n))))).or
        (if c.expand = .start then (σ n).map some else none))) := by
  have p1 := plain_setAll vs as h
  have v1 := valueOf_setAll ρ σ vs hv as h n
  have step : ∀ (b : Option Bool) (m y : String) (as : List JAttr), Plain as →
      Plain (if b.getD false = true then setAttr m (.ident y) as else as) ∧
      valueOf ρ σ (if b.getD false = true then setAttr m (.ident y) as else as) n =
        (if b = some true ∧ n = m then some (ρ y) else none).or (valueOf ρ σ as n) := by
    intro b m y as h
    rcases b with _ | _ | _
    · simpa using h
    · simpa using h
    · refine ⟨plain_setAttr _ _ _ h, ?_⟩
      simp only [Option.getD_some, if_true, true_and]
      rw [valueOf_setAttr ρ σ _ _ _ h]
      by_cases hm : n = m <;> simp [hm, AVal.eval]
  obtain ⟨p2, v2⟩ := step c.ref "ref" "ref" _ p1
  obtain ⟨p3, v3⟩ := step c.titleProp "aria-labelledby" "titleId" _ p2
  obtain ⟨p4, v4⟩ := step c.descProp "aria-describedby" "descId" _ p3
  have h5 : ∀ A : List JAttr, Plain A → Plain (if (!c.dimensions.getD true) = true then noDims A else A) ∧
      valueOf ρ σ (if (!c.dimensions.getD true) = true then noDims A else A) n =
        if c.dimensions = some false ∧ (n = "width" ∨ n = "height") then none else valueOf ρ σ A n := by
    intro A hA
    rcases c.dimensions with _ | _ | _
    · simpa using hA
    · refine ⟨plain_noDims _ hA, ?_⟩
      simp only [Option.getD_some, Bool.not_false, if_true, true_and]
      exact valueOf_noDims ρ σ A hA n
    · simpa using hA
  obtain ⟨p5, v5⟩ := h5 _ p4
  have h6 : ∀ A : List JAttr, Plain A → valueOf ρ σ (match iconVal (c.native.getD false) c.icon with
      | some v => setAttr "height" v (setAttr "width" v A)
      | none => A) n =
      (if n = "width" ∨ n = "height" then (iconVal (c.native.getD false) c.icon).map (AVal.eval ρ) else none).or
        (valueOf ρ σ A n) := by
    intro A hA
    cases iconVal (c.native.getD false) c.icon with
    | none => simp
    | some v =>
      simp only [valueOf_setAttr ρ σ _ _ _ (plain_setAttr _ _ _ hA), valueOf_setAttr ρ σ _ _ _ hA]
      by_cases hw : n = "width"
      · simp [hw]
      · by_cases hh : n = "height" <;> simp [hw, hh]
  have v6 := h6 _ p5
  have h7 : ∀ A : List JAttr, valueOf ρ σ (match c.expand with
      | .start => JAttr.spread "props" :: A
      | .last => A ++ [JAttr.spread "props"]
      | .off => A) n =
      (if c.expand = .last then (σ n).map some else none).or ((valueOf ρ σ A n).or
        (if c.expand = .start then (σ n).map some else none)) := by
    intro A
    cases c.expand
    · simp [valueOf]
    · simp [valueOf_append, valueOf]
    · simp
  have v7 := (h7 _).trans (congrArg (fun z => (if c.expand = .last then (σ n).map some else none).or
    (z.or (if c.expand = .start then (σ n).map some else none))) v6)
  refine Eq.trans v7 ?_
  rw [v5, v4, v3, v2, v1, Option.or_assoc]

/-! ## Titles and descriptions -/

mutual
/-- The first element of a name in the order of the document, and a change to it. -/
def firstR (n : String) (f : (String → Option (Option AVal)) → List R → R) : R → Option R
  | .el m as ks => if m = n then some (f as ks) else (firstRs n f ks).map (.el m as)
  | .tx _ => none
  | .ex _ => none
def firstRs (n : String) (f : (String → Option (Option AVal)) → List R → R) : List R → Option (List R)
  | [] => none
  | r :: rs => match firstR n f r with
    | some r' => some (r' :: rs)
    | none => (firstRs n f rs).map (r :: ·)
end

mutual
/-- JSX as it is made from a document: no expressions, every `id` has a value. -/
def Static : Jsx → Prop
  | .elem _ as _ _ ks => Plain as ∧ StaticAll ks
  | .frag ks => StaticAll ks
  | .text _ => True
  | .empty => True
  | _ => False
def StaticAll : List Jsx → Prop
  | [] => True
  | j :: js => Static j ∧ StaticAll js
end

private theorem firstRs_append (n : String) (f : (String → Option (Option AVal)) → List R → R)
    (as bs : List R) :
    firstRs n f (as ++ bs) = match firstRs n f as with
      | some as' => some (as' ++ bs)
      | none => (firstRs n f bs).map (as ++ ·) := by
  induction as with
  | nil =>
    simp only [List.nil_append, firstRs]
    cases firstRs n f bs <;> simp
  | cons a as ih =>
    simp only [List.cons_append, firstRs]
    cases firstR n f a with
    | some a' => simp
    | none =>
      simp only [ih]
      cases firstRs n f as with
      | some as' => simp
      | none => cases firstRs n f bs <;> simp

mutual
/-- A change to JSX is a change to what is rendered. -/
private theorem render_modFirst (ρ σ : Vars) (n : String) (F : Jsx → Jsx)
    (f : (String → Option (Option AVal)) → List R → R)
    (hF : ∀ as sc cl ks, Plain as → render ρ σ (F (.elem n as sc cl ks)) =
      [f (valueOf ρ σ as) (renders ρ σ ks)]) (j : Jsx) (hj : Static j) :
    (modFirst n F j).map (render ρ σ) = firstRs n f (render ρ σ j) := by
  match j with
  | .elem m as sc cl ks =>
    obtain ⟨h1, h2⟩ := hj
    simp only [modFirst, render, firstRs, firstR]
    split
    · rename_i hm
      subst hm
      simp [hF as sc cl ks h1]
    · have := render_modFirsts ρ σ n F f hF ks h2
      rw [← this]
      cases modFirsts n F ks <;> simp [render]
  | .frag ks =>
    simp only [modFirst, render]
    have := render_modFirsts ρ σ n F f hF ks hj
    rw [← this]
    cases modFirsts n F ks <;> simp [render]
  | .text s => simp [modFirst, render, firstRs, firstR]
  | .empty => simp [modFirst, render, firstRs]
  | .ident x => exact hj.elim
  | .cond t a b => exact hj.elim
  | .null => exact hj.elim
private theorem render_modFirsts (ρ σ : Vars) (n : String) (F : Jsx → Jsx)
    (f : (String → Option (Option AVal)) → List R → R)
    (hF : ∀ as sc cl ks, Plain as → render ρ σ (F (.elem n as sc cl ks)) =
      [f (valueOf ρ σ as) (renders ρ σ ks)]) (js : List Jsx) (hj : StaticAll js) :
    (modFirsts n F js).map (renders ρ σ) = firstRs n f (renders ρ σ js) := by
  match js with
  | [] => simp [modFirsts, renders, firstRs]
  | j :: js =>
    obtain ⟨h1, h2⟩ := hj
    have g1 := render_modFirst ρ σ n F f hF j h1
    have g2 := render_modFirsts ρ σ n F f hF js h2
    simp only [modFirsts, renders, firstRs_append, ← g1, ← g2]
    cases modFirst n F j with
    | some j' => simp [renders]
    | none => cases modFirsts n F js <;> simp [renders]
end

private theorem giveId_eval (ρ σ : Vars) (id : String) (as : List JAttr) (h : Plain as) :
    (∀ n, valueOf ρ σ (giveId id as).1 n =
      if n = "id" then (valueOf ρ σ as n).map fun v => if (ρ id).any AVal.truthy then ρ id else v
      else valueOf ρ σ as n) ∧
    (giveId id as).2.map (AVal.eval ρ) = (valueOf ρ σ as "id").map fun v =>
      if (ρ id).any AVal.truthy then ρ id else v := by
  obtain ⟨h1, h2⟩ := h
  induction as with
  | nil => simp [giveId, valueOf]
  | cons a as ih =>
    obtain ⟨k, w, rfl⟩ := h1 a (by simp)
    have h1' : ∀ b ∈ as, ∃ n v, b = .attr n (some v) := fun b hb => h1 b (List.mem_cons_of_mem _ hb)
    simp only [attrNames, List.nodup_cons] at h2
    obtain ⟨ih1, ih2⟩ := ih h1' h2.2
    have hev : (AVal.either id w).eval ρ = if (ρ id).any AVal.truthy then ρ id else w.eval ρ := by
      simp only [AVal.eval]
      cases ρ id with
      | none => simp
      | some v => cases hv : v.truthy <;> simp [hv]
    simp only [giveId]
    split
    · rename_i hk
      subst hk
      have hnone := valueOf_not_mem ρ σ as ⟨h1', h2.2⟩ "id" h2.1
      refine ⟨fun n => ?_, ?_⟩
      · simp only [valueOf]
        by_cases hn : n = "id"
        · subst hn
          simp [hnone, hev]
        · have : ¬ "id" = n := fun h => hn h.symm
          simp [hn, this]
      · simp [valueOf, hnone, hev]
    · rename_i hk
      refine ⟨fun n => ?_, ?_⟩
      · simp only [valueOf, ih1]
        by_cases hn : n = "id"
        · subst hn
          simp [hk]
        · simp [hn]
      · simp only [ih2, valueOf, if_neg hk, Option.or_none]

/-- The value of `id`: the property if it is given, and the one of the document otherwise. -/
def idValue (ρ : Vars) (id : String) (as : String → Option (Option AVal)) : Option AVal :=
  match as "id" with
  | some v => if (ρ id).any AVal.truthy then ρ id else v
  | none => ρ id

mutual
private theorem firstR_same (n : String) (r r' : R) (h : firstR n (.el n) r = some r') : r' = r := by
  match r with
  | .el m as ks =>
    simp only [firstR] at h
    split at h
    · rename_i hm
      subst hm
      exact (Option.some.inj h).symm
    · simp only [Option.map_eq_some_iff] at h
      obtain ⟨ks', hk, rfl⟩ := h
      rw [firstRs_same n ks ks' hk]
  | .tx _ => cases h
  | .ex _ => cases h
private theorem firstRs_same (n : String) (rs rs' : List R) (h : firstRs n (.el n) rs = some rs') :
    rs' = rs := by
  match rs with
  | [] => cases h
  | r :: rs =>
    simp only [firstRs] at h
    split at h
    · rename_i r' hr
      cases h
      rw [firstR_same n r r' hr]
    · simp only [Option.map_eq_some_iff] at h
      obtain ⟨ks', hk, rfl⟩ := h
      rw [firstRs_same n rs ks' hk]
end

/-- **C86 (no title)**: with neither the title (or description) nor its id, what is rendered is
what the document has. -/
theorem conditional_absent (ρ σ : Vars) (tag id child root : String) (j j' : Jsx) (hj : Static j)
    (hc : ρ child = none) (hi : ρ id = none) (h : conditional tag id child root j = some j') :
    render ρ σ j' = render ρ σ j := by
  have keep : ∀ (n : String) (F : Jsx → Jsx) (j2 : Jsx),
      (∀ as sc cl ks, Plain as → render ρ σ (F (.elem n as sc cl ks)) =
        [.el n (valueOf ρ σ as) (renders ρ σ ks)]) → modFirst n F j = some j2 →
      render ρ σ j2 = render ρ σ j := by
    intro n F j2 hF h2
    have h3 := render_modFirst ρ σ n F (.el n) hF j hj
    rw [h2] at h3
    exact firstRs_same n _ _ h3.symm
  simp only [conditional] at h
  split at h
  · rename_i j2 h2
    cases h
    refine keep tag _ _ ?_ h2
    intro as sc cl ks hp
    have : valueOf ρ σ (giveId id as).1 = valueOf ρ σ as := by
      funext n
      rw [(giveId_eval ρ σ id as hp).1 n]
      split
      · simp [hi]
      · rfl
    simp [eitherElem, render, hc, this]
  · refine keep root _ _ ?_ h
    intro as sc cl ks hp
    simp [insertFirst, render, renders, hc]

/-- The attributes of an element that has an `id` only. -/
def idOnly (v : Option AVal) : String → Option (Option AVal) := fun n => if n = "id" then some v else none

private theorem inserting_render (ρ σ : Vars) (tag id child : String) (e : Option AVal) (t : AVal)
    (hc : ρ child = some t) :
    render ρ σ (inserting tag id child e) = [.el tag (idOnly ((e.getD (.ident id)).eval ρ)) [.ex t]] := by
  have : valueOf ρ σ [.attr "id" (some (e.getD (.ident id)))] = idOnly ((e.getD (.ident id)).eval ρ) := by
    funext n
    simp only [valueOf, Option.none_or, idOnly]
    by_cases h : n = "id"
    · simp [h]
    · have : ¬ "id" = n := fun g => h g.symm
      simp [h, this]
  simp [inserting, render, renders, hc, this]

/-- **C86 (a title)**: with a title (or description), the first such element in the document is
replaced by one with the title as its content and the id that is given, or else the one it had; if
there is none, it becomes the first child of the `svg` element. -/
theorem conditional_given (ρ σ : Vars) (tag id child root : String) (j j' : Jsx) (hj : Static j)
    (t : AVal) (hc : ρ child = some t) (ht : t.truthy = true)
    (h : conditional tag id child root j = some j') :
    some (render ρ σ j') =
      (firstRs tag (fun as _ => .el tag (idOnly (idValue ρ id as)) [.ex t]) (render ρ σ j)).or
      (firstRs root (fun as ks => .el root as (.el tag (idOnly (ρ id)) [.ex t] :: ks)) (render ρ σ j)) := by
  have h1 := render_modFirst ρ σ tag (eitherElem tag id child)
    (fun as _ => .el tag (idOnly (idValue ρ id as)) [.ex t]) (by
      intro as sc cl ks hp
      have hg := (giveId_eval ρ σ id as hp).2
      have : (((giveId id as).2).getD (.ident id)).eval ρ = idValue ρ id (valueOf ρ σ as) := by
        simp only [idValue]
        cases hv : valueOf ρ σ as "id" with
        | none =>
          rw [hv] at hg
          simp only [Option.map_none, Option.map_eq_none_iff] at hg
          simp [hg, AVal.eval]
        | some v =>
          rw [hv] at hg
          simp only [Option.map_some, Option.map_eq_some_iff] at hg
          obtain ⟨w, hw, he⟩ := hg
          simp [hw, he]
      simp only [eitherElem, render, hc, Option.isNone_some, Bool.false_eq_true, if_false]
      rw [inserting_render ρ σ tag id child _ t hc, this]) j hj
  have h2 := render_modFirst ρ σ root (insertFirst tag id child)
    (fun as ks => .el root as (.el tag (idOnly (ρ id)) [.ex t] :: ks)) (by
      intro as sc cl ks hp
      simp only [insertFirst, render, renders, hc, Option.any_some, ht, if_true]
      rw [inserting_render ρ σ tag id child _ t hc]
      simp [AVal.eval]) j hj
  simp only [conditional] at h
  rw [← h1, ← h2]
  split at h
  · rename_i j2 hj2
    cases h
    simp [hj2]
  · rename_i hn
    simp [hn, h]

/-! ## Replaced values -/

mutual
/-- A change to every string that is the value of an attribute. -/
def onStrings (f : String → AVal) : Jsx → Jsx
  | .elem n as sc cl ks => .elem n (as.map fun
      | .attr m (some (.str s)) => .attr m (some (f s))
      | a => a) sc cl (onStringsAll f ks)
  | .frag ks => .frag (onStringsAll f ks)
  | j => j
def onStringsAll (f : String → AVal) : List Jsx → List Jsx
  | [] => []
  | j :: js => onStrings f j :: onStringsAll f js
end

mutual
private theorem onStrings_id (j : Jsx) : onStrings .str j = j := by
  match j with
  | .elem n as sc cl ks =>
    simp only [onStrings, onStringsAll_id ks]
    congr
    conv => rhs; rw [← List.map_id as]
    apply List.map_congr_left
    intro a _
    split <;> rfl
  | .frag ks => simp only [onStrings, onStringsAll_id ks]
  | .text _ => rfl
  | .empty => rfl
  | .ident _ => rfl
  | .cond .. => rfl
  | .null => rfl
private theorem onStringsAll_id (js : List Jsx) : onStringsAll .str js = js := by
  match js with
  | [] => rfl
  | j :: js => simp only [onStringsAll, onStrings_id j, onStringsAll_id js]
end

mutual
private theorem setValue_onStrings (old : String) (new : AVal) (f : String → AVal) (j : Jsx) :
    onStrings f (setValue old new j) = onStrings (fun s => if s = old then
      (match new with | .str t => f t | v => v) else f s) j := by
  match j with
  | .elem n as sc cl ks =>
    simp only [setValue, onStrings, setValues_onStrings old new f ks, List.map_map]
    congr 1
    apply List.map_congr_left
    intro a _
    simp only [Function.comp]
    rcases a with ⟨m, _ | v⟩ | x
    · rfl
    · cases v <;> try rfl
      rename_i s _
      by_cases hs : s = old
      · simp only [hs, if_true]
        cases new <;> rfl
      · simp only [hs, if_false]
    · rfl
  | .frag ks => simp only [setValue, onStrings, setValues_onStrings old new f ks]
  | .text _ => rfl
  | .empty => rfl
  | .ident _ => rfl
  | .cond .. => rfl
  | .null => rfl
private theorem setValues_onStrings (old : String) (new : AVal) (f : String → AVal) (js : List Jsx) :
    onStringsAll f (setValues old new js) = onStringsAll (fun s => if s = old then
      (match new with | .str t => f t | v => v) else f s) js := by
  match js with
  | [] => rfl
  | j :: js => simp only [setValues, onStringsAll, setValue_onStrings old new f j, setValues_onStrings old new f js]
end

/-- One replacement after the other. -/
private def chain : List (String × AVal) → String → AVal
  | [], s => .str s
  | p :: rs, s => if s = p.1 then (match p.2 with | .str t => chain rs t | v => v) else chain rs s

private theorem fold_chain (rs : List (String × AVal)) (j : Jsx) :
    rs.foldl (fun j r => setValue r.1 r.2 j) j = onStrings (chain rs) j := by
  induction rs generalizing j with
  | nil => exact (onStrings_id j).symm
  | cons p rs ih =>
    rw [List.foldl_cons, ih, setValue_onStrings]
    rfl

private theorem chain_not_mem (rs : List (String × AVal)) (s : String) (h : ∀ p ∈ rs, p.1 ≠ s) :
    chain rs s = .str s := by
  induction rs with
  | nil => rfl
  | cons p rs ih =>
    have : ¬ s = p.1 := fun e => h p (by simp) e.symm
    simp only [chain, this, if_false]
    exact ih fun q hq => h q (List.mem_cons_of_mem _ hq)

private theorem chain_find (rs : List (String × AVal)) (hn : ∀ p ∈ rs, ∀ q ∈ rs, p.2 ≠ .str q.1)
    (s : String) : chain rs s = ((rs.find? fun p => p.1 == s).map (·.2)).getD (.str s) := by
  induction rs with
  | nil => rfl
  | cons p rs ih =>
    have ih := ih fun p hp q hq => hn p (List.mem_cons_of_mem _ hp) q (List.mem_cons_of_mem _ hq)
    simp only [chain, List.find?_cons]
    by_cases hs : s = p.1
    · subst hs
      simp only [if_true, beq_self_eq_true, Option.map_some, Option.getD_some]
      split
      · rename_i t ht
        rw [ht]
        refine chain_not_mem rs t fun q hq e => hn p (by simp) q (List.mem_cons_of_mem _ hq) ?_
        rw [ht, e]
      · rfl
    · have : (p.1 == s) = false := by simpa using fun e : p.1 = s => hs e.symm
      simp only [hs, if_false, this]
      exact ih

/-- **C86 (replaced values)**: if no new value is one that is replaced itself, every value of an
attribute that is to be replaced becomes the new one, and no other changes. -/
theorem replace_spec (rs : List (String × AVal)) (hn : ∀ p ∈ rs, ∀ q ∈ rs, p.2 ≠ .str q.1) (j : Jsx) :
    rs.foldl (fun j r => setValue r.1 r.2 j) j =
      onStrings (fun s => ((rs.find? fun p => p.1 == s).map (·.2)).getD (.str s)) j := by
  rw [fold_chain]
  congr 1
  funext s
  exact chain_find rs hn s

/-- **C86 (the order of the map)**: then the order in which the map is gone through does not
matter. -/
theorem replace_order (rs rs' : List (String × AVal)) (hp : rs.Perm rs') (hk : (rs.map (·.1)).Nodup)
    (hn : ∀ p ∈ rs, ∀ q ∈ rs, p.2 ≠ .str q.1) (j : Jsx) :
    rs.foldl (fun j r => setValue r.1 r.2 j) j = rs'.foldl (fun j r => setValue r.1 r.2 j) j := by
  rw [replace_spec rs hn, replace_spec rs' fun p h q g => hn p (hp.mem_iff.mpr h) q (hp.mem_iff.mpr g)]
  congr 1
  funext s
  congr 2
  have uniq : ∀ p ∈ rs, ∀ q ∈ rs, p.1 = q.1 → p = q := by
    clear hp hn
    induction rs with
    | nil => simp
    | cons a rs ih =>
      simp only [List.map_cons, List.nodup_cons, List.mem_map, not_exists, not_and] at hk
      intro p hp q hq e
      rcases List.mem_cons.mp hp with rfl | hp' <;> rcases List.mem_cons.mp hq with rfl | hq'
      · rfl
      · exact absurd e.symm (hk.1 q hq')
      · exact absurd e (hk.1 p hp')
      · exact ih hk.2 p hp' q hq' e
  cases h : rs.find? (fun p => p.1 == s) with
  | none =>
    rw [List.find?_eq_none] at h
    symm
    rw [List.find?_eq_none]
    exact fun q hq => h q (hp.mem_iff.mpr hq)
  | some p =>
    have h1 := List.mem_of_find?_eq_some h
    have h2 := List.find?_some h
    cases h' : rs'.find? (fun p => p.1 == s) with
    | none =>
      rw [List.find?_eq_none] at h'
      exact absurd h2 (h' p (hp.mem_iff.mp h1))
    | some q =>
      have g1 := hp.mem_iff.mpr (List.mem_of_find?_eq_some h')
      have g2 := List.find?_some h'
      simp only [beq_iff_eq] at h2 g2
      rw [uniq p h1 q g1 (h2.trans g2.symm)]

/-! ## Where it goes wrong -/

/-- **C86 (violated, the order of the map)**: if a new value is one that is replaced itself, the
result depends on the order. -/
theorem replace_order_violated (a b c n : String) (ha : a ≠ b) (hb : b ≠ c) (m : String) :
    [(a, AVal.str b), (b, AVal.str c)].foldl (fun j r => setValue r.1 r.2 j)
        (.elem m [.attr n (some (.str a))] true none []) ≠
    [(b, AVal.str c), (a, AVal.str b)].foldl (fun j r => setValue r.1 r.2 j)
        (.elem m [.attr n (some (.str a))] true none []) := by
  simp [setValue, setValues, ha, hb.symm]

/-- **C86 (violated, labels)**: with the property for the title, the label that the document has
for its `svg` element is lost where no id is given: `aria-labelledby` is undefined. -/
theorem label_lost_violated (ρ σ : Vars) (c : Config) (vs : List (String × AVal))
    (hv : (vs.map (·.1)).Nodup) (as : List JAttr) (h : Plain as) (ht : c.titleProp = some true)
    (hi : ρ "titleId" = none) (hs : σ "aria-labelledby" = none) :
    valueOf ρ σ (svgAttrs c vs as) "aria-labelledby" = some none := by
  rw [svgAttrs_value ρ σ c vs hv as h]
  simp [ht, hi, hs]

/-- **C86 (violated, nested titles)**: a title inside of another element that comes first takes
the place of the one of the `svg` element. -/
theorem nested_title_violated (ρ σ : Vars) (as bs : List JAttr) (t u : List Char) (v : AVal)
    (hv : ρ "title" = some v) :
    ∃ j', conditional "title" "titleId" "title" "svg"
        (.elem "svg" as false (some "svg")
          [.elem "g" bs false (some "g") [.elem "title" [] false (some "title") [.text t]],
            .elem "title" [] false (some "title") [.text u]]) = some j' ∧
      render ρ σ j' = [.el "svg" (valueOf ρ σ as)
        [.el "g" (valueOf ρ σ bs) [.el "title" (idOnly (ρ "titleId")) [.ex v]],
          .el "title" (valueOf ρ σ []) [.tx u]]] := by
  refine ⟨_, by simp only [conditional, modFirst, modFirsts]; rfl, ?_⟩
  have := inserting_render ρ σ "title" "titleId" "title" none v hv
  simp [eitherElem, giveId, render, renders, hv, this, AVal.eval]

/-! ## React Native -/

/-- The number of tags that are opened and not closed by the same token. -/
private def opened : List Tok → Nat
  | [] => 0
  | .opn _ _ false :: ts => opened ts + 1
  | .fopn :: ts => opened ts + 1
  | _ :: ts => opened ts

/-- The number of closing tags. -/
private def closed : List Tok → Nat
  | [] => 0
  | .cls _ :: ts => closed ts + 1
  | .fcls :: ts => closed ts + 1
  | _ :: ts => closed ts

private theorem opened_append (a b : List Tok) : opened (a ++ b) = opened a + opened b := by
  induction a with
  | nil => simp [opened]
  | cons t a ih =>
    rw [List.cons_append]
    cases t with
    | opn n as sc => cases sc <;> simp only [opened, ih]; omega
    | fopn => simp only [opened, ih]; omega
    | _ => simp only [opened, ih]

private theorem closed_append (a b : List Tok) : closed (a ++ b) = closed a + closed b := by
  induction a with
  | nil => simp [closed]
  | cons t a ih =>
    rw [List.cons_append]
    cases t with
    | cls n => simp only [closed, ih]; omega
    | fcls => simp only [closed, ih]; omega
    | _ => simp only [closed, ih]

private theorem steps_balance (ts : List Tok) (ks ks' : List V) (fs fs' : List Frame)
    (h : steps (ks, fs) ts = some (ks', fs')) :
    fs.length + opened ts = fs'.length + closed ts := by
  induction ts generalizing ks fs with
  | nil =>
    simp only [steps, Option.some.injEq, Prod.mk.injEq] at h
    simp [opened, closed, h.2]
  | cons t ts ih =>
    simp only [steps] at h
    cases t with
    | opn n as sc =>
      cases sc <;> simp only [step, Option.bind_some] at h <;> have := ih _ _ h <;>
        simp [opened, closed] at this ⊢ <;> omega
    | cls n =>
      simp only [step] at h
      rcases fs with _ | ⟨⟨_ | ⟨m, as⟩, up⟩, fs⟩
      · simp at h
      · simp at h
      · simp only at h
        split at h
        · have := ih _ _ h
          simp only [opened, closed, List.length_cons] at this ⊢
          omega
        · simp at h
    | fopn =>
      have := ih _ _ h
      simp only [opened, closed, List.length_cons] at this ⊢
      omega
    | fcls =>
      simp only [step] at h
      rcases fs with _ | ⟨⟨_ | ⟨m, as⟩, up⟩, fs⟩
      · simp at h
      · have := ih _ _ h
        simp only [opened, closed, List.length_cons] at this ⊢
        omega
      · simp at h
    | chr c =>
      simp only [step] at h
      split at h
      · exact ih _ _ h
      · simp at h
    | hole => exact ih _ _ h
    | expr j => exact ih _ _ h

/-- Somewhere inside of elements that React Native has, one of them has children and it has none of
those. -/
inductive Bare : Jsx → Prop
  | here {n as sc cl k ks} : nativeName n ≠ none →
      (∀ j ∈ k :: ks, ∃ m bs sc cl ls, j = .elem m bs sc cl ls ∧ nativeName m = none) →
      Bare (.elem n as sc cl (k :: ks))
  | kid {n as sc cl j ks} : nativeName n ≠ none → j ∈ ks → Bare j → Bare (.elem n as sc cl ks)
  | frag {j ks} : j ∈ ks → Bare j → Bare (.frag ks)

mutual
/-- Elements as they are made from a document. -/
private def Tidy : Jsx → Prop
  | .elem _ _ sc _ ks => sc = ks.isEmpty ∧ TidyAll ks
  | .frag ks => TidyAll ks
  | _ => True
private def TidyAll : List Jsx → Prop
  | [] => True
  | j :: js => Tidy j ∧ TidyAll js
end

mutual
private theorem tidy_toJsx (d : Doc) : Tidy (toJsx d) := by
  match d with
  | .element pre loc attrs kids =>
    simp only [toJsx]
    split
    · trivial
    · refine ⟨?_, tidy_toJsxs kids⟩
      cases kids <;> rfl
  | .text none => trivial
  | .text (some s) => trivial
  | .pi none => trivial
  | .pi (some s) => trivial
  | .comment => trivial
  | .style css => trivial
private theorem tidy_toJsxs (ds : List Doc) : TidyAll (toJsxs ds) := by
  match ds with
  | [] => trivial
  | d :: ds => exact ⟨tidy_toJsx d, tidy_toJsxs ds⟩
end

private theorem tidy_docJsx (ds : List Doc) : Tidy (docJsx ds) := by
  have := tidy_toJsxs (ds.filter Doc.shown)
  simp only [docJsx]
  split
  · rename_i j hj
    rw [hj] at this
    exact this.1
  · exact this

private theorem opened_chrs (s : List Char) : opened (s.map .chr) = 0 ∧ closed (s.map .chr) = 0 := by
  induction s with
  | nil => exact ⟨rfl, rfl⟩
  | cons c s ih => simpa [opened, closed] using ih

mutual
private theorem native_surplus (j j' : Jsx) (ht : Tidy j) (h : toNative j = some j') :
    closed (emit j') ≤ opened (emit j') := by
  match j with
  | .elem n as sc cl ks =>
    simp only [toNative] at h
    split at h
    · cases h
    · cases h
      have hk := natives_surplus ks ht.2
      have hsc := ht.1
      cases ks with
      | nil =>
        simp only [List.isEmpty_nil] at hsc
        subst hsc
        simp [toNatives, emit, emits, opened, closed]
      | cons k ks =>
        simp only [List.isEmpty_cons] at hsc
        subst hsc
        simp only [emit, opened, closed, opened_append, closed_append]
        split <;> simp only [opened, closed] <;> omega
  | .frag ks =>
    cases h
    have hk := natives_surplus ks ht
    simp only [emit, opened, closed, opened_append, closed_append]
    omega
  | .text s => cases h; simp [emit, opened_chrs s]
  | .empty => cases h; simp [emit, opened, closed]
  | .ident _ => cases h; simp [emit, opened, closed]
  | .cond .. => cases h; simp [emit, opened, closed]
  | .null => cases h; simp [emit, opened, closed]
private theorem natives_surplus (js : List Jsx) (ht : TidyAll js) :
    closed (emits (toNatives js)) ≤ opened (emits (toNatives js)) := by
  match js with
  | [] => simp [toNatives, emits, opened, closed]
  | j :: js =>
    have h2 := natives_surplus js ht.2
    simp only [toNatives]
    split
    · rename_i j' hj
      have h1 := native_surplus j j' ht.1 hj
      simp only [emits, opened_append, closed_append]
      omega
    · exact h2
end

private theorem toNative_some (n : String) (as : List JAttr) (sc : Bool) (cl : Option String) (ks : List Jsx)
    (h : nativeName n ≠ none) : ∃ j', toNative (.elem n as sc cl ks) = some j' := by
  obtain ⟨m, hm⟩ := Option.ne_none_iff_exists'.mp h
  exact ⟨_, by simp only [toNative, hm]; rfl⟩

private theorem bare_toNative {j : Jsx} (h : Bare j) : ∃ j', toNative j = some j' := by
  cases h with
  | here h _ => exact toNative_some _ _ _ _ _ h
  | kid h _ _ => exact toNative_some _ _ _ _ _ h
  | frag _ _ => exact ⟨_, rfl⟩

private theorem natives_strict (j : Jsx) (ks : List Jsx) (hm : j ∈ ks) (ht : TidyAll ks) (j' : Jsx)
    (hj : toNative j = some j') (h : closed (emit j') < opened (emit j')) :
    closed (emits (toNatives ks)) < opened (emits (toNatives ks)) := by
  induction ks with
  | nil => cases hm
  | cons k ks ih =>
    have hs := natives_surplus ks ht.2
    rcases List.mem_cons.mp hm with rfl | hm
    · simp only [toNatives, hj, emits, opened_append, closed_append]
      omega
    · have := ih hm ht.2
      simp only [toNatives]
      split
      · rename_i k' hk
        have := native_surplus k k' ht.1 hk
        simp only [emits, opened_append, closed_append]
        omega
      · exact this

private theorem tidyAll_mem {j : Jsx} {ks : List Jsx} (h : TidyAll ks) (hm : j ∈ ks) : Tidy j := by
  induction ks with
  | nil => cases hm
  | cons k ks ih =>
    rcases List.mem_cons.mp hm with rfl | hm
    · exact h.1
    · exact ih h.2 hm

private theorem bare_strict {j : Jsx} (hb : Bare j) (ht : Tidy j) (j' : Jsx) (h : toNative j = some j') :
    closed (emit j') < opened (emit j') := by
  induction hb generalizing j' with
  | @here n as sc cl k ks hn hk =>
    obtain ⟨m, hm⟩ := Option.ne_none_iff_exists'.mp hn
    have he : toNatives (k :: ks) = [] := by
      generalize k :: ks = ls at hk
      induction ls with
      | nil => rfl
      | cons l ls ih =>
        obtain ⟨m', bs, sc', cl', ls', rfl, hn'⟩ := hk l (by simp)
        simp only [toNatives, toNative, hn']
        exact ih fun j hj => hk j (List.mem_cons_of_mem _ hj)
    have hsc := ht.1
    simp only [List.isEmpty_cons] at hsc
    subst hsc
    simp only [toNative, hm, he] at h
    cases h
    simp [emit, emits, opened, closed]
  | @kid n as sc cl j ks hn hm hb ih =>
    obtain ⟨m, hm'⟩ := Option.ne_none_iff_exists'.mp hn
    obtain ⟨k', hk'⟩ := bare_toNative hb
    have hst := natives_strict j ks hm ht.2 k' hk' (ih (tidyAll_mem ht.2 hm) k' hk')
    have hsc := ht.1
    cases ks with
    | nil => cases hm
    | cons k ks =>
      simp only [List.isEmpty_cons] at hsc
      subst hsc
      simp only [toNative, hm'] at h
      cases h
      simp only [emit, opened, closed, opened_append, closed_append]
      split <;> simp only [opened, closed] <;> omega
  | @frag j ks hm hb ih =>
    obtain ⟨k', hk'⟩ := bare_toNative hb
    have hst := natives_strict j ks hm ht k' hk' (ih (tidyAll_mem ht hm) k' hk')
    cases h
    simp only [emit, opened, closed, opened_append, closed_append]
    omega

mutual
private theorem modFirst_counts (n : String) (g : List JAttr → List JAttr) (j j' : Jsx)
    (h : modFirst n (onAttrs g) j = some j') :
    opened (emit j') = opened (emit j) ∧ closed (emit j') = closed (emit j) := by
  match j with
  | .elem m as sc cl ks =>
    simp only [modFirst] at h
    split at h
    · cases h
      cases sc <;> simp [onAttrs, emit, opened, closed]
    · simp only [Option.map_eq_some_iff] at h
      obtain ⟨ks', hk, rfl⟩ := h
      have := modFirsts_counts n g ks ks' hk
      cases sc <;> simp [emit, opened, closed, opened_append, closed_append, this]
  | .frag ks =>
    simp only [modFirst, Option.map_eq_some_iff] at h
    obtain ⟨ks', hk, rfl⟩ := h
    have := modFirsts_counts n g ks ks' hk
    simp [emit, opened, closed, opened_append, closed_append, this]
  | .text _ => cases h
  | .empty => cases h
  | .ident _ => cases h
  | .cond .. => cases h
  | .null => cases h
private theorem modFirsts_counts (n : String) (g : List JAttr → List JAttr) (js js' : List Jsx)
    (h : modFirsts n (onAttrs g) js = some js') :
    opened (emits js') = opened (emits js) ∧ closed (emits js') = closed (emits js) := by
  match js with
  | [] => cases h
  | j :: js =>
    simp only [modFirsts] at h
    split at h
    · rename_i j' hj
      cases h
      have := modFirst_counts n g j j' hj
      simp [emits, opened_append, closed_append, this]
    · simp only [Option.map_eq_some_iff] at h
      obtain ⟨ks', hk, rfl⟩ := h
      have := modFirsts_counts n g js ks' hk
      simp [emits, opened_append, closed_append, this]
end

mutual
private theorem setValue_counts (old : String) (new : AVal) (j : Jsx) :
    opened (emit (setValue old new j)) = opened (emit j) ∧
      closed (emit (setValue old new j)) = closed (emit j) := by
  match j with
  | .elem m as sc cl ks =>
    have := setValues_counts old new ks
    cases sc <;> simp [setValue, emit, opened, closed, opened_append, closed_append, this]
  | .frag ks =>
    have := setValues_counts old new ks
    simp [setValue, emit, opened, closed, opened_append, closed_append, this]
  | .text _ => exact ⟨rfl, rfl⟩
  | .empty => exact ⟨rfl, rfl⟩
  | .ident _ => exact ⟨rfl, rfl⟩
  | .cond .. => exact ⟨rfl, rfl⟩
  | .null => exact ⟨rfl, rfl⟩
private theorem setValues_counts (old : String) (new : AVal) (js : List Jsx) :
    opened (emits (setValues old new js)) = opened (emits js) ∧
      closed (emits (setValues old new js)) = closed (emits js) := by
  match js with
  | [] => exact ⟨rfl, rfl⟩
  | j :: js =>
    have h1 := setValue_counts old new j
    have h2 := setValues_counts old new js
    simp [setValues, emits, opened_append, closed_append, h1, h2]
end

private theorem replace_counts (rs : List (String × AVal)) (j : Jsx) :
    opened (emit (rs.foldl (fun j r => setValue r.1 r.2 j) j)) = opened (emit j) ∧
      closed (emit (rs.foldl (fun j r => setValue r.1 r.2 j) j)) = closed (emit j) := by
  induction rs generalizing j with
  | nil => exact ⟨rfl, rfl⟩
  | cons r rs ih =>
    rw [List.foldl_cons]
    have h1 := ih (setValue r.1 r.2 j)
    have h2 := setValue_counts r.1 r.2 j
    exact ⟨h1.1.trans h2.1, h1.2.trans h2.2⟩

/-- **C86 (violated, React Native)**: if an element that is kept, at any place, has children and
none of them is kept, its tag is not closed and the JSX cannot be read. -/
theorem native_unclosed_violated (parse : String → Option String) (c : Config) (kids : List Doc) (j' : Jsx)
    (ids : List String) (hn : c.native = some true) (ht : c.titleProp ≠ some true)
    (hd : c.descProp ≠ some true) (hb : Bare (docJsx kids))
    (h : preset parse c (docJsx kids) = .ok (j', ids)) : read (emit j') = none := by
  obtain ⟨j1, hj1⟩ := bare_toNative hb
  have hlt := bare_strict hb (tidy_docJsx kids) j1 hj1
  have htf : c.titleProp.getD false = false := by
    rcases hc : c.titleProp with _ | _ | _ <;> simp_all
  have hdf : c.descProp.getD false = false := by
    rcases hc : c.descProp with _ | _ | _ <;> simp_all
  unfold preset at h
  simp only [hn, Option.getD_some, if_true, hj1, htf, hdf, Bool.false_eq_true, if_false] at h
  split at h
  · cases h
  split at h
  · cases h
  rename_i vs hvs
  split at h
  · cases h
  rename_i j2 hj2
  split at h
  · cases h
  rename_i rs hrs
  simp only [Except.ok.injEq, Prod.mk.injEq] at h
  obtain ⟨rfl, -⟩ := h
  have c1 := modFirst_counts _ _ _ _ hj2
  have c2 := replace_counts rs j2
  generalize rs.foldl (fun j r => setValue r.1 r.2 j) j2 = j3 at c2
  simp only [read]
  split
  · rename_i ks hs
    have := steps_balance _ _ _ _ _ hs
    simp only [List.length_nil] at this
    omega
  · rfl

/-- A picture with a title. -/
def titled : List Doc := [.element none "svg" [] [.element none "g" [] [.element none "title" [] []]]]

example : ∃ j ids, preset (fun _ => none) { native := some true } (docJsx titled) = .ok (j, ids) ∧
    read (emit j) = none := by
  refine ⟨_, _, rfl, ?_⟩
  rfl

/-- The properties of an example. -/
def sampleVars : Vars := fun x => if x = "title" then some (.str "Home") else none

example : ∃ j, conditional "title" "titleId" "title" "svg" (docJsx titled) = some j ∧
    render sampleVars (fun _ => none) j =
      [.el "svg" (valueOf sampleVars (fun _ => none) [])
        [.el "g" (valueOf sampleVars (fun _ => none) []) [.el "title" (idOnly none) [.ex (.str "Home")]]]] := by
  obtain ⟨j, hj⟩ : ∃ j, conditional "title" "titleId" "title" "svg" (docJsx titled) = some j := ⟨_, rfl⟩
  refine ⟨j, hj, ?_⟩
  have hs : Static (docJsx titled) :=
    have e : Plain [] := ⟨by simp, .nil⟩
    ⟨e, ⟨e, ⟨e, trivial⟩, trivial⟩, trivial⟩
  have := conditional_given sampleVars (fun _ => none) "title" "titleId" "title" "svg" _ j hs (.str "Home")
    rfl rfl hj
  exact Option.some.inj this

example (σ : Vars) : valueOf (fun _ => none) σ
    (svgAttrs { icon := some (.bool true), expandProps := some .off } [("role", .str "img")]
      [.attr "width" (some (.num (3, 1)))]) "width" = some (some (.str "1em")) := by
  rw [svgAttrs_value _ _ _ _ (by simp) _ ⟨by simp, by simp [attrNames]⟩]
  simp [Config.expand, iconVal, AVal.eval]

end Verif.Jsx
