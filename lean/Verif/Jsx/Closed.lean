import Verif.Jsx.Scope

/-!
# The names of a module
-/

namespace Verif.Jsx

private theorem attrsJsx_uses (as : List (Name × Val)) : (attrsJsx as).flatMap JAttr.uses = [] := by
  induction as with
  | nil => rfl
  | cons a as ih =>
    obtain ⟨n, v⟩ := a
    simp only [attrsJsx, List.filterMap_cons] at ih ⊢
    split
    · exact ih
    · rename_i b hb
      split at hb
      · simp only [Option.some.injEq] at hb
        subst hb
        rw [List.flatMap_cons, ih]
        cases v <;> rfl
      · cases hb

mutual
private theorem toJsx_uses (d : Doc) (h : d.Small) : uses (toJsx d) = [] := by
  match d with
  | .element pre loc attrs kids =>
    simp only [toJsx]
    split
    · rfl
    · simp [uses, h.1, attrsJsx_uses, toJsxs_uses kids h.2]
  | .text none => rfl
  | .text (some s) => rfl
  | .pi none => rfl
  | .pi (some s) => rfl
  | .comment => rfl
  | .style css => rfl
private theorem toJsxs_uses (ds : List Doc) (h : SmallAll ds) : usess (toJsxs ds) = [] := by
  match ds with
  | [] => rfl
  | d :: ds => simp [toJsxs, usess, toJsx_uses d h.1, toJsxs_uses ds h.2]
end

private theorem smallAll_filter (p : Doc → Bool) (ds : List Doc) (h : SmallAll ds) :
    SmallAll (ds.filter p) := by
  induction ds with
  | nil => trivial
  | cons d ds ih =>
    rw [List.filter_cons]
    split
    · exact ⟨h.1, ih h.2⟩
    · exact ih h.2

private theorem docJsx_uses (ds : List Doc) (h : SmallAll ds) : uses (docJsx ds) = [] := by
  have := toJsxs_uses _ (smallAll_filter Doc.shown ds h)
  simp only [docJsx]
  split
  · rename_i j hj
    rw [hj] at this
    simpa [usess] using this
  · simpa [uses] using this

mutual
/-- A change to an element adds only what it adds there. -/
private theorem modFirst_uses (n : String) (f : Jsx → Jsx) (S : List String)
    (hf : ∀ as sc cl ks, uses (f (.elem n as sc cl ks)) ⊆ uses (.elem n as sc cl ks) ++ S)
    (j j' : Jsx) (h : modFirst n f j = some j') : uses j' ⊆ uses j ++ S := by
  match j with
  | .elem m as sc cl ks =>
    simp only [modFirst] at h
    split at h
    · rename_i hm
      subst hm
      cases h
      exact hf as sc cl ks
    · simp only [Option.map_eq_some_iff] at h
      obtain ⟨ks', hk, rfl⟩ := h
      have := modFirsts_uses n f S hf ks ks' hk
      intro x hx
      simp only [uses, List.mem_append] at hx ⊢
      rcases hx with (hx | hx) | hx
      · exact Or.inl (Or.inl (Or.inl hx))
      · exact Or.inl (Or.inl (Or.inr hx))
      · rcases List.mem_append.mp (this hx) with h | h
        · exact Or.inl (Or.inr h)
        · exact Or.inr h
  | .frag ks =>
    simp only [modFirst, Option.map_eq_some_iff] at h
    obtain ⟨ks', hk, rfl⟩ := h
    exact modFirsts_uses n f S hf ks ks' hk
  | .text _ => cases h
  | .empty => cases h
  | .ident _ => cases h
  | .cond .. => cases h
  | .null => cases h
private theorem modFirsts_uses (n : String) (f : Jsx → Jsx) (S : List String)
    (hf : ∀ as sc cl ks, uses (f (.elem n as sc cl ks)) ⊆ uses (.elem n as sc cl ks) ++ S)
    (js js' : List Jsx) (h : modFirsts n f js = some js') : usess js' ⊆ usess js ++ S := by
  match js with
  | [] => cases h
  | j :: js =>
    simp only [modFirsts] at h
    split at h
    · rename_i j' hj
      cases h
      have := modFirst_uses n f S hf j j' hj
      intro x hx
      simp only [usess, List.mem_append] at hx ⊢
      rcases hx with hx | hx
      · rcases List.mem_append.mp (this hx) with h | h
        · exact Or.inl (Or.inl h)
        · exact Or.inr h
      · exact Or.inl (Or.inr hx)
    · simp only [Option.map_eq_some_iff] at h
      obtain ⟨ks', hk, rfl⟩ := h
      have := modFirsts_uses n f S hf js ks' hk
      intro x hx
      simp only [usess, List.mem_append] at hx ⊢
      rcases hx with hx | hx
      · exact Or.inl (Or.inl hx)
      · rcases List.mem_append.mp (this hx) with h | h
        · exact Or.inl (Or.inr h)
        · exact Or.inr h
end

private theorem setAttr_uses (n : String) (v : AVal) (as : List JAttr) :
    (setAttr n v as).flatMap JAttr.uses ⊆ as.flatMap JAttr.uses ++ v.uses := by
  induction as with
  | nil => simp [setAttr, JAttr.uses]
  | cons a as ih =>
    cases a with
    | attr m w =>
      simp only [setAttr]
      split
      · intro x hx
        simp only [List.flatMap_cons, List.mem_append, JAttr.uses] at hx ⊢
        rcases hx with hx | hx
        · exact Or.inr hx
        · exact Or.inl (Or.inr hx)
      · intro x hx
        simp only [List.flatMap_cons, List.mem_append] at hx ⊢
        rcases hx with hx | hx
        · exact Or.inl (Or.inl hx)
        · rcases List.mem_append.mp (ih hx) with h | h
          · exact Or.inl (Or.inr h)
          · exact Or.inr h
    | spread y =>
      intro x hx
      simp only [setAttr, List.flatMap_cons, List.mem_append] at hx ⊢
      rcases hx with hx | hx
      · exact Or.inl (Or.inl hx)
      · rcases List.mem_append.mp (ih hx) with h | h
        · exact Or.inl (Or.inr h)
        · exact Or.inr h

private theorem templates_uses (parse : String → Option String) (l : List (String × String))
    (vs : List (String × AVal)) (h : templates parse l = some vs) : ∀ p ∈ vs, p.2.uses = [] := by
  induction l generalizing vs with
  | nil => cases h; simp
  | cons q l ih =>
    obtain ⟨k, v⟩ := q
    simp only [templates] at h
    split at h
    · rename_i w r hw hr
      cases h
      intro p hp
      rcases List.mem_cons.mp hp with rfl | hp
      · simp only [template] at hw
        split at hw
        · split at hw
          · simp only [Option.map_eq_some_iff] at hw
            obtain ⟨e, -, rfl⟩ := hw
            rfl
          · cases hw; rfl
        · cases hw; rfl
      · exact ih r hr p hp
    · cases h

private theorem setAll_uses (vs : List (String × AVal)) (hv : ∀ p ∈ vs, p.2.uses = []) (as : List JAttr) :
    (setAll vs as).flatMap JAttr.uses ⊆ as.flatMap JAttr.uses := by
  induction vs generalizing as with
  | nil => exact fun _ h => h
  | cons p vs ih =>
    intro x hx
    have := ih (fun p hp => hv p (List.mem_cons_of_mem _ hp)) _ hx
    have := setAttr_uses p.1 p.2 as this
    rw [hv p (by simp)] at this
    simpa using this

/-- The properties the attributes of the `svg` element use. -/
private def attrProps (c : Config) : List String :=
  (if c.ref.getD false then ["ref"] else []) ++ (if c.titleProp.getD false then ["titleId"] else []) ++
    (if c.descProp.getD false then ["descId"] else []) ++ (if c.expand = .off then [] else ["props"])

private theorem iconVal_uses (b : Bool) (i : Option Icon) (v : AVal) (h : iconVal b i = some v) :
    v.uses = [] := by
  cases i with
  | none => cases h
  | some i =>
    cases i with
    | bool c => cases c <;> cases b <;> cases h <;> rfl
    | string s => cases h; rfl
    | number q => cases h; rfl

private theorem noDims_uses (as : List JAttr) : (noDims as).flatMap JAttr.uses ⊆ as.flatMap JAttr.uses := by
  intro x hx
  simp only [List.mem_flatMap, noDims, List.mem_filter] at hx ⊢
  obtain ⟨a, ⟨ha, -⟩, hx⟩ := hx
  exact ⟨a, ha, hx⟩

private theorem svgAttrs_uses (c : Config) (vs : List (String × AVal)) (hv : ∀ p ∈ vs, p.2.uses = [])
    (as : List JAttr) :
    (svgAttrs c vs as).flatMap JAttr.uses ⊆ as.flatMap JAttr.uses ++ attrProps c := by
  have step : ∀ (b : Bool) (n : String) (y : String) (as : List JAttr) (T : List String),
      as.flatMap JAttr.uses ⊆ T →
      (if b then setAttr n (.ident y) as else as).flatMap JAttr.uses ⊆ T ++ (if b then [y] else []) := by
    intro b n y as T h x hx
    cases b
    · simpa using h hx
    · rcases List.mem_append.mp (setAttr_uses n _ as hx) with g | g
      · exact List.mem_append.mpr (Or.inl (h g))
      · exact List.mem_append.mpr (Or.inr g)
  have h1 := setAll_uses vs hv as
  have h2 := step (c.ref.getD false) "ref" "ref" _ _ h1
  have h3 := step (c.titleProp.getD false) "aria-labelledby" "titleId" _ _ h2
  have h4 := step (c.descProp.getD false) "aria-describedby" "descId" _ _ h3
  have h5 : ∀ (A : List JAttr) (T : List String), A.flatMap JAttr.uses ⊆ T →
      (if (!c.dimensions.getD true) = true then noDims A else A).flatMap JAttr.uses ⊆ T := by
    intro A T h
    split
    · exact fun x hx => h (noDims_uses A hx)
    · exact h
  have h7 : ∀ (B : List JAttr) (T : List String), B.flatMap JAttr.uses ⊆ T →
      (match iconVal (c.native.getD false) c.icon with
      | some v => setAttr "height" v (setAttr "width" v B)
      | none => B).flatMap JAttr.uses ⊆ T := by
    intro B T h
    split
    · rename_i v hv
      intro x hx
      have e := iconVal_uses _ _ _ hv
      have := setAttr_uses _ _ _ hx
      rw [e, List.append_nil] at this
      have := setAttr_uses _ _ _ this
      rw [e, List.append_nil] at this
      exact h this
    · exact h
  have h8 : ∀ (C : List JAttr) (T : List String), C.flatMap JAttr.uses ⊆ T →
      (match c.expand with
      | .start => JAttr.spread "props" :: C
      | .last => C ++ [JAttr.spread "props"]
      | .off => C).flatMap JAttr.uses ⊆ T ++ (if c.expand = .off then [] else ["props"]) := by
    intro C T h x hx
    cases he : c.expand <;> rw [he] at hx <;>
      simp only [List.flatMap_cons, List.flatMap_append, List.flatMap_nil, JAttr.uses, List.mem_append,
        List.append_nil] at hx <;> simp <;> grind
  have h9 := h8 _ _ (h7 _ _ (h5 _ _ h4))
  have e : as.flatMap JAttr.uses ++ attrProps c =
      (((as.flatMap JAttr.uses ++ if c.ref.getD false = true then ["ref"] else []) ++
        if c.titleProp.getD false = true then ["titleId"] else []) ++
        if c.descProp.getD false = true then ["descId"] else []) ++
        if c.expand = .off then [] else ["props"] := by
    simp only [attrProps, List.append_assoc]
  rw [e]
  exact h9

mutual
private theorem setValue_uses (old : String) (new : AVal) (hn : new.uses = []) (j : Jsx) :
    uses (setValue old new j) ⊆ uses j := by
  match j with
  | .elem n as sc cl ks =>
    intro x hx
    simp only [setValue, uses, List.mem_append, List.mem_flatMap, List.mem_map] at hx ⊢
    rcases hx with (hx | hx) | hx
    · exact Or.inl (Or.inl hx)
    · obtain ⟨b, ⟨a, ha, rfl⟩, hx⟩ := hx
      refine Or.inl (Or.inr ⟨a, ha, ?_⟩)
      split at hx
      · simp only [JAttr.uses] at hx
        split at hx
        · rw [hn] at hx; cases hx
        · exact hx
      · exact hx
    · exact Or.inr (setValues_uses old new hn ks hx)
  | .frag ks => exact setValues_uses old new hn ks
  | .text _ => exact fun _ h => h
  | .empty => exact fun _ h => h
  | .ident _ => exact fun _ h => h
  | .cond .. => exact fun _ h => h
  | .null => exact fun _ h => h
private theorem setValues_uses (old : String) (new : AVal) (hn : new.uses = []) (js : List Jsx) :
    usess (setValues old new js) ⊆ usess js := by
  match js with
  | [] => exact fun _ h => h
  | j :: js =>
    intro x hx
    simp only [setValues, usess, List.mem_append] at hx ⊢
    rcases hx with hx | hx
    · exact Or.inl (setValue_uses old new hn j hx)
    · exact Or.inr (setValues_uses old new hn js hx)
end

private theorem replace_uses (rs : List (String × AVal)) (hv : ∀ p ∈ rs, p.2.uses = []) (j : Jsx) :
    uses (rs.foldl (fun j r => setValue r.1 r.2 j) j) ⊆ uses j := by
  induction rs generalizing j with
  | nil => exact fun _ h => h
  | cons r rs ih =>
    intro x hx
    exact setValue_uses _ _ (hv r (by simp)) j (ih (fun p hp => hv p (List.mem_cons_of_mem _ hp)) _ hx)

private theorem giveId_uses (id : String) (as : List JAttr) :
    (giveId id as).1.flatMap JAttr.uses ⊆ as.flatMap JAttr.uses ++ [id] ∧
      ∀ v, (giveId id as).2 = some v → v.uses ⊆ as.flatMap JAttr.uses ++ [id] := by
  induction as with
  | nil => simp [giveId]
  | cons a as ih =>
    obtain ⟨ih1, ih2⟩ := ih
    cases a with
    | attr n v =>
      simp only [giveId]
      split
      · cases v with
        | none =>
          refine ⟨?_, by simp⟩
          intro x hx
          simp only [List.flatMap_cons, JAttr.uses, AVal.uses, List.nil_append, List.mem_append] at hx ⊢
          exact Or.inl hx
        | some w =>
          refine ⟨?_, ?_⟩
          · intro x hx
            simp only [List.flatMap_cons, JAttr.uses, AVal.uses, List.mem_append, List.mem_cons] at hx ⊢
            rcases hx with (rfl | hx) | hx
            · exact Or.inr (Or.inl rfl)
            · exact Or.inl (Or.inl hx)
            · exact Or.inl (Or.inr hx)
          · intro v hv x hx
            cases hv
            simp only [List.flatMap_cons, JAttr.uses, AVal.uses, List.mem_append, List.mem_cons] at hx ⊢
            rcases hx with rfl | hx
            · exact Or.inr (Or.inl rfl)
            · exact Or.inl (Or.inl hx)
      · refine ⟨?_, ?_⟩
        · intro x hx
          simp only [List.flatMap_cons, List.mem_append] at hx ⊢
          rcases hx with hx | hx
          · exact Or.inl (Or.inl hx)
          · rcases List.mem_append.mp (ih1 hx) with h | h
            · exact Or.inl (Or.inr h)
            · exact Or.inr h
        · intro v hv x hx
          rcases List.mem_append.mp (ih2 v hv hx) with h | h
          · simp only [List.flatMap_cons, List.mem_append]
            exact Or.inl (Or.inr h)
          · exact List.mem_append.mpr (Or.inr h)
    | spread y =>
      simp only [giveId]
      refine ⟨?_, ?_⟩
      · intro x hx
        simp only [List.flatMap_cons, List.mem_append] at hx ⊢
        rcases hx with hx | hx
        · exact Or.inl (Or.inl hx)
        · rcases List.mem_append.mp (ih1 hx) with h | h
          · exact Or.inl (Or.inr h)
          · exact Or.inr h
      · intro v hv x hx
        rcases List.mem_append.mp (ih2 v hv hx) with h | h
        · simp only [List.flatMap_cons, List.mem_append]
          exact Or.inl (Or.inr h)
        · exact List.mem_append.mpr (Or.inr h)

private theorem conditional_uses (tag id child root : String) (j j' : Jsx)
    (h : conditional tag id child root j = some j') :
    uses j' ⊆ uses j ++ ([child, id, "undefined"] ++ if capital tag then [tag] else []) := by
  have key : ∀ (e : Option AVal) (T : List String), (∀ v, e = some v → v.uses ⊆ T ++ [id]) →
      uses (inserting tag id child e) ⊆ T ++ ([child, id, "undefined"] ++ if capital tag then [tag] else []) := by
    intro e T he x hx
    simp only [inserting, uses, usess, List.mem_append, List.flatMap_cons, List.flatMap_nil, JAttr.uses,
      List.append_nil, List.mem_cons, List.not_mem_nil, or_false] at hx ⊢
    rcases hx with (hx | hx) | hx
    · exact Or.inr (Or.inr hx)
    · cases e with
      | none =>
        simp only [Option.getD_none, AVal.uses, List.mem_singleton] at hx
        exact Or.inr (Or.inl (Or.inr (Or.inl hx)))
      | some v =>
        have := he v rfl hx
        simp only [List.mem_append, List.mem_singleton] at this
        rcases this with h | h
        · exact Or.inl h
        · exact Or.inr (Or.inl (Or.inr (Or.inl h)))
    · exact Or.inr (Or.inl (Or.inl hx))
  simp only [conditional] at h
  split at h
  · rename_i j2 h2
    cases h
    refine modFirst_uses tag _ _ ?_ j _ h2
    intro as sc cl ks x hx
    simp only [eitherElem, uses, List.mem_cons, List.mem_append] at hx
    rcases hx with rfl | rfl | hx | hx
    · simp
    · simp
    · rcases hx with (hx | hx) | hx
      · simp only [uses, List.mem_append]; exact Or.inl (Or.inl (Or.inl hx))
      · rcases List.mem_append.mp ((giveId_uses id as).1 hx) with h | h
        · simp only [uses, List.mem_append]; exact Or.inl (Or.inl (Or.inr h))
        · simp only [List.mem_singleton] at h
          simp [h]
      · simp only [uses, List.mem_append]; exact Or.inl (Or.inr hx)
    · have := key _ (as.flatMap JAttr.uses) (giveId_uses id as).2 hx
      rcases List.mem_append.mp this with h | h
      · simp only [uses, List.mem_append]; exact Or.inl (Or.inl (Or.inr h))
      · exact List.mem_append.mpr (Or.inr h)
  · refine modFirst_uses root _ _ ?_ j j' h
    intro as sc cl ks x hx
    simp only [insertFirst, uses, usess, List.mem_append, List.mem_cons, List.not_mem_nil, or_false] at hx
    rcases hx with (hx | hx) | (hx | hx) | hx
    · simp only [uses, List.mem_append]; exact Or.inl (Or.inl (Or.inl hx))
    · simp only [uses, List.mem_append]; exact Or.inl (Or.inl (Or.inr hx))
    · simp [hx]
    · have := key none [] (by simp) hx
      simp only [List.nil_append] at this
      exact List.mem_append.mpr (Or.inr this)
    · simp only [uses, List.mem_append]; exact Or.inl (Or.inr hx)

mutual
private theorem toNative_uses (j j' : Jsx) (hu : uses j = []) (h : toNative j = some j') :
    uses j' ⊆ names j' := by
  match j with
  | .elem n as sc cl ks =>
    simp only [toNative] at h
    split at h
    · cases h
    · cases h
      simp only [uses, List.append_eq_nil_iff] at hu
      intro x hx
      simp only [uses, hu.1.2, List.append_nil, List.mem_append] at hx
      rcases hx with hx | hx
      · split at hx
        · simp only [List.mem_singleton] at hx
          simp [names, hx]
        · cases hx
      · simp only [names, List.mem_cons]
        exact Or.inr (toNatives_uses ks hu.2 hx)
  | .frag ks =>
    cases h
    exact toNatives_uses ks (by simpa [uses] using hu)
  | .text _ => cases h; rw [hu]; simp
  | .empty => cases h; rw [hu]; simp
  | .ident _ => cases h; rw [hu]; simp
  | .cond .. => cases h; rw [hu]; simp
  | .null => cases h; rw [hu]; simp
private theorem toNatives_uses (js : List Jsx) (hu : usess js = []) :
    usess (toNatives js) ⊆ namess (toNatives js) := by
  match js with
  | [] => exact fun _ h => h
  | j :: js =>
    simp only [usess, List.append_eq_nil_iff] at hu
    simp only [toNatives]
    split
    · rename_i j' hj
      intro x hx
      simp only [usess, namess, List.mem_append] at hx ⊢
      rcases hx with hx | hx
      · exact Or.inl (toNative_uses j j' hu.1 hj hx)
      · exact Or.inr (toNatives_uses js hu.2 hx)
    · exact toNatives_uses js hu.2
end

/-- The identifiers of the JSX of a document with the configuration. -/
theorem preset_uses (parse : String → Option String) (c : Config) (j j' : Jsx) (ids : List String)
    (hu : uses j = []) (h : preset parse c j = .ok (j', ids)) :
    ∀ x ∈ uses j', x = "undefined" ∨ x ∈ attrProps c ∨
      (c.titleProp.getD false = true ∧ (x = "title" ∨ x = "titleId" ∨
        c.native.getD false = true ∧ x = "Title")) ∨
      (c.descProp.getD false = true ∧ (x = "desc" ∨ x = "descId" ∨
        c.native.getD false = true ∧ x = "Desc")) ∨
      (c.native.getD false = true ∧ x ∈ ids) := by
  unfold preset at h
  dsimp only at h
  generalize hp : (if c.native.getD false = true then
    (match toNative j with | some j' => (j', names j') | none => (j, [])) else (j, [])) = p at h
  obtain ⟨j1, ids1⟩ := p
  have hj1 : ∀ x ∈ uses j1, c.native.getD false = true ∧ x ∈ ids1 := by
    split at hp
    · rename_i hn
      split at hp
      · rename_i j2 h2
        cases hp
        exact fun x hx => ⟨hn, toNative_uses j _ hu h2 hx⟩
      · cases hp
        simp [hu]
    · cases hp
      simp [hu]
  simp only at h
  split at h
  · cases h
  split at h
  · cases h
  rename_i vs hvs
  split at h
  · cases h
  rename_i j2 hj2
  split at h
  · cases h
  rename_i rs hrs
  split at h
  · cases h
  rename_i j3 hj3
  split at h
  · cases h
  rename_i j4 hj4
  simp only [Except.ok.injEq, Prod.mk.injEq] at h
  obtain ⟨rfl, rfl⟩ := h
  have u2 : uses j2 ⊆ uses j1 ++ attrProps c := by
    refine modFirst_uses _ _ _ ?_ j1 j2 hj2
    intro as sc cl ks x hx
    simp only [onAttrs, uses, List.mem_append] at hx ⊢
    rcases hx with (hx | hx) | hx
    · exact Or.inl (Or.inl (Or.inl hx))
    · rcases List.mem_append.mp (svgAttrs_uses c vs (templates_uses parse _ vs hvs) as hx) with h | h
      · exact Or.inl (Or.inl (Or.inr h))
      · exact Or.inr h
    · exact Or.inl (Or.inr hx)
  have u3 := replace_uses rs (templates_uses parse _ rs hrs) j2
  have cond : ∀ (b : Bool) (tag id child root : String) (j j' : Jsx),
      (if b = true then conditional tag id child root j else some j) = some j' →
      ∀ x ∈ uses j', x ∈ uses j ∨ (b = true ∧ (x = child ∨ x = id ∨ x = "undefined" ∨
        (capital tag = true ∧ x = tag))) := by
    intro b tag id child root j j' h x hx
    cases b
    · simp only [Bool.false_eq_true, if_false, Option.some.injEq] at h
      subst h
      exact Or.inl hx
    · simp only [if_true] at h
      have := conditional_uses tag id child root j j' h hx
      simp only [List.mem_append, List.mem_cons, List.not_mem_nil, or_false] at this
      rcases this with h | h | h
      · exact Or.inl h
      · rcases h with h | h | h
        · exact Or.inr ⟨rfl, Or.inl h⟩
        · exact Or.inr ⟨rfl, Or.inr (Or.inl h)⟩
        · exact Or.inr ⟨rfl, Or.inr (Or.inr (Or.inl h))⟩
      · split at h
        · rename_i hc
          exact Or.inr ⟨rfl, Or.inr (Or.inr (Or.inr ⟨hc, by simpa using h⟩))⟩
        · cases h
  have d1 : capital "desc" = false := by decide +kernel
  have d2 : capital "title" = false := by decide +kernel
  intro x hx
  rcases cond _ _ _ _ _ _ _ hj4 x hx with hx | ⟨hb, hx⟩
  · rcases cond _ _ _ _ _ _ _ hj3 x hx with hx | ⟨hb, hx⟩
    · rcases List.mem_append.mp (u2 (u3 hx)) with hx | hx
      · exact Or.inr (Or.inr (Or.inr (Or.inr (hj1 x hx))))
      · exact Or.inr (Or.inl hx)
    · rcases hx with h | h | h | ⟨h1, h2⟩
      · exact Or.inr (Or.inr (Or.inr (Or.inl ⟨hb, Or.inl h⟩)))
      · exact Or.inr (Or.inr (Or.inr (Or.inl ⟨hb, Or.inr (Or.inl h)⟩)))
      · exact Or.inl h
      · split at h1
        · rename_i hn
          rw [if_pos hn] at h2
          exact Or.inr (Or.inr (Or.inr (Or.inl ⟨hb, Or.inr (Or.inr ⟨hn, h2⟩)⟩)))
        · rw [d1] at h1; cases h1
  · rcases hx with h | h | h | ⟨h1, h2⟩
    · exact Or.inr (Or.inr (Or.inl ⟨hb, Or.inl h⟩))
    · exact Or.inr (Or.inr (Or.inl ⟨hb, Or.inr (Or.inl h)⟩))
    · exact Or.inl h
    · split at h1
      · rename_i hn
        rw [if_pos hn] at h2
        exact Or.inr (Or.inr (Or.inl ⟨hb, Or.inr (Or.inr ⟨hn, h2⟩)⟩))
      · rw [d2] at h1; cases h1

private theorem mem_import (l : List Spec) (src x : String) :
    (x ∈ (if l.isEmpty then [] else [⟨l, src⟩] : List Import).flatMap fun i => i.specs.map Spec.local) ↔
      x ∈ l.map Spec.local := by
  cases l <;> simp

private theorem local_star : Spec.local ∘ Spec.star = id := rfl
private theorem local_named : Spec.local ∘ Spec.named = id := rfl

/-- What is imported, as far as it is looked at here. -/
private theorem locals_of (valid : String → Bool) (o : Opts) (j : Jsx) (m : Module)
    (h : variables valid o j = some m) :
    m.component = o.component ∧ m.body = j ∧ m.params = params o ∧ m.interfaces = interfaces o ∧
      exports valid o = some m.exports ∧ ∀ x, x ∈ m.locals ↔
        x ∈ o.runtimeDecl.namespaceName ∨ x ∈ o.runtimeDecl.specifiers.getD [] ∨
        x ∈ o.runtimeDecl.defaultSpecifier ∨ (o.ref = true ∧ x = "forwardRef") ∨
        (o.memo.getD false = true ∧ x = "memo") ∨
        (o.expands = true ∧ o.ts = true ∧ x = "SVGProps") ∨
        (o.native = true ∧ (x ∈ o.nativeIdents ∨ (o.title = true ∧ x = "Title") ∨
          (o.desc = true ∧ x = "Desc"))) := by
  simp only [variables] at h
  split at h
  · rename_i ns sp df es hr he
    cases h
    refine ⟨rfl, rfl, rfl, rfl, he, ?_⟩
    intro x
    simp only [runtimeImports] at hr
    split at hr
    · cases hr
    split at hr
    · cases hr
    split at hr
    · cases hr
    simp only [Option.some.injEq, Prod.mk.injEq] at hr
    obtain ⟨rfl, rfl, rfl⟩ := hr
    have hx : ∀ (x : String), x ∈ ((if o.ref then [Spec.named "forwardRef"] else []) ++
      (if o.memo.getD false then [Spec.named "memo"] else []) ++
      (if o.expands && o.ts && !o.native then [Spec.named "SVGProps"] else [])).map Spec.local ↔
      ((o.ref = true ∧ x = "forwardRef") ∨ (o.memo.getD false = true ∧ x = "memo") ∨
        (o.expands = true ∧ o.ts = true ∧ o.native = false ∧ x = "SVGProps")) := by
      intro x
      cases o.ref <;> cases o.memo.getD false <;> cases o.expands <;> cases o.ts <;> cases o.native <;>
        simp [Spec.local]
    generalize ((if o.ref then [Spec.named "forwardRef"] else []) ++
      (if o.memo.getD false then [Spec.named "memo"] else []) ++
      (if o.expands && o.ts && !o.native then [Spec.named "SVGProps"] else [])) = extra at hx
    have hn : (x ∈ (nativeImport o).flatMap fun i => i.specs.map Spec.local) ↔
        o.native = true ∧ ((o.expands = true ∧ o.ts = true ∧ x = "SVGProps") ∨ x ∈ o.nativeIdents ∨
          (o.title = true ∧ x = "Title") ∨ (o.desc = true ∧ x = "Desc")) := by
      simp only [nativeImport]
      cases o.native
      · simp
      · cases ht : o.title <;> cases hd : o.desc <;> cases o.ts <;> cases o.expands <;>
          cases h1 : o.nativeIdents.contains "Svg" <;> cases h2 : o.nativeIdents.contains "Title" <;>
          cases h3 : o.nativeIdents.contains "Desc" <;> simp [Spec.local] at h1 h2 h3 ⊢ <;> grind
    simp only [Module.locals, List.flatMap_append, List.mem_append, mem_import, hn]
    cases hsn : o.runtimeDecl.sourceNamespace with
    | none =>
      simp only [Option.isSome_none, Bool.false_eq_true, if_false, List.append_nil, List.map_append,
        List.mem_append, hx, List.map_map, local_star, local_named, List.map_id]
      cases o.runtimeDecl.defaultSpecifier <;> cases o.runtimeDecl.namespaceName <;>
        simp [Spec.local] <;> grind
    | some q =>
      simp only [Option.isSome_some, if_true, List.append_nil, List.map_append,
        List.mem_append, hx, List.map_map, local_star, local_named, List.map_id]
      cases o.runtimeDecl.defaultSpecifier <;> cases o.runtimeDecl.namespaceName <;>
        simp [Spec.local] <;> grind
  · cases h

/-- The parameters. -/
private theorem params_names (o : Opts) (x : String) :
    x ∈ (params o).flatMap Param.names ↔ (o.title = true ∧ (x = "title" ∨ x = "titleId")) ∨
      (o.desc = true ∧ (x = "desc" ∨ x = "descId")) ∨ (o.expands = true ∧ x = "props") ∨
      (o.ref = true ∧ (x = "ref" ∨ (o.title = false ∧ o.desc = false ∧ o.expands = false ∧ x = "_"))) := by
  simp only [params, Opts.labels]
  rcases Bool.eq_false_or_eq_true o.title with h1 | h1 <;> rcases Bool.eq_false_or_eq_true o.desc with h2 | h2 <;> rcases Bool.eq_false_or_eq_true o.expands with h3 | h3 <;> rcases Bool.eq_false_or_eq_true o.ref with h4 | h4 <;>
    simp [h1, h2, h3, h4, Param.names] <;> grind

mutual
private theorem toNative_names (j j' : Jsx) (h : toNative j = some j') :
    ∀ x ∈ names j', x ∈ nativeNames.map (·.2) := by
  match j with
  | .elem n as sc cl ks =>
    simp only [toNative] at h
    split at h
    · cases h
    · rename_i m hm
      cases h
      intro x hx
      simp only [names, List.mem_cons] at hx
      rcases hx with rfl | hx
      · simp only [nativeName, Option.map_eq_some_iff] at hm
        obtain ⟨r, hr, rfl⟩ := hm
        exact List.mem_map.mpr ⟨r, List.mem_of_find?_eq_some hr, rfl⟩
      · exact toNatives_names ks x hx
  | .frag ks =>
    cases h
    exact toNatives_names ks
  | .text _ => cases h; simp [names]
  | .empty => cases h; simp [names]
  | .ident _ => cases h; simp [names]
  | .cond .. => cases h; simp [names]
  | .null => cases h; simp [names]
private theorem toNatives_names (js : List Jsx) : ∀ x ∈ namess (toNatives js), x ∈ nativeNames.map (·.2) := by
  match js with
  | [] => simp [toNatives, namess]
  | j :: js =>
    simp only [toNatives]
    split
    · rename_i j' hj
      intro x hx
      simp only [namess, List.mem_append] at hx
      rcases hx with hx | hx
      · exact toNative_names j j' hj x hx
      · exact toNatives_names js x hx
    · exact toNatives_names js
end

private theorem preset_ids (parse : String → Option String) (c : Config) (j j' : Jsx) (ids : List String)
    (h : preset parse c j = .ok (j', ids)) : ∀ x ∈ ids, x ∈ nativeNames.map (·.2) := by
  unfold preset at h
  dsimp only at h
  repeat' split at h
  all_goals first | cases h | skip
  all_goals first | (exact toNative_names _ _ (by assumption)) | simp

private theorem nodup_eraseDups (l : List String) : l.eraseDups.Nodup := by
  generalize hn : l.length = n
  induction n using Nat.strongRecOn generalizing l with
  | _ n ih =>
    cases l with
    | nil => simp
    | cons a l =>
      rw [List.eraseDups_cons, List.nodup_cons]
      refine ⟨by simp, ih _ ?_ _ rfl⟩
      have := List.length_filter_le (fun b => !b == a) l
      simp only [List.length_cons] at hn
      omega

/-- **C84 (every name is declared)**: in the module for a document whose elements have names in
small letters, every identifier is declared: a parameter, an import, or declared before. -/
theorem transform_resolved (parse : String → Option String) (valid : String → Bool) (o : Opts)
    (kids : List Doc) (m : Module) (hs : SmallAll kids) (h : transform parse valid o kids = .ok m) :
    m.Resolved := by
  simp only [transform] at h
  split at h
  · cases h
  rename_i j ids hp
  split at h
  · rename_i m' hv
    cases h
    obtain ⟨hc, hb, hpar, hint, hex, hl⟩ := locals_of valid _ j m hv
    have hu := preset_uses parse o.config (docJsx kids) j ids (docJsx_uses kids hs) hp
    refine ⟨?_, ?_⟩
    · intro x hx
      rw [hb] at hx
      rw [hpar, params_names, hl x]
      rcases hu x hx with h | h | ⟨h1, h2⟩ | ⟨h1, h2⟩ | ⟨h1, h2⟩
      · exact Or.inl h
      · refine Or.inr (Or.inl ?_)
        simp only [attrProps, List.mem_append] at h
        simp only [Opts.title, Opts.desc, Opts.ref, Opts.expands]
        rcases h with ((h | h) | h) | h
        · split at h
          · rename_i hb
            simp only [List.mem_singleton] at h
            exact Or.inr (Or.inr (Or.inr ⟨hb, Or.inl h⟩))
          · cases h
        · split at h
          · rename_i hb
            simp only [List.mem_singleton] at h
            exact Or.inl ⟨hb, Or.inr h⟩
          · cases h
        · split at h
          · rename_i hb
            simp only [List.mem_singleton] at h
            exact Or.inr (Or.inl ⟨hb, Or.inr h⟩)
          · cases h
        · split at h
          · cases h
          · rename_i hb
            simp only [List.mem_singleton] at h
            exact Or.inr (Or.inr (Or.inl ⟨by simpa using hb, h⟩))
      · rcases h2 with h | h | ⟨h, h'⟩
        · exact Or.inr (Or.inl (Or.inl ⟨h1, Or.inl h⟩))
        · exact Or.inr (Or.inl (Or.inl ⟨h1, Or.inr h⟩))
        · exact Or.inr (Or.inr (Or.inr (Or.inr (Or.inr (Or.inr (Or.inr (Or.inr
            ⟨h, Or.inr (Or.inl ⟨h1, h'⟩)⟩)))))))
      · rcases h2 with h | h | ⟨h, h'⟩
        · exact Or.inr (Or.inl (Or.inr (Or.inl ⟨h1, Or.inl h⟩)))
        · exact Or.inr (Or.inl (Or.inr (Or.inl ⟨h1, Or.inr h⟩)))
        · exact Or.inr (Or.inr (Or.inr (Or.inr (Or.inr (Or.inr (Or.inr (Or.inr
            ⟨h, Or.inr (Or.inr ⟨h1, h'⟩)⟩)))))))
      · exact Or.inr (Or.inr (Or.inr (Or.inr (Or.inr (Or.inr (Or.inr (Or.inr
            ⟨h1, Or.inl (by simpa using h2)⟩)))))))
    · have hf : o.ref = true → "forwardRef" ∈ m.locals := by
        intro hr
        rw [hl]
        exact Or.inr (Or.inr (Or.inr (Or.inl ⟨hr, rfl⟩)))
      have hm : o.memo.getD false = true → "memo" ∈ m.locals := by
        intro hr
        rw [hl]
        exact Or.inr (Or.inr (Or.inr (Or.inr (Or.inl ⟨hr, rfl⟩))))
      rw [hc]
      clear hl hu hp hv hpar hint hc hb
      generalize m.locals = L at hf hm
      generalize m.exports = E at hex
      have href : Opts.ref { o with nativeIdents := ids.eraseDups } = o.ref := rfl
      simp only [exports, href] at hex
      cases hr : o.ref <;> cases hmm : o.memo.getD false <;> simp only [hr, hmm] at hex hf hm <;>
        cases hn : o.named <;> simp [hn] at hex <;>
        simp at hex hf hm ⊢ <;> grind [Ordered]
  · cases h

/-- What `transform` makes of the options. -/
private theorem transform_variables {parse : String → Option String} {valid : String → Bool} {o : Opts}
    {kids : List Doc} {m : Module} (h : transform parse valid o kids = .ok m) :
    ∃ j ids, (∀ x ∈ ids, x ∈ nativeNames.map (·.2)) ∧ ids.Nodup ∧
      variables valid { o with nativeIdents := ids } j = some m := by
  simp only [transform] at h
  split at h
  · cases h
  rename_i j ids hp
  split at h
  · rename_i m' hv
    cases h
    refine ⟨j, ids.eraseDups, ?_, nodup_eraseDups _, hv⟩
    intro x hx
    exact preset_ids _ _ _ _ _ hp x (by simpa using hx)
  · cases h

private theorem runtime_names (o : Opts) (hr : o.runtimeImport = none) :
    (∀ x ∈ o.runtimeDecl.namespaceName, x = "React") ∧ (∀ x ∈ o.runtimeDecl.specifiers.getD [], x = "h") ∧
      o.runtimeDecl.defaultSpecifier = none := by
  simp only [Opts.runtimeDecl, hr]
  cases o.runtime.getD .classic <;> simp <;> grind

/-- The names that may be imported by the runtimes that come with the program. -/
private theorem locals_known {parse : String → Option String} {valid : String → Bool} {o : Opts}
    {kids : List Doc} {m : Module} (hr : o.runtimeImport = none) (h : transform parse valid o kids = .ok m) :
    ∀ x ∈ m.locals, x = "SVGProps" ∨ x ∈ ["React", "h", "forwardRef", "memo", "Title", "Desc"] ++
      nativeNames.map (·.2) := by
  obtain ⟨j, ids, hi, -, hv⟩ := transform_variables h
  obtain ⟨hc, hb, hpar, hint, hex, hl⟩ := locals_of valid _ j m hv
  obtain ⟨r1, r2, r3⟩ := runtime_names { o with nativeIdents := ids } hr
  intro x hx
  rcases (hl x).mp hx with h | h | h | ⟨-, rfl⟩ | ⟨-, rfl⟩ | ⟨-, -, rfl⟩ | ⟨-, h | ⟨-, rfl⟩ | ⟨-, rfl⟩⟩
  · exact Or.inr (by simp [r1 x h])
  · exact Or.inr (by simp [r2 x h])
  · rw [r3] at h; cases h
  · exact Or.inr (by simp)
  · exact Or.inr (by simp)
  · exact Or.inl rfl
  · exact Or.inr (List.mem_append.mpr (Or.inr (hi x h)))
  · exact Or.inr (by simp)
  · exact Or.inr (by simp)

private theorem known_suffix : ∀ x ∈ ["React", "h", "forwardRef", "memo", "Title", "Desc"] ++
    nativeNames.map (·.2), ¬ "Props".toList <:+ x.toList ∧ x ≠ "Ref" := by decide +kernel

private theorem propsName_eq {o : Opts} {x : String} (h : o.propsName = x) : "Props".toList <:+ x.toList := by
  subst h
  exact ⟨o.component.toList, by simp [Opts.propsName]⟩

/-- **C84 (every type is declared, exactly)**: with one of the runtimes that come with the program,
every type is declared exactly if none is used, or there is no `ref` and either no property for
all others or one for the title or the description. -/
theorem transform_typed_iff (parse : String → Option String) (valid : String → Bool) (o : Opts)
    (kids : List Doc) (m : Module) (hr : o.runtimeImport = none) (hc : o.component ≠ "SVG")
    (h : transform parse valid o kids = .ok m) :
    m.Typed ↔ ¬ (o.ts = true ∧ (o.ref = true ∨ (o.expands = true ∧ o.title = false ∧ o.desc = false))) := by
  have hk := locals_known hr h
  obtain ⟨j, ids, hi, -, hv⟩ := transform_variables h
  obtain ⟨hcomp, hb, hpar, hint, hex, hl⟩ := locals_of valid _ j m hv
  have hsvg : o.expands = true → o.ts = true → "SVGProps" ∈ m.locals := by
    intro h1 h2
    rw [hl]
    exact Or.inr (Or.inr (Or.inr (Or.inr (Or.inr (Or.inl ⟨h1, h2, rfl⟩)))))
  have hp : o.propsName ∉ m.locals := by
    intro hm
    rcases hk _ hm with h | h
    · refine hc ?_
      have : o.component.toList ++ "Props".toList = "SVG".toList ++ "Props".toList := by
        rw [← String.toList_append, show o.component ++ "Props" = "SVGProps" from h]
        decide +kernel
      exact String.toList_inj.mp (List.append_cancel_right this)
    · exact (known_suffix _ h).1 (propsName_eq rfl)
  have hR : "Ref" ∉ m.locals := by
    intro hm
    rcases hk _ hm with h | h
    · simp at h
    · exact (known_suffix _ h).2 rfl
  have hR' : ¬ "Ref" = o.propsName := by
    intro h
    exact absurd (propsName_eq h.symm) (by decide +kernel)
  have hS : o.propsName ≠ "SVGSVGElement" := by
    intro h
    exact absurd (propsName_eq h) (by decide +kernel)
  have e1 : params { o with nativeIdents := ids } = params o := rfl
  have e2 : interfaces { o with nativeIdents := ids } = interfaces o := rfl
  rw [e1] at hpar
  rw [e2] at hint
  simp only [Module.Typed, hpar, hint, params, interfaces]
  clear hl hv hcomp hb hpar hint hex hi h e1 e2 hk
  generalize m.locals = L at hsvg hp hR
  rcases Bool.eq_false_or_eq_true o.title with h1 | h1 <;> rcases Bool.eq_false_or_eq_true o.desc with h2 | h2 <;> rcases Bool.eq_false_or_eq_true o.expands with h3 | h3 <;> rcases Bool.eq_false_or_eq_true o.ref with h4 | h4 <;> rcases Bool.eq_false_or_eq_true o.ts with h5 | h5 <;>
    simp [h1, h2, h3, h4, h5, Param.types] at hsvg ⊢ <;> grind

/-- **C84 (the runtime)**: what JSX calls is imported. -/
theorem transform_runs (parse : String → Option String) (valid : String → Bool) (o : Opts)
    (kids : List Doc) (m : Module) (hr : o.runtimeImport = none) (h : transform parse valid o kids = .ok m) :
    m.Runs (o.runtime.getD .classic) := by
  obtain ⟨j, ids, hi, -, hv⟩ := transform_variables h
  obtain ⟨hcomp, hb, hpar, hint, hex, hl⟩ := locals_of valid _ j m hv
  have hd : Opts.runtimeDecl { o with nativeIdents := ids } = o.runtimeDecl := rfl
  simp only [Module.Runs]
  split
  · rename_i h1
    rw [hl, hd]
    exact Or.inl (by simp [Opts.runtimeDecl, hr, h1])
  · rename_i h1
    rw [hl, hd]
    exact Or.inr (Or.inl (by simp [Opts.runtimeDecl, hr, h1]))
  · trivial

private theorem known_other : ∀ x ∈ nativeNames.map (·.2),
    x ∉ ["React", "h", "forwardRef", "memo", "Title", "Desc", "SVGProps", "ForwardRef", "Memo"] := by
  decide +kernel

private theorem native_nodup (o : Opts) (hi : ∀ x ∈ o.nativeIdents, x ∈ nativeNames.map (·.2))
    (hn : o.nativeIdents.Nodup) : ((nativeImport o).flatMap fun i => i.specs.map Spec.local).Nodup := by
  have h1 : "Title" ∉ o.nativeIdents := fun h => known_other _ (hi _ h) (by simp)
  have h2 : "Desc" ∉ o.nativeIdents := fun h => known_other _ (hi _ h) (by simp)
  have h3 : "SVGProps" ∉ o.nativeIdents := fun h => known_other _ (hi _ h) (by simp)
  have h4 : (o.nativeIdents.filter (fun x => !decide (x = "Svg"))).Nodup := hn.filter _
  simp only [nativeImport]
  rcases Bool.eq_false_or_eq_true o.native with h0 | h0
  · rcases Bool.eq_false_or_eq_true o.title with ht | ht <;>
      rcases Bool.eq_false_or_eq_true o.desc with hd | hd <;>
      rcases Bool.eq_false_or_eq_true o.ts with hts | hts <;>
      rcases Bool.eq_false_or_eq_true o.expands with he | he <;>
      rcases Bool.eq_false_or_eq_true (o.nativeIdents.contains "Svg") with hs | hs <;>
      simp only [h0, ht, hd, hts, he, hs] <;>
      simp [List.nodup_append, Spec.local, local_named, h1, h2, h3, h4] <;> grind
  · simp [h0]

private theorem import_locals (l : List Spec) (src : String) :
    ((if l.isEmpty then [] else [⟨l, src⟩] : List Import).flatMap fun i => i.specs.map Spec.local) =
      l.map Spec.local := by
  cases l <;> simp

/-- The imports do not declare a name twice. -/
private theorem locals_nodup {valid : String → Bool} {o : Opts} {j : Jsx} {m : Module}
    (hr : o.runtimeImport = none) (hi : ∀ x ∈ o.nativeIdents, x ∈ nativeNames.map (·.2))
    (hn : o.nativeIdents.Nodup) (h : variables valid o j = some m) : m.locals.Nodup := by
  have hN := native_nodup o hi hn
  have hM : ∀ x ∈ (nativeImport o).flatMap fun i => i.specs.map Spec.local,
      x ≠ "React" ∧ x ≠ "h" ∧ x ≠ "forwardRef" ∧ x ≠ "memo" ∧
        (x = "SVGProps" → o.native = true) := by
    intro x hx
    simp only [nativeImport] at hx
    rcases Bool.eq_false_or_eq_true o.native with h0 | h0
    · simp only [h0, if_true, List.flatMap_cons, List.flatMap_nil, List.append_nil, List.map_append,
        List.mem_append, List.map_map, local_named, List.map_id] at hx
      have key : x ∈ nativeNames.map (·.2) ∨ x = "SVGProps" ∨ x = "Title" ∨ x = "Desc" ∨ x = "Svg" := by
        rcases hx with (((hx | hx) | hx) | hx) | hx
        · split at hx
          · simp [Spec.local] at hx; simp [hx]
          · simp at hx
        · split at hx
          · simp [Spec.local] at hx; simp [hx]
          · simp at hx
        · exact Or.inl (hi x (List.mem_filter.mp hx).1)
        · split at hx
          · simp [Spec.local] at hx; simp [hx]
          · simp at hx
        · split at hx
          · simp [Spec.local] at hx; simp [hx]
          · simp at hx
      rcases key with h | rfl | rfl | rfl | rfl
      · have := known_other x h
        simp at this
        exact ⟨this.1, this.2.1, this.2.2.1, this.2.2.2.1, fun _ => h0⟩
      all_goals simp [h0]
    · simp [h0] at hx
  simp only [variables] at h
  split at h
  · rename_i ns sp df es hrt he
    cases h
    simp only [runtimeImports] at hrt
    split at hrt
    · cases hrt
    split at hrt
    · cases hrt
    split at hrt
    · cases hrt
    simp only [Option.some.injEq, Prod.mk.injEq] at hrt
    obtain ⟨rfl, rfl, rfl⟩ := hrt
    simp only [Module.locals, List.flatMap_append, import_locals]
    generalize ((nativeImport o).flatMap fun i => i.specs.map Spec.local) = N at hN hM
    simp only [Opts.runtimeDecl, hr]
    cases o.runtime.getD .classic <;> rcases Bool.eq_false_or_eq_true o.ref with h1 | h1 <;>
      rcases Bool.eq_false_or_eq_true (o.memo.getD false) with h2 | h2 <;>
      rcases Bool.eq_false_or_eq_true o.expands with h3 | h3 <;>
      rcases Bool.eq_false_or_eq_true o.ts with h4 | h4 <;>
      rcases Bool.eq_false_or_eq_true o.native with h5 | h5 <;>
      simp [h1, h2, h3, h4, h5, Spec.local, List.nodup_append, hN] at hM ⊢ <;> grind
  · cases h

/-- **C84 (no name twice, exactly)**: with one of the runtimes that come with the program, no name
is declared twice exactly if the name of the component is not imported, not the one of a wrapped
component, and the interface of its properties is not called `SVGProps` while that is imported. -/
theorem transform_distinct_iff (parse : String → Option String) (valid : String → Bool) (o : Opts)
    (kids : List Doc) (m : Module) (hr : o.runtimeImport = none)
    (h : transform parse valid o kids = .ok m) :
    m.Distinct ↔ o.component ∉ m.locals ∧ (o.ref = true → o.component ≠ "ForwardRef") ∧
      (o.memo.getD false = true → o.component ≠ "Memo") ∧
      ¬ (o.component = "SVG" ∧ o.ts = true ∧ o.expands = true ∧ (o.title = true ∨ o.desc = true)) := by
  have hk := locals_known hr h
  obtain ⟨j, ids, hi, hn, hv⟩ := transform_variables h
  have hnd := locals_nodup (o := { o with nativeIdents := ids }) hr hi hn hv
  obtain ⟨hcomp, hb, hpar, hint, hex, hl⟩ := locals_of valid _ j m hv
  have hlen : o.propsName ≠ o.component := by
    intro h
    have : (o.component ++ "Props").length = o.component.length := congrArg String.length h
    rw [String.length_append] at this
    have : "Props".length = 5 := by decide +kernel
    omega
  have hF : ∀ x, x = "ForwardRef" ∨ x = "Memo" → x ∉ m.locals ∧ x ≠ o.propsName := by
    intro x hx
    refine ⟨fun hm => ?_, fun h => ?_⟩
    · rcases hk _ hm with h | h
      · rcases hx with rfl | rfl <;> simp at h
      · rcases List.mem_append.mp h with h | h
        · rcases hx with rfl | rfl <;> simp at h
        · have := known_other _ h
          rcases hx with rfl | rfl <;> simp at this
    · have := propsName_eq h.symm
      rcases hx with rfl | rfl
      · exact absurd this (by decide +kernel)
      · exact absurd this (by decide +kernel)
  have hP : o.propsName ∈ m.locals ↔ (o.component = "SVG" ∧ o.ts = true ∧ o.expands = true) := by
    constructor
    · intro hm
      rcases hk _ hm with h | h
      · refine ⟨?_, ?_⟩
        · have : o.component.toList ++ "Props".toList = "SVG".toList ++ "Props".toList := by
            rw [← String.toList_append, show o.component ++ "Props" = "SVGProps" from h]
            decide +kernel
          exact String.toList_inj.mp (List.append_cancel_right this)
        · rw [h] at hm
          obtain ⟨r1, r2, r3⟩ := runtime_names { o with nativeIdents := ids } hr
          rcases (hl _).mp hm with g | g | g | ⟨-, g⟩ | ⟨-, g⟩ | ⟨g1, g2, -⟩ | ⟨-, g | ⟨-, g⟩ | ⟨-, g⟩⟩
          · have := r1 _ g; simp at this
          · have := r2 _ g; simp at this
          · rw [r3] at g; cases g
          · simp at g
          · simp at g
          · exact ⟨g2, g1⟩
          · exact absurd (by simp) (known_other _ (hi _ g))
          · simp at g
          · simp at g
      · exact absurd (propsName_eq rfl) (known_suffix _ h).1
    · rintro ⟨h1, h2, h3⟩
      rw [hl]
      exact Or.inr (Or.inr (Or.inr (Or.inr (Or.inr (Or.inl ⟨h3, h2, by simp [Opts.propsName, h1]⟩)))))
  have hE : m.exports.flatMap Export.declares =
      (if o.ref = true then ["ForwardRef"] else []) ++ if o.memo.getD false = true then ["Memo"] else [] := by
    have href : Opts.ref { o with nativeIdents := ids } = o.ref := rfl
    generalize m.exports = E at hex
    simp only [exports, href] at hex
    cases hr : o.ref <;> cases hmm : o.memo.getD false <;> simp only [hr, hmm] at hex <;>
      cases hn : o.named <;> simp [hn] at hex
    all_goals first
      | (subst hex; rfl)
      | (obtain ⟨-, rfl⟩ := hex; rfl)
  have e2 : interfaces { o with nativeIdents := ids } = interfaces o := rfl
  rw [e2] at hint
  have hf1 := hF "ForwardRef" (Or.inl rfl)
  have hf2 := hF "Memo" (Or.inr rfl)
  simp only [Module.Distinct, hE, hint, hcomp, interfaces]
  clear hl hv hcomp hb hpar hint hex hi h e2 hk hE hF
  generalize m.locals = L at *
  generalize o.propsName = P at *
  generalize o.component = C at *
  rcases Bool.eq_false_or_eq_true o.ref with h1 | h1 <;>
    rcases Bool.eq_false_or_eq_true (o.memo.getD false) with h2 | h2 <;>
    rcases Bool.eq_false_or_eq_true o.ts with h3 | h3 <;>
    rcases Bool.eq_false_or_eq_true o.title with h4 | h4 <;>
    rcases Bool.eq_false_or_eq_true o.desc with h5 | h5 <;>
    simp [h1, h2, h3, h4, h5, List.nodup_append, hnd] at hP ⊢ <;> grind

end Verif.Jsx
