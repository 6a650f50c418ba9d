import Verif.Jsx.Closed

/-!
# The names of components, the index, and where the module is wrong
-/

namespace Verif.Jsx

/-! ## The name of the component -/

private theorem alpha_lt (a : Char) (h : a.isAlphanum = true) : a.toNat < 128 := by
  simp only [Char.isAlphanum, Char.isAlpha, Char.isUpper, Char.isLower, Char.isDigit,
    Bool.or_eq_true, Bool.and_eq_true, decide_eq_true_eq] at h
  rcases h with (⟨-, h⟩ | ⟨-, h⟩) | ⟨-, h⟩ <;> exact Nat.lt_of_le_of_lt h (by decide)
private theorem ascii : ∀ n < 128, (Char.ofNat n).isAlpha = true →
    (Char.ofNat n).toUpper.isDigit = false ∧ (Char.ofNat n).toUpper.isUpper = true ∧ (Char.ofNat n).isDigit = false := by decide +kernel
private theorem upper_self (a : Char) (h : a.isAlpha = false) : a.toUpper = a := by
  unfold Char.toUpper
  split
  · rename_i hl
    simp only [Char.isAlpha, Char.isLower, Bool.or_eq_false_iff,
      Bool.and_eq_false_iff, decide_eq_false_iff_not] at h
    exact absurd hl (fun hl => by
      rcases h.2 with h | h
      · exact h hl.1
      · exact h hl.2)
  · rfl

private theorem camel_letters_none (b : Bool) (s : List Char) (h : ∀ c ∈ s, c.isAlpha = false) :
    ∀ c ∈ camel b s, c.isDigit = true := by
  induction s generalizing b with
  | nil => simp [camel]
  | cons c s ih =>
    have hc := h c (by simp)
    have ih := fun b => ih b fun c hc => h c (List.mem_cons_of_mem _ hc)
    simp only [camel]
    split
    · rename_i ha
      have hd : c.isDigit = true := by simpa [Char.isAlphanum, hc] using ha
      intro d hd'
      rcases List.mem_cons.mp hd' with rfl | hd'
      · split
        · rw [upper_self c hc]; exact hd
        · exact hd
      · exact ih _ d hd'
    · exact ih _

/-- Whether the next letter becomes a capital behind a part of the name without letters. -/
private theorem camel_append (b : Bool) (u v : List Char) (h : ∀ c ∈ u, c.isAlpha = false) :
    ∃ ds : List Char, (∀ c ∈ ds, c.isDigit = true) ∧
      camel b (u ++ v) = ds ++ camel ((u.getLast?.map fun c => !c.isDigit).getD b) v := by
  induction u generalizing b with
  | nil => exact ⟨[], by simp, rfl⟩
  | cons c u ih =>
    have hc := h c (by simp)
    have ih := fun b => ih b fun c hc => h c (List.mem_cons_of_mem _ hc)
    have hlast : ∀ b', (u = [] → (!c.isDigit) = b') →
        (((c :: u).getLast?.map fun c => !c.isDigit).getD b) = ((u.getLast?.map fun c => !c.isDigit).getD b') := by
      intro b' hb
      cases u with
      | nil => simpa using hb rfl
      | cons d u =>
        rw [List.getLast?_cons_cons]
        obtain ⟨z, hz⟩ : ∃ z, (d :: u).getLast? = some z := ⟨_, List.getLast?_eq_some_getLast (by simp)⟩
        simp [hz]
    simp only [List.cons_append, camel]
    split
    · rename_i ha
      have hd : c.isDigit = true := by simpa [Char.isAlphanum, hc] using ha
      obtain ⟨ds, h1, h2⟩ := ih false
      refine ⟨c :: ds, ?_, ?_⟩
      · intro d hd'
        rcases List.mem_cons.mp hd' with rfl | hd'
        · exact hd
        · exact h1 d hd'
      · rw [h2, upper_self c hc, hlast false (by simp [hd])]
        simp
    · rename_i ha
      have hd : c.isDigit = false := by
        simpa [Char.isAlphanum, hc] using ha
      obtain ⟨ds, h1, h2⟩ := ih true
      exact ⟨ds, h1, by rw [h2, hlast true (by simp [hd])]⟩

private theorem dropWhile_append_digits (ds r : List Char) (h : ∀ c ∈ ds, c.isDigit = true) :
    (ds ++ r).dropWhile Char.isDigit = r.dropWhile Char.isDigit := by
  induction ds with
  | nil => rfl
  | cons c ds ih =>
    simp only [List.cons_append, List.dropWhile_cons, h c (by simp), if_true]
    exact ih fun c hc => h c (List.mem_cons_of_mem _ hc)

private theorem alpha_upper (a : Char) (h : a.isAlpha = true) :
    a.toUpper.isDigit = false ∧ a.toUpper.isUpper = true ∧ a.isDigit = false := by
  have := ascii a.toNat (alpha_lt a (by simp [Char.isAlphanum, h]))
  rw [Char.ofNat_toNat] at this
  exact this h

/-- **C84 (the name of the component)**: from the first letter of the name of the file on; the
letter is made a capital unless a digit is directly in front of it. -/
theorem componentName_spec (u v : List Char) (a : Char) (hu : ∀ c ∈ u, c.isAlpha = false)
    (ha : a.isAlpha = true) :
    componentName (u ++ a :: v) =
      (if u.getLast?.any Char.isDigit then a else a.toUpper) :: camel false v := by
  obtain ⟨h1, h2, h3⟩ := alpha_upper a ha
  obtain ⟨ds, hd, he⟩ := camel_append true u (a :: v) hu
  rw [componentName, he, dropWhile_append_digits _ _ hd]
  have hal : a.isAlphanum = true := by simp [Char.isAlphanum, ha]
  simp only [camel, hal, if_true]
  cases hl : u.getLast? with
  | none => simp [h1]
  | some c =>
    cases hc : c.isDigit
    · simp [hc, h1]
    · simp [hc, h3]

/-- **C84 (the name of the component)**: there is none exactly if the name of the file has no
letter. -/
theorem componentName_nil_iff (s : List Char) :
    componentName s = [] ↔ ∀ c ∈ s, c.isAlpha = false := by
  constructor
  · intro h
    apply Classical.byContradiction
    intro hn
    have : ∃ u a v, s = u ++ a :: v ∧ (∀ c ∈ u, c.isAlpha = false) ∧ a.isAlpha = true := by
      clear h
      induction s with
      | nil => simp at hn
      | cons c s ih =>
        cases hc : c.isAlpha
        · have : ¬ ∀ c ∈ s, c.isAlpha = false := by
            intro h
            refine hn fun d hd => ?_
            rcases List.mem_cons.mp hd with rfl | hd
            · exact hc
            · exact h d hd
          obtain ⟨u, a, v, h1, h2, h3⟩ := ih this
          refine ⟨c :: u, a, v, by simp [h1], ?_, h3⟩
          intro d hd
          rcases List.mem_cons.mp hd with rfl | hd
          · exact hc
          · exact h2 d hd
        · exact ⟨[], c, s, rfl, by simp, hc⟩
    obtain ⟨u, a, v, rfl, hu, ha⟩ := this
    rw [componentName_spec u v a hu ha] at h
    cases h
  · intro h
    have := camel_letters_none true s h
    have h2 := dropWhile_append_digits (camel true s) [] this
    simpa [componentName] using h2

/-- **C84 (violated, small letters)**: a file whose first letter is a small one directly behind a
digit gives a component in small letters, which JSX takes for an element of the document. -/
theorem small_name_violated (d a : Char) (u v : List Char) (hu : ∀ c ∈ u, c.isAlpha = false)
    (hd : d.isDigit = true) (ha : a.isLower = true) :
    ∃ r, componentName (u ++ d :: a :: v) = a :: r ∧ capital (String.ofList (a :: r)) = false := by
  have hal : a.isAlpha = true := by simp [Char.isAlpha, ha]
  have hda : d.isAlpha = false := by
    cases h : d.isAlpha
    · rfl
    · rw [(alpha_upper d h).2.2] at hd; cases hd
  have := componentName_spec (u ++ [d]) v a (by
    intro c hc
    rcases List.mem_append.mp hc with h | h
    · exact hu c h
    · simp only [List.mem_singleton] at h
      rw [h]; exact hda) hal
  simp only [List.append_assoc, List.singleton_append, List.getLast?_append, List.getLast?_singleton,
    Option.some_or, Option.any_some, hd, if_true] at this
  refine ⟨_, this, ?_⟩
  simp only [capital, String.toList_ofList]
  have hs : ∀ n < 128, (Char.ofNat n).isLower = true → (Char.ofNat n).isUpper = false := by decide +kernel
  have h := hs a.toNat (alpha_lt a (by simp [Char.isAlphanum, hal]))
  rw [Char.ofNat_toNat] at h
  exact h ha

/-- **C84 (violated, one name for two files)**: files whose names differ in a separator only give
components of one name. -/
theorem separator_violated (u v : List Char) (x y : Char) (hx : x.isAlphanum = false)
    (hy : y.isAlphanum = false) : componentName (u ++ x :: v) = componentName (u ++ y :: v) := by
  have : ∀ b, camel b (u ++ x :: v) = camel b (u ++ y :: v) := by
    induction u with
    | nil => intro b; simp [camel, hx, hy]
    | cons c u ih =>
      intro b
      simp only [List.cons_append, camel]
      split
      · rw [ih]
      · exact ih _
  rw [componentName, componentName, this]

/-! ## The index -/

/-- **C84 (the index, exactly)**: the name the index takes from a module is one the module
exports exactly if it is the default, or the alias is the name of the component, or there is no
alias and the component is not wrapped. -/
theorem index_exported_iff (parse : String → Option String) (valid : String → Bool) (o : Opts)
    (kids : List Doc) (m : Module) (stem : String) (h : transform parse valid o kids = .ok m) :
    (indexLine o stem).imported ∈ m.exported ↔ o.named = false ∨
      (∃ n, o.namedExport = some n ∧ n = o.component) ∨
      (o.namedExport = none ∧ (o.memo.getD false = true → o.component = "Memo") ∧
        (o.memo.getD false = false → o.ref = true → o.component = "ForwardRef")) := by
  have hex : exports valid o = some m.exports := by
    simp only [transform] at h
    split at h
    · cases h
    split at h
    · rename_i m' hv
      cases h
      simp only [variables] at hv
      split at hv
      · rename_i he
        cases hv
        exact he
      · cases hv
    · cases h
  simp only [Module.exported, indexLine]
  generalize m.exports = E at hex
  simp only [exports] at hex
  cases hr : o.ref <;> cases hm : o.memo.getD false <;> simp only [hr, hm] at hex <;>
    cases hn : o.named <;> cases he : o.namedExport <;> simp [hn, he] at hex
  all_goals first
    | subst hex
    | obtain ⟨-, rfl⟩ := hex
  all_goals simp
  all_goals grind

/-- The index after files were converted, each with the options for it. -/
def indexAfter (files : List (Opts × String)) (index : List IndexLine) : List IndexLine :=
  files.foldl (fun i f => appendIndex f.1 f.2 i) index

private theorem indexAfter_exported (files : List (Opts × String)) (index : List IndexLine) :
    (indexAfter files index).map (·.exported) = index.map (·.exported) ++ files.map (·.1.component) := by
  induction files generalizing index with
  | nil => simp [indexAfter]
  | cons f files ih =>
    have : indexAfter (f :: files) index = indexAfter files (appendIndex f.1 f.2 index) := rfl
    rw [this, ih, appendIndex]
    simp only [List.map_append, List.map_cons, List.map_nil, List.append_assoc, List.singleton_append]
    congr 2
    simp only [indexLine]
    split <;> rfl

/-- **C84 (the index, exactly)**: no name is exported twice exactly if the files have components
of different names, and none that the index had before. -/
theorem index_distinct_iff (files : List (Opts × String)) (index : List IndexLine) :
    ((indexAfter files index).map (·.exported)).Nodup ↔ (index.map (·.exported)).Nodup ∧
      (files.map (·.1.component)).Nodup ∧ ∀ l ∈ index, ∀ f ∈ files, l.exported ≠ f.1.component := by
  rw [indexAfter_exported, List.nodup_append]
  refine and_congr Iff.rfl (and_congr Iff.rfl ⟨fun h l hl f hf => ?_, fun h a ha b hb => ?_⟩)
  · exact h _ (List.mem_map_of_mem hl) _ (List.mem_map.mpr ⟨f, hf, rfl⟩)
  · obtain ⟨l, hl, rfl⟩ := List.mem_map.mp ha
    obtain ⟨f, hf, rfl⟩ := List.mem_map.mp hb
    exact h l hl f hf

/-- **C84 (violated, a second run)**: converting a file again makes the index export a name twice. -/
theorem index_again_violated (files : List (Opts × String)) (hf : files ≠ []) (index : List IndexLine) :
    ¬ ((indexAfter files (indexAfter files index)).map (·.exported)).Nodup := by
  rw [index_distinct_iff]
  rintro ⟨-, -, h⟩
  obtain ⟨f, fs, rfl⟩ := List.exists_cons_of_ne_nil hf
  have hm : f.1.component ∈ (indexAfter (f :: fs) index).map (·.exported) := by
    rw [indexAfter_exported]
    simp
  obtain ⟨l, hl, he⟩ := List.mem_map.mp hm
  exact h l hl f (by simp) he

/-! ## Imports -/

/-- An import that can be written: everything of a module under one name, or a default and names. -/
def Import.WellFormed (i : Import) : Prop :=
  (∃ n, i.specs = [.star n]) ∨
    ∃ (d : Option String) (ns : List String), i.specs = d.toList.map Spec.default ++ ns.map Spec.named

private theorem transform_parts {parse : String → Option String} {valid : String → Bool} {o : Opts}
    {kids : List Doc} {m : Module} (h : transform parse valid o kids = .ok m) :
    ∃ ids ns sp df, runtimeImports valid o = some (ns, sp, df) ∧
      m.imports = ns ++ nativeImport { o with nativeIdents := ids } ++ sp ++ df := by
  simp only [transform] at h
  split at h
  · cases h
  rename_i j ids hp
  split at h
  · rename_i m' hv
    cases h
    simp only [variables] at hv
    split at hv
    · rename_i ns sp df es hr he
      cases hv
      exact ⟨_, ns, sp, df, hr, rfl⟩
    · cases hv
  · cases h

private theorem mem_made (l : List Spec) (src : String) (i : Import) :
    i ∈ (if l.isEmpty then [] else [⟨l, src⟩] : List Import) ↔ l ≠ [] ∧ i = ⟨l, src⟩ := by
  cases l <;> simp

private theorem native_wellFormed (o : Opts) : ∀ i ∈ nativeImport o, i.WellFormed := by
  intro i hi
  simp only [nativeImport] at hi
  split at hi
  · simp only [List.mem_singleton] at hi
    subst hi
    refine Or.inr ⟨if o.nativeIdents.contains "Svg" then some "Svg" else none,
      (if o.ts && o.expands then ["SVGProps"] else []) ++ o.nativeIdents.filter (· ≠ "Svg") ++
      (if o.title && !o.nativeIdents.contains "Title" then ["Title"] else []) ++
      (if o.desc && !o.nativeIdents.contains "Desc" then ["Desc"] else []), ?_⟩
    cases o.nativeIdents.contains "Svg" <;> cases (o.ts && o.expands) <;>
      cases (o.title && !o.nativeIdents.contains "Title") <;>
      cases (o.desc && !o.nativeIdents.contains "Desc") <;> simp
  · cases hi

/-- **C84 (imports)**: with one of the runtimes that come with the program every import can be
written. -/
theorem transform_imports (parse : String → Option String) (valid : String → Bool) (o : Opts)
    (kids : List Doc) (m : Module) (hr : o.runtimeImport = none)
    (h : transform parse valid o kids = .ok m) : ∀ i ∈ m.imports, i.WellFormed := by
  obtain ⟨ids, ns, sp, df, h1, h2⟩ := transform_parts h
  have hx : ∀ l : List String, ∀ src, (⟨l.map Spec.named, src⟩ : Import).WellFormed := fun l src =>
    Or.inr ⟨none, l, rfl⟩
  have e : ((if o.ref then [Spec.named "forwardRef"] else []) ++
      (if o.memo.getD false then [Spec.named "memo"] else []) ++
      (if o.expands && o.ts && !o.native then [Spec.named "SVGProps"] else [])) =
      ((if o.ref then ["forwardRef"] else []) ++ (if o.memo.getD false then ["memo"] else []) ++
      (if o.expands && o.ts && !o.native then ["SVGProps"] else [])).map Spec.named := by
    cases o.ref <;> cases o.memo.getD false <;> cases (o.expands && o.ts && !o.native) <;> simp
  simp only [runtimeImports] at h1
  split at h1
  · cases h1
  split at h1
  · cases h1
  split at h1
  · cases h1
  rw [e] at h1
  simp only [Option.some.injEq, Prod.mk.injEq] at h1
  obtain ⟨rfl, rfl, rfl⟩ := h1
  intro i hi
  rw [h2] at hi
  simp only [List.mem_append] at hi
  rcases hi with ((hi | hi) | hi) | hi
  · obtain ⟨-, rfl⟩ := (mem_made _ _ _).mp hi
    simp only [Opts.runtimeDecl, hr]
    cases o.runtime.getD .classic
    · exact Or.inl ⟨"React", by simp⟩
    · exact Or.inr ⟨none, [], by simp⟩
    · exact hx _ _
  · exact native_wellFormed _ i hi
  · obtain ⟨-, rfl⟩ := (mem_made _ _ _).mp hi
    simp only [Opts.runtimeDecl, hr]
    cases o.runtime.getD .classic
    · exact hx _ _
    · exact hx _ _
    · exact hx ["h"] _
  · simp only [Opts.runtimeDecl, hr] at hi
    cases hrt : o.runtime.getD .classic <;> simp [hrt] at hi

/-- **C84 (violated, a runtime of one's own)**: with a namespace and a source for it, the import
mixes the namespace with names, which cannot be written. -/
theorem mixed_import_violated (parse : String → Option String) (valid : String → Bool) (o : Opts)
    (kids : List Doc) (m : Module) (r : RuntimeImport) (s n : String) (hr : o.runtimeImport = some r)
    (hs : r.sourceNamespace = some s) (hn : r.namespaceName = some n)
    (hw : o.ref = true ∨ o.memo.getD false = true)
    (h : transform parse valid o kids = .ok m) : ∃ i ∈ m.imports, ¬ i.WellFormed := by
  obtain ⟨ids, ns, sp, df, h1, h2⟩ := transform_parts h
  simp only [runtimeImports] at h1
  split at h1
  · cases h1
  split at h1
  · cases h1
  split at h1
  · cases h1
  simp only [Option.some.injEq, Prod.mk.injEq, Opts.runtimeDecl, hr, hs, hn] at h1
  obtain ⟨rfl, -, -⟩ := h1
  rw [h2]
  refine ⟨_, List.mem_append_left _ (List.mem_append_left _ (List.mem_append_left _
      ((mem_made _ _ _).mpr ⟨by simp, rfl⟩))), ?_⟩
  · rintro (⟨k, hk⟩ | ⟨d, ns, hk⟩)
    · simp only at hk
      rcases hw with hw | hw <;> simp [hw] at hk
    · simp only [Option.toList_some, List.map_cons, List.map_nil, List.singleton_append] at hk
      cases d with
      | some d => simp at hk
      | none => cases ns <;> simp at hk

/-- **C84 (violated, preact)**: `forwardRef` and `memo` are imported from `preact`, which does not
have them, and not from `preact/compat`. -/
theorem preact_violated (parse : String → Option String) (valid : String → Bool) (o : Opts)
    (kids : List Doc) (m : Module) (hr : o.runtimeImport = none) (hp : o.runtime = some .preact)
    (h : transform parse valid o kids = .ok m) (x : String)
    (hx : (o.ref = true ∧ x = "forwardRef") ∨ (o.memo.getD false = true ∧ x = "memo")) :
    (∃ i ∈ m.imports, Spec.named x ∈ i.specs ∧ i.src = "preact") ∧
      ∀ i ∈ m.imports, Spec.named x ∈ i.specs → i.src ≠ "preact/compat" := by
  obtain ⟨ids, ns, sp, df, h1, h2⟩ := transform_parts h
  have hrt : o.runtimeDecl = ⟨some "preact", "preact/compat", some ["h"], none, none⟩ := by
    simp [Opts.runtimeDecl, hr, hp]
  simp only [runtimeImports] at h1
  split at h1
  · cases h1
  split at h1
  · cases h1
  split at h1
  · cases h1
  simp only [hrt, Option.some.injEq, Prod.mk.injEq] at h1
  obtain ⟨rfl, rfl, rfl⟩ := h1
  rw [h2]
  refine ⟨⟨_, List.mem_append_left _ (List.mem_append_left _ (List.mem_append_left _
      ((mem_made _ _ _).mpr ⟨?_, rfl⟩))), ?_, rfl⟩, ?_⟩
  · rcases hx with ⟨hw, -⟩ | ⟨hw, -⟩ <;> simp [hw]
  · rcases hx with ⟨hw, rfl⟩ | ⟨hw, rfl⟩ <;> simp [hw]
  · intro i hi hs
    simp only [List.mem_append] at hi
    rcases hi with ((hi | hi) | hi) | hi
    · obtain ⟨-, rfl⟩ := (mem_made _ _ _).mp hi
      simp
    · simp only [nativeImport] at hi
      split at hi
      · simp only [List.mem_singleton] at hi
        subst hi
        simp
      · cases hi
    · obtain ⟨-, rfl⟩ := (mem_made _ _ _).mp hi
      simp at hs
      rcases hx with ⟨-, rfl⟩ | ⟨-, rfl⟩ <;> simp at hs
    · simp at hi

/-! ## What the exact conditions say about ordinary files -/

/-- **C84 (violated, types)**: a component with a `ref` in TypeScript uses a type that is not
declared. -/
theorem ref_type_violated (parse : String → Option String) (valid : String → Bool) (o : Opts)
    (kids : List Doc) (m : Module) (hr : o.runtimeImport = none) (hc : o.component ≠ "SVG")
    (hts : o.ts = true) (href : o.ref = true) (h : transform parse valid o kids = .ok m) : ¬ m.Typed := by
  rw [transform_typed_iff parse valid o kids m hr hc h]
  simp [hts, href]

/-- **C84 (violated, types)**: TypeScript alone, with everything else as it is by default, uses a
type that is not declared. -/
theorem props_type_violated (parse : String → Option String) (valid : String → Bool) (o : Opts)
    (kids : List Doc) (m : Module) (hr : o.runtimeImport = none) (hc : o.component ≠ "SVG")
    (hts : o.ts = true) (hcfg : o.config = {}) (h : transform parse valid o kids = .ok m) : ¬ m.Typed := by
  rw [transform_typed_iff parse valid o kids m hr hc h]
  simp [hts, Opts.ref, Opts.title, Opts.desc, Opts.expands, Config.expand, hcfg]

/-- **C84 (violated, names)**: `react.svg`, with everything as it is by default. -/
theorem react_violated (parse : String → Option String) (valid : String → Bool) (o : Opts)
    (kids : List Doc) (m : Module) (hr : o.runtimeImport = none) (hrt : o.runtime = none)
    (hc : o.component = String.ofList (componentName "react".toList))
    (h : transform parse valid o kids = .ok m) : ¬ m.Distinct := by
  rw [transform_distinct_iff parse valid o kids m hr h]
  rintro ⟨hl, -⟩
  have := transform_runs parse valid o kids m hr h
  rw [hrt] at this
  refine hl ?_
  rw [hc, show String.ofList (componentName "react".toList) = "React" from by decide +kernel]
  exact this

/-- **C84 (violated, the index)**: with a named export and a wrapped component, the index takes a
name the module does not export. -/
theorem index_named_violated (parse : String → Option String) (valid : String → Bool) (o : Opts)
    (kids : List Doc) (m : Module) (stem : String) (hn : o.named = true) (ha : o.namedExport = none)
    (hm : o.memo = some true) (hc : o.component ≠ "Memo") (h : transform parse valid o kids = .ok m) :
    (indexLine o stem).imported ∉ m.exported := by
  rw [index_exported_iff parse valid o kids m stem h]
  simp [hn, ha, hm, hc]

example : componentName "my-icon_2.small".toList = "MyIcon2Small".toList := by decide +kernel
example : componentName "1abc".toList = "abc".toList := by decide +kernel
example : componentName "24".toList = [] := by decide +kernel

/-- A document of one element, with all the options. -/
def small : List Doc := [.element none "svg" [] [.element none "path" [] []]]

example : SmallAll small := by
  refine ⟨⟨by decide +kernel, ⟨by decide +kernel, trivial⟩, trivial⟩, trivial⟩

/-- The options of the examples. -/
def smallOpts : Opts :=
  { config := { ref := some true, titleProp := some true, native := some true }, memo := some true,
    typescript := some true, named := true, component := "Icon" }

example : ∃ m, transform (fun _ => none) (fun _ => true) smallOpts small = .ok m ∧
    m.locals = ["React", "Svg", "SVGProps", "Path", "Title", "forwardRef", "memo"] ∧
    m.exported = ["Memo"] ∧ uses m.body =
      ["Svg", "ref", "titleId", "props", "title", "Title", "titleId", "title", "Path"] := by
  refine ⟨_, rfl, ?_, ?_, ?_⟩ <;> decide +kernel

end Verif.Jsx
