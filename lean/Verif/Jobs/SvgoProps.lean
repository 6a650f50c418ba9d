import Verif.Jobs.SvgoModel
import Verif.Jobs.Props

/-! # C17: importing an SVGO plugin list honours every entry -/

namespace Verif.Jobs.Svgo

/-- Specification: the name of the plugin in SVGO (camel case, acronyms in capitals). -/
def svgoName : Job → String
  | .precheck => "precheck"
  | .addAttributesToSVGElement => "addAttributesToSVGElement"
  | .addClassesToSVGElement => "addClassesToSVGElement"
  | .cleanupListOfValues => "cleanupListOfValues"
  | .convertOneStopGradients => "convertOneStopGradients"
  | .convertStyleToAttrs => "convertStyleToAttrs"
  | .removeAttributesBySelector => "removeAttributesBySelector"
  | .removeAttrs => "removeAttrs"
  | .removeDimensions => "removeDimensions"
  | .removeElementsByAttr => "removeElementsByAttr"
  | .removeOffCanvasPaths => "removeOffCanvasPaths"
  | .removeRasterImages => "removeRasterImages"
  | .removeScripts => "removeScripts"
  | .removeStyleElement => "removeStyleElement"
  | .removeTitle => "removeTitle"
  | .removeViewBox => "removeViewBox"
  | .reusePaths => "reusePaths"
  | .removeXMLNS => "removeXMLNS"
  | .removeDoctype => "removeDoctype"
  | .removeXMLProcInst => "removeXMLProcInst"
  | .removeComments => "removeComments"
  | .removeDeprecatedAttrs => "removeDeprecatedAttrs"
  | .removeMetadata => "removeMetadata"
  | .removeEditorsNSData => "removeEditorsNSData"
  | .cleanupAttrs => "cleanupAttrs"
  | .mergeStyles => "mergeStyles"
  | .inlineStyles => "inlineStyles"
  | .minifyStyles => "minifyStyles"
  | .cleanupIds => "cleanupIds"
  | .removeUselessDefs => "removeUselessDefs"
  | .cleanupNumericValues => "cleanupNumericValues"
  | .convertColors => "convertColors"
  | .removeUnknownsAndDefaults => "removeUnknownsAndDefaults"
  | .removeNonInheritableGroupAttrs => "removeNonInheritableGroupAttrs"
  | .removeUselessStrokeAndFill => "removeUselessStrokeAndFill"
  | .cleanupEnableBackground => "cleanupEnableBackground"
  | .removeHiddenElems => "removeHiddenElems"
  | .removeEmptyText => "removeEmptyText"
  | .convertShapeToPath => "convertShapeToPath"
  | .convertEllipseToCircle => "convertEllipseToCircle"
  | .moveElemsAttrsToGroup => "moveElemsAttrsToGroup"
  | .moveGroupAttrsToElems => "moveGroupAttrsToElems"
  | .collapseGroups => "collapseGroups"
  | .applyTransforms => "applyTransforms"
  | .convertPathData => "convertPathData"
  | .convertTransform => "convertTransform"
  | .removeEmptyAttrs => "removeEmptyAttrs"
  | .removeEmptyContainers => "removeEmptyContainers"
  | .removeUnusedNS => "removeUnusedNS"
  | .mergePaths => "mergePaths"
  | .sortAttrs => "sortAttrs"
  | .sortDefsChildren => "sortDefsChildren"
  | .removeDesc => "removeDesc"
  | .prefixIds => "prefixIds"
  | .removeXlink => "removeXlink"

variable {α π : Type}

/-- Specification: an entry of a plugin list, in terms of jobs. -/
inductive Entry (π : Type) where
  /-- `"preset-default"` -/
  | preset
  /-- `"removeComments"` -/
  | plain (j : Job)
  /-- `{ name: "removeComments" }` -/
  | named (j : Job)
  /-- `{ name: "removeComments", params: {...} }` -/
  | params (j : Job) (p : π)

/-- How an entry is written in an SVGO configuration. -/
def render : Entry π → Plugin π
  | .preset => .str presetName
  | .plain j => .str (svgoName j).toList
  | .named j => .obj (some (svgoName j).toList) none
  | .params j p => .obj (some (svgoName j).toList) (some p)

/-- Specification: what an entry says about job `k`. `convertPathData` includes applying transforms, as
in SVGO, unless its parameters decide about that. -/
def says (env : Env α π) (k : Job) : Entry π → Option α
  | .preset => if k.isDefault then some (env.dflt k) else none
  | .plain j | .named j =>
    if k = j then some (env.dflt j)
    else if j = .convertPathData ∧ k = .applyTransforms then some (env.dflt k) else none
  | .params j p =>
    if j = .convertPathData then
      if env.isObject p then
        if k = j then some (env.pathCfg p) else if k = .applyTransforms then env.applyCfg p else none
      else none
    else if k = j then env.deser j p else none

/-- Specification: the parameters can be read. -/
def Readable (env : Env α π) : Entry π → Prop
  | .params j p => j = .convertPathData ∨ (env.deser j p).isSome
  | _ => True

/-- Agreement of `char::is_uppercase` with ASCII on ASCII characters: the only thing needed about it. -/
def AsciiUpper (upper : Char → Bool) : Prop :=
  ∀ c : Char, c.toNat < 128 → upper c = decide (65 ≤ c.toNat ∧ c.toNat ≤ 90)

theorem toSnake_congr {u v : Char → Bool} (s : List Char) (h : ∀ c ∈ s, u c = v c) :
    toSnake u s = toSnake v s := by
  induction s with
  | nil => rfl
  | cons c s ih => simp only [toSnake, h c (by simp), ih (fun c hc => h c (by simp [hc]))]

/-- **C17 (names).** The SVGO name of every job is converted into the name of this job. -/
theorem snake_svgoName (upper : Char → Bool) (h : AsciiUpper upper) (j : Job) :
    toSnake upper (svgoName j).toList = j.name.toList := by
  have ascii : ∀ j ∈ all, ∀ c ∈ (svgoName j).toList, c.toNat < 128 := by decide +kernel
  have conv : ∀ j ∈ all, toSnake (fun c => decide (65 ≤ c.toNat ∧ c.toNat ≤ 90)) (svgoName j).toList = j.name.toList := by
    decide +kernel
  rw [toSnake_congr _ (fun c hc => h c (ascii j (mem_all j) c hc))]
  exact conv j (mem_all j)

theorem byName_name (j : Job) : byName j.name.toList = some j := by
  unfold byName
  have hs : (all.find? (fun i => i.name.toList == j.name.toList)).isSome :=
    List.find?_isSome.2 ⟨j, mem_all j, by simp⟩
  obtain ⟨i, hi⟩ := Option.isSome_iff_exists.1 hs
  have := List.find?_some hi
  have hij : i = j := name_injective (String.toList_inj.1 (by simpa using this))
  rw [hi, hij]

theorem name_path (j : Job) : j.name.toList = pathName ↔ j = .convertPathData := by
  constructor
  · intro h; exact name_injective (String.toList_inj.1 h)
  · rintro rfl; rfl

theorem svgo_ne_preset (j : Job) : (svgoName j).toList ≠ presetName := by
  have : ∀ j ∈ all, (svgoName j).toList ≠ presetName := by decide +kernel
  exact this j (mem_all j)

theorem preset_fold (env : Env α π) (l : List Job) (js : Jobs α) (k : Job) :
    (l.foldl (fun acc j => if j.isDefault then set acc j (some (env.dflt j)) else acc) js) k
      = if k ∈ l ∧ k.isDefault then some (env.dflt k) else js k := by
  induction l generalizing js with
  | nil => simp
  | cons a l ih =>
    rw [List.foldl_cons, ih]
    by_cases h1 : k ∈ l ∧ k.isDefault
    · rw [if_pos h1, if_pos ⟨by simp [h1.1], h1.2⟩]
    · rw [if_neg h1]
      by_cases h2 : k = a
      · subst h2
        by_cases h3 : k.isDefault
        · simp [h3, set]
        · simp [h3]
      · by_cases h3 : a.isDefault
        · simp only [h3, if_true, set, if_neg h2]
          rw [if_neg]; simp [h2]; simpa using h1
        · rw [if_neg h3, if_neg]; simp [h2]; simpa using h1

theorem step_spec (upper : Char → Bool) (hu : AsciiUpper upper) (env : Env α π) (js : Jobs α) (e : Entry π)
    (hr : Readable env e) :
    ∃ js', step upper env js (render e) = some js' ∧ ∀ k, js' k = (says env k e).or (js k) := by
  cases e with
  | preset =>
    refine ⟨_, by simp only [render, step, setString, if_true]; rfl, fun k => ?_⟩
    rw [preset_fold]
    simp only [mem_all, true_and, says]
    split <;> simp
  | plain j =>
    have hsn := snake_svgoName upper hu j
    simp only [render, step, setString, if_neg (svgo_ne_preset j), hsn, byName_name, name_path]
    refine ⟨_, rfl, fun k => ?_⟩
    by_cases hj : j = .convertPathData
    · subst hj
      simp only [if_true, set, says, true_and]
      by_cases hk : k = .applyTransforms
      · subst hk; simp
      · by_cases hk2 : k = .convertPathData
        · subst hk2; simp
        · simp [hk, hk2]
    · simp only [hj, if_false, set, says, false_and]
      by_cases hk : k = j <;> simp [hk]
  | named j =>
    have hsn := snake_svgoName upper hu j
    simp only [render, step, hsn, byName_name, name_path]
    refine ⟨_, rfl, fun k => ?_⟩
    by_cases hj : j = .convertPathData
    · subst hj
      simp only [if_true, set, says, true_and]
      by_cases hk : k = .applyTransforms
      · subst hk; simp
      · by_cases hk2 : k = .convertPathData
        · subst hk2; simp
        · simp [hk, hk2]
    · simp only [hj, if_false, set, says, false_and]
      by_cases hk : k = j <;> simp [hk]
  | params j p =>
    have hsn := snake_svgoName upper hu j
    simp only [render, step, hsn, byName_name, name_path]
    by_cases hj : j = .convertPathData
    · subst hj
      simp only [if_true, says]
      by_cases ho : env.isObject p
      · simp only [ho, if_true]
        cases ha : env.applyCfg p with
        | some a =>
          refine ⟨_, rfl, fun k => ?_⟩
          simp only [set]
          by_cases hk : k = .applyTransforms
          · subst hk; simp
          · by_cases hk2 : k = .convertPathData
            · subst hk2; simp
            · simp [hk, hk2]
        | none =>
          refine ⟨_, rfl, fun k => ?_⟩
          simp only [set]
          by_cases hk2 : k = .convertPathData
          · simp [hk2]
          · simp [hk2]
      · simp only [ho]
        exact ⟨js, rfl, fun k => by simp⟩
    · simp only [hj, if_false, says]
      have : (env.deser j p).isSome := by simpa [Readable, hj] using hr
      obtain ⟨c, hc⟩ := Option.isSome_iff_exists.1 this
      refine ⟨set js j (some c), by simp [hc], fun k => ?_⟩
      simp only [set]
      by_cases hk : k = j <;> simp [hk, hc]

/-- **C17.** Importing any list of SVGO entries whose parameters can be read succeeds, and each job gets
exactly the configuration of the last entry that speaks about it; a job no entry speaks about stays
disabled. -/
theorem import_spec (upper : Char → Bool) (hu : AsciiUpper upper) (env : Env α π) (es : List (Entry π))
    (hr : ∀ e ∈ es, Readable env e) :
    ∃ js, importConfig upper env (some (es.map render)) = some js ∧
      ∀ k, js k = es.reverse.findSome? (says env k) := by
  have key : ∀ (es : List (Entry π)) (js0 : Jobs α), (∀ e ∈ es, Readable env e) →
      ∃ js, (es.map render).foldlM (step upper env) js0 = some js ∧
        ∀ k, js k = (es.reverse.findSome? (says env k)).or (js0 k) := by
    intro es
    induction es with
    | nil => intro js0 _; exact ⟨js0, rfl, by simp⟩
    | cons e es ih =>
      intro js0 hr
      obtain ⟨js1, h1, h2⟩ := step_spec upper hu env js0 e (hr e (by simp))
      obtain ⟨js2, h3, h4⟩ := ih js1 (fun e he => hr e (by simp [he]))
      refine ⟨js2, by simp [h1, h3], fun k => ?_⟩
      rw [h4, h2]
      simp only [List.reverse_cons, List.findSome?_append, List.findSome?_cons, List.findSome?_nil]
      cases es.reverse.findSome? (says env k) <;> cases says env k e <;> simp
  obtain ⟨js, h1, h2⟩ := key es noJobs hr
  exact ⟨js, h1, fun k => by rw [h2]; simp [noJobs]⟩

/-- **C17 (unknown names).** A plugin string that is no job's name makes the import fail. -/
theorem import_unknown (upper : Char → Bool) (env : Env α π) (pre post : List (Plugin π)) (s : List Char)
    (h1 : s ≠ presetName) (h2 : ∀ j : Job, toSnake upper s ≠ j.name.toList) :
    importConfig upper env (some (pre ++ .str s :: post)) = none := by
  have hb : byName (toSnake upper s) = none := by
    unfold byName
    simp only [List.find?_eq_none]
    intro j _ h; exact h2 j (by simpa using (beq_iff_eq.1 h).symm)
  simp only [importConfig, List.foldlM_append, List.foldlM_cons]
  cases List.foldlM (step upper env) noJobs pre with
  | none => rfl
  | some js => simp [step, setString, h1, hb]

/-- **C17 (bad parameters).** Parameters that cannot be read make the import fail wherever the entry stands. -/
theorem import_bad_params (upper : Char → Bool) (hu : AsciiUpper upper) (env : Env α π) (pre post : List (Plugin π))
    (e : Entry π) (h : ¬ Readable env e) :
    importConfig upper env (some (pre ++ render e :: post)) = none := by
  cases e with
  | params j p =>
    simp only [Readable, not_or] at h
    obtain ⟨h1, h2⟩ := h
    have hsn := snake_svgoName upper hu j
    have hd : env.deser j p = none := by simpa using h2
    simp only [importConfig, List.foldlM_append, List.foldlM_cons]
    cases List.foldlM (step upper env) noJobs pre with
    | none => rfl
    | some js => simp [render, step, hsn, byName_name, name_path, h1, hd]
  | _ => simp [Readable] at h

/-- Specification: SVGO's `preset-default` in its order, with the job `applyTransforms` (a part of
`convertPathData` in SVGO) in front of it. -/
def svgoPreset : List String := [
  "removeDoctype", "removeXMLProcInst", "removeComments", "removeDeprecatedAttrs", "removeMetadata",
  "removeEditorsNSData", "cleanupAttrs", "mergeStyles", "inlineStyles", "minifyStyles", "cleanupIds",
  "removeUselessDefs", "cleanupNumericValues", "convertColors", "removeUnknownsAndDefaults",
  "removeNonInheritableGroupAttrs", "removeUselessStrokeAndFill", "cleanupEnableBackground", "removeHiddenElems",
  "removeEmptyText", "convertShapeToPath", "convertEllipseToCircle", "moveElemsAttrsToGroup", "moveGroupAttrsToElems",
  "collapseGroups", "applyTransforms", "convertPathData", "convertTransform", "removeEmptyAttrs",
  "removeEmptyContainers", "removeUnusedNS", "mergePaths", "sortAttrs", "sortDefsChildren", "removeDesc"]

/-- **C16 (order).** The enabled default jobs run in the order of SVGO's preset; the precheck runs before every
other job, and prefixing ids and removing xlink, in this order, after all others. -/
theorem default_order (dflt : Job → α) :
    (enabled (defaultJobs dflt)).map svgoName = svgoPreset ∧ all.head? = some .precheck ∧
      ∃ l, all = l ++ [.prefixIds, .removeXlink] := by
  refine ⟨?_, rfl, ⟨all.take (all.length - 2), by decide +kernel⟩⟩
  have : ∀ j : Job, (defaultJobs dflt j).isSome = j.isDefault := by
    intro j
    simp only [defaultJobs]
    cases j.isDefault <;> rfl
  simp only [enabled, this]
  decide +kernel

/-- **C17 (no list).** Without a plugin list the default jobs are used. -/
theorem import_default (upper : Char → Bool) (env : Env α π) :
    importConfig upper env none = some (defaultJobs env.dflt) := rfl

/-- **C17 violated for the preset as an object.** `{ name: "preset-default" }`, the form SVGO documents
for overriding parameters, is rejected although the string form is accepted. -/
theorem import_preset_object_violated (upper : Char → Bool) (hu : AsciiUpper upper) (env : Env α π) (p : Option π) :
    importConfig upper env (some [.obj (some presetName) p]) = none := by
  have hc : toSnake upper presetName = presetName := by
    rw [toSnake_congr (v := fun c => decide (65 ≤ c.toNat ∧ c.toNat ≤ 90)) _
      (fun c hc => hu c ((by decide : ∀ c ∈ presetName, c.toNat < 128) c hc))]
    decide
  have hb : byName presetName = none := by decide +kernel
  have hn : presetName ≠ pathName := by decide
  cases p <;> simp [importConfig, step, hc, hb, hn]

/-! ### Parameters of `convertPathData` -/

/-- Specification: the value given for a key. -/
def given (o : Obj) (k : String) : Option Json := (o.find? (·.1 == k)).map (·.2)

theorem remove_val (o : Obj) (k : String) : (remove o k).1 = given o k := rfl

theorem given_remove_ne (o : Obj) {k l : String} (h : k ≠ l) : given (remove o k).2 l = given o l := by
  unfold given remove
  simp only
  induction o with
  | nil => rfl
  | cons p o ih =>
    rw [List.filter_cons]
    by_cases hp : p.1 = k
    · have h2 : (p.1 == l) = false := by simp [hp, h]
      simp only [hp, beq_self_eq_true, Bool.not_true, Bool.false_eq_true, if_false]
      rw [ih, List.find?_cons]; simp [h2]
    · have h1 : (p.1 == k) = false := by simp [hp]
      simp only [h1, Bool.not_false, if_true, List.find?_cons]
      cases p.1 == l
      · exact ih
      · rfl

theorem given_remove_eq (o : Obj) (k : String) : given (remove o k).2 k = none := by
  unfold given remove
  simp only [Option.map_eq_none_iff, List.find?_eq_none]
  intro p hp
  simp only [List.mem_filter, Bool.not_eq_true', beq_eq_false_iff_ne] at hp
  simp [hp.2]

/-- **C17 (parameters).** Every SVGO parameter of `convertPathData` is honoured by the field it belongs to,
for every object. Missing: `removeUseless` for zero-length segments (`path_config_violated`), which always
keeps its value. -/
theorem path_config_partial (base : PathCfg) (o : Obj) :
    let c := pathConfig base o
    c.positional = (match given o "makeArcs" with | some (.object (some t)) => t | _ => base.positional) ∧
    c.precision = asNum (given o "floatPrecision") base.precision ∧
    c.closeSegments = asBool (given o "convertToZ") base.closeSegments ∧
    c.joinNodes = asBool (given o "collapseRepeated") base.joinNodes ∧
    c.removeEmptySegments = asBool (given o "removeUseless") base.removeEmptySegments ∧
    c.straightCurves = asBool (given o "straightCurves") base.straightCurves ∧
    c.arcCurves = (given o "makeArcs").isSome ∧
    c.smartArcRounding = asBool (given o "smartArcRounding") base.smartArcRounding ∧
    c.removeZeroSegments = base.removeZeroSegments := by
  simp only [pathConfig, remove_val]
  refine ⟨rfl, ?_, ?_, ?_, ?_, ?_, trivial, ?_, ?_⟩
  all_goals first
    | (rw [given_remove_eq]; rfl)
    | (repeat rw [given_remove_ne _ (by decide)])

/-- **C17 violated.** `removeUseless: false` does not disable the removal of zero-length segments. -/
theorem path_config_violated : ∃ (base : PathCfg) (o : Obj), given o "removeUseless" = some (.bool false) ∧
    (pathConfig base o).removeZeroSegments = true :=
  ⟨⟨0, 0, true, true, true, true, true, true, true⟩, [("removeUseless", .bool false)], by decide, by decide⟩

/-- Non-trivial cases. -/
example : toSnake (fun c => c.isUpper) "removeXMLNS".toList = "remove_x_m_l_n_s".toList := by decide
example : ∃ js, importConfig (fun c => c.isUpper)
    ({ dflt := fun _ => 0, deser := fun _ p => some p, isObject := fun _ => true, pathCfg := id,
       applyCfg := fun _ => none } : Env Nat Nat)
    (some ([.plain .removeComments, .params .cleanupIds 7, .named .removeComments].map render)) = some js ∧
    js .cleanupIds = some 7 ∧ js .removeComments = some 0 ∧ js .removeDesc = none := by
  refine ⟨_, rfl, ?_⟩
  decide +kernel

end Verif.Jobs.Svgo
