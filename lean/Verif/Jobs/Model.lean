/-!
# Model of the job set and its runner

Models `crates/oxvg_optimiser/src/jobs/mod.rs` (the `jobs!` macro, lines 18-280, its instantiation, lines
282-344, and `run`/`safe`, lines 346-406), `crates/oxvg_optimiser/src/lib.rs` (`Extends`, lines 52-99),
`crates/oxvg_optimiser/src/error.rs` lines 69-83 and `crates/oxvg/src/config.rs` lines 66-81.

The configuration values of the individual jobs are one abstract type `α` with a default for each job:
the combinators never look inside of them. The effect of a job on the document is an arbitrary function.
-/

namespace Verif.Jobs

/-- The jobs in the order of the macro invocation (lines 282-344). -/
inductive Job where
  | precheck
  | addAttributesToSVGElement
  | addClassesToSVGElement
  | cleanupListOfValues
  | convertOneStopGradients
  | convertStyleToAttrs
  | removeAttributesBySelector
  | removeAttrs
  | removeDimensions
  | removeElementsByAttr
  | removeOffCanvasPaths
  | removeRasterImages
  | removeScripts
  | removeStyleElement
  | removeTitle
  | removeViewBox
  | reusePaths
  | removeXMLNS
  | removeDoctype
  | removeXMLProcInst
  | removeComments
  | removeDeprecatedAttrs
  | removeMetadata
  | removeEditorsNSData
  | cleanupAttrs
  | mergeStyles
  | inlineStyles
  | minifyStyles
  | cleanupIds
  | removeUselessDefs
  | cleanupNumericValues
  | convertColors
  | removeUnknownsAndDefaults
  | removeNonInheritableGroupAttrs
  | removeUselessStrokeAndFill
  | cleanupEnableBackground
  | removeHiddenElems
  | removeEmptyText
  | convertShapeToPath
  | convertEllipseToCircle
  | moveElemsAttrsToGroup
  | moveGroupAttrsToElems
  | collapseGroups
  | applyTransforms
  | convertPathData
  | convertTransform
  | removeEmptyAttrs
  | removeEmptyContainers
  | removeUnusedNS
  | mergePaths
  | sortAttrs
  | sortDefsChildren
  | removeDesc
  | prefixIds
  | removeXlink
deriving DecidableEq, Repr

open Job

/-- The fields of `Jobs` in order; the macro repeats its blocks in this order. -/
def all : List Job := [
  precheck, addAttributesToSVGElement, addClassesToSVGElement, cleanupListOfValues, convertOneStopGradients,
  convertStyleToAttrs, removeAttributesBySelector, removeAttrs, removeDimensions, removeElementsByAttr,
  removeOffCanvasPaths, removeRasterImages, removeScripts, removeStyleElement, removeTitle,
  removeViewBox, reusePaths, removeXMLNS, removeDoctype, removeXMLProcInst,
  removeComments, removeDeprecatedAttrs, removeMetadata, removeEditorsNSData, cleanupAttrs,
  mergeStyles, inlineStyles, minifyStyles, cleanupIds, removeUselessDefs,
  cleanupNumericValues, convertColors, removeUnknownsAndDefaults, removeNonInheritableGroupAttrs, removeUselessStrokeAndFill,
  cleanupEnableBackground, removeHiddenElems, removeEmptyText, convertShapeToPath, convertEllipseToCircle,
  moveElemsAttrsToGroup, moveGroupAttrsToElems, collapseGroups, applyTransforms, convertPathData,
  convertTransform, removeEmptyAttrs, removeEmptyContainers, removeUnusedNS, mergePaths,
  sortAttrs, sortDefsChildren, removeDesc, prefixIds, removeXlink]

/-- `stringify!($name)`: the snake case field name. -/
def Job.name : Job → String
  | precheck => "precheck"
  | addAttributesToSVGElement => "add_attributes_to_s_v_g_element"
  | addClassesToSVGElement => "add_classes_to_s_v_g_element"
  | cleanupListOfValues => "cleanup_list_of_values"
  | convertOneStopGradients => "convert_one_stop_gradients"
  | convertStyleToAttrs => "convert_style_to_attrs"
  | removeAttributesBySelector => "remove_attributes_by_selector"
  | removeAttrs => "remove_attrs"
  | removeDimensions => "remove_dimensions"
  | removeElementsByAttr => "remove_elements_by_attr"
  | removeOffCanvasPaths => "remove_off_canvas_paths"
  | removeRasterImages => "remove_raster_images"
  | removeScripts => "remove_scripts"
  | removeStyleElement => "remove_style_element"
  | removeTitle => "remove_title"
  | removeViewBox => "remove_view_box"
  | reusePaths => "reuse_paths"
  | removeXMLNS => "remove_x_m_l_n_s"
  | removeDoctype => "remove_doctype"
  | removeXMLProcInst => "remove_x_m_l_proc_inst"
  | removeComments => "remove_comments"
  | removeDeprecatedAttrs => "remove_deprecated_attrs"
  | removeMetadata => "remove_metadata"
  | removeEditorsNSData => "remove_editors_n_s_data"
  | cleanupAttrs => "cleanup_attrs"
  | mergeStyles => "merge_styles"
  | inlineStyles => "inline_styles"
  | minifyStyles => "minify_styles"
  | cleanupIds => "cleanup_ids"
  | removeUselessDefs => "remove_useless_defs"
  | cleanupNumericValues => "cleanup_numeric_values"
  | convertColors => "convert_colors"
  | removeUnknownsAndDefaults => "remove_unknowns_and_defaults"
  | removeNonInheritableGroupAttrs => "remove_non_inheritable_group_attrs"
  | removeUselessStrokeAndFill => "remove_useless_stroke_and_fill"
  | cleanupEnableBackground => "cleanup_enable_background"
  | removeHiddenElems => "remove_hidden_elems"
  | removeEmptyText => "remove_empty_text"
  | convertShapeToPath => "convert_shape_to_path"
  | convertEllipseToCircle => "convert_ellipse_to_circle"
  | moveElemsAttrsToGroup => "move_elems_attrs_to_group"
  | moveGroupAttrsToElems => "move_group_attrs_to_elems"
  | collapseGroups => "collapse_groups"
  | applyTransforms => "apply_transforms"
  | convertPathData => "convert_path_data"
  | convertTransform => "convert_transform"
  | removeEmptyAttrs => "remove_empty_attrs"
  | removeEmptyContainers => "remove_empty_containers"
  | removeUnusedNS => "remove_unused_n_s"
  | mergePaths => "merge_paths"
  | sortAttrs => "sort_attrs"
  | sortDefsChildren => "sort_defs_children"
  | removeDesc => "remove_desc"
  | prefixIds => "prefix_ids"
  | removeXlink => "remove_xlink"

/-- Whether the entry carries `is_default: true`. -/
def Job.isDefault : Job → Bool
  | precheck | addAttributesToSVGElement | addClassesToSVGElement | cleanupListOfValues | convertOneStopGradients | convertStyleToAttrs | removeAttributesBySelector | removeAttrs | removeDimensions | removeElementsByAttr | removeOffCanvasPaths | removeRasterImages | removeScripts | removeStyleElement | removeTitle | removeViewBox | reusePaths | removeXMLNS | prefixIds | removeXlink => false
  | _ => true

/-- The fields listed by `safe` (lines 365-405). -/
def safeJobs : List Job := [
  precheck, removeDoctype, removeXMLProcInst, removeComments, removeDeprecatedAttrs,
  removeMetadata, removeEditorsNSData, cleanupAttrs, mergeStyles, inlineStyles,
  minifyStyles, cleanupIds, removeUselessDefs, cleanupNumericValues, convertColors,
  removeUnknownsAndDefaults, removeNonInheritableGroupAttrs, removeUselessStrokeAndFill, cleanupEnableBackground, removeHiddenElems,
  removeEmptyText, convertShapeToPath, convertEllipseToCircle, moveElemsAttrsToGroup, moveGroupAttrsToElems,
  collapseGroups, applyTransforms, convertPathData, convertTransform, removeEmptyAttrs,
  removeEmptyContainers, removeUnusedNS, mergePaths, sortAttrs, sortDefsChildren,
  removeDesc]

/-- `struct Jobs` (lines 33-38): an optional configuration for each job. -/
abbrev Jobs (α : Type) := Job → Option α

section
variable {α : Type}

/-- Assignment to one field. -/
def set (js : Jobs α) (j : Job) (v : Option α) : Jobs α := fun k => if k = j then v else js k

/-- `Jobs::none` (lines 273-277). -/
def noJobs : Jobs α := fun _ => none

/-- `Jobs::default` (lines 40-50); `dflt` is `$job::default()`. -/
def defaultJobs (dflt : Job → α) : Jobs α := fun j => if j.isDefault then some (dflt j) else none

/-- `Jobs::safe` (lines 365-405). -/
def safeJobSet (dflt : Job → α) : Jobs α := fun j => if j ∈ safeJobs then some (dflt j) else noJobs j

/-- `Jobs::extend` (lines 258-262): field by field in macro order. -/
def extend (self other : Jobs α) : Jobs α :=
  all.foldl (fun acc j => if (other j).isSome then set acc j (other j) else acc) self

/-- `Jobs::omit` (lines 265-270): the arms of the `match` in macro order. -/
def omitJob (self : Jobs α) (name : String) : Jobs α :=
  match all.find? (fun j => j.name == name) with
  | some j => set self j none
  | none => self

/-- `Extends` (lib.rs lines 57-79), without the hidden NAPI placeholder. -/
inductive Extends where
  | none | default | safe
deriving DecidableEq, Repr

/-- `Extends::jobs` (lib.rs lines 83-91). -/
def Extends.jobs (dflt : Job → α) : Extends → Jobs α
  | .none => noJobs
  | .default => defaultJobs dflt
  | .safe => safeJobSet dflt

/-- `Extends::extend` (lib.rs lines 94-98). -/
def Extends.extend (dflt : Job → α) (e : Extends) (jobs : Jobs α) : Jobs α :=
  Verif.Jobs.extend (e.jobs dflt) jobs

/-- `config::Optimise` (crates/oxvg/src/config.rs lines 11-20). -/
structure Optimise (α : Type) where
  extends' : Option Extends
  jobs : Jobs α
  omitted : Option (List String)

/-- `Optimise::resolve_jobs` (crates/oxvg/src/config.rs lines 69-80). -/
def Optimise.resolve (dflt : Job → α) (o : Optimise α) : Jobs α :=
  match o.extends' with
  | none => o.jobs
  | some e =>
    let result := e.extend dflt o.jobs
    match o.omitted with
    | some names => names.foldl omitJob result
    | none => result

/-! ### Running -/

/-- What starting one job gives (visitor.rs 279-306): whether it was skipped, or an error. -/
inductive Outcome (ε : Type) where
  | ran | skipped | failed (e : ε)

/-- `run_jobs` (lines 54-71). The job changes the document (also when it fails) and has an outcome; the
expansion of the macro is one block per job in order. Gives the document and the number of jobs that were
not skipped, or the error. -/
def runJobs {δ ε : Type} (important : ε → Bool) (exec : Job → α → δ → δ × Outcome ε) (js : Jobs α) :
    List Job → Nat → δ → δ × Except ε Nat
  | [], count, d => (d, .ok count)
  | j :: rest, count, d =>
    match js j with
    | none => runJobs important exec js rest count d
    | some cfg =>
      match exec j cfg d with
      | (d', .failed e) =>
        if important e then (d', .error e) else runJobs important exec js rest count d'
      | (d', .skipped) => runJobs important exec js rest count d'
      | (d', .ran) => runJobs important exec js rest (count + 1) d'

/-- `Jobs::run` (lines 349-362); `hasRoot` is whether the document has an element. -/
def run {δ ε : Type} (important : ε → Bool) (exec : Job → α → δ → δ × Outcome ε) (js : Jobs α)
    (hasRoot : Bool) (d : δ) : δ × Except ε Unit :=
  if hasRoot then
    match runJobs important exec js all 0 d with
    | (d', .ok _) => (d', .ok ())
    | (d', .error e) => (d', .error e)
  else (d, .ok ())

/-- `JobsError` (error.rs lines 35-49), contents dropped. -/
inductive JobsError where
  | computedStyles | cleanupValuesPrecision | precheck | invalidUserSelector | invalidUserRegex
deriving DecidableEq, Repr

/-- `JobsError::is_important` (error.rs lines 71-82). -/
def JobsError.important : JobsError → Bool
  | .computedStyles => false
  | .precheck | .cleanupValuesPrecision | .invalidUserSelector | .invalidUserRegex => true

end
end Verif.Jobs
