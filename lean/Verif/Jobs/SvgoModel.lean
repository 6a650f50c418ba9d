import Verif.Jobs.Model

/-!
# Model of the import of SVGO plugin lists

Models `crates/oxvg_optimiser/src/jobs/mod.rs` lines 133-255: `from_svgo_plugin_config`,
`set_svgo_plugin_string` and `from_svgo_plugin_to_snake_case`.

Deserialisation of the parameters of a job (`serde_json::from_value`) is a parameter; the handling of
the parameters of `convertPathData`, which is written out in the code (lines 170-199), is modelled in
the second part. Strings are lists of characters.
-/

namespace Verif.Jobs.Svgo

/-- `char::to_ascii_lowercase`. -/
def lower (c : Char) : Char := if 65 ≤ c.toNat ∧ c.toNat ≤ 90 then Char.ofNat (c.toNat + 32) else c

/-- `from_svgo_plugin_to_snake_case` (lines 245-255). `upper` is Rust's `char::is_uppercase`. -/
def toSnake (upper : Char → Bool) : List Char → List Char
  | [] => []
  | c :: cs => if upper c then '_' :: lower c :: toSnake upper cs else lower c :: toSnake upper cs

/-- The arms `stringify!($name) => ...` of the `match name.as_str()`. -/
def byName (name : List Char) : Option Job := all.find? fun j => j.name.toList == name

/-- The literal of line 224. -/
def presetName : List Char := "preset-default".toList

/-- The literal of lines 170, 211 and 239. -/
def pathName : List Char := "convert_path_data".toList

/-- What the code takes from outside: defaults, deserialisation (`none` is an error), and for
`convertPathData` whether the parameters are an object, the job built from them and the additional
`apply_transforms` (lines 170-199). -/
structure Env (α π : Type) where
  dflt : Job → α
  deser : Job → π → Option α
  isObject : π → Bool
  pathCfg : π → α
  applyCfg : π → Option α

/-- One element of the plugin list: a string, an object with an optional name and parameters, or anything
else. -/
inductive Plugin (π : Type) where
  | str (name : List Char)
  | obj (name : Option (List Char)) (params : Option π)
  | other

variable {α π : Type}

/-- `set_svgo_plugin_string` (lines 223-243). -/
def setString (upper : Char → Bool) (env : Env α π) (js : Jobs α) (svgoName : List Char) : Option (Jobs α) :=
  if svgoName = presetName then
    some (all.foldl (fun acc j => if j.isDefault then set acc j (some (env.dflt j)) else acc) js)
  else
    let name := toSnake upper svgoName
    match byName name with
    | none => none
    | some j =>
      let js := set js j (some (env.dflt j))
      some (if name = pathName then set js .applyTransforms (some (env.dflt .applyTransforms)) else js)

/-- One turn of the loop of lines 155-218; `none` is an error. -/
def step (upper : Char → Bool) (env : Env α π) (js : Jobs α) : Plugin π → Option (Jobs α)
  | .str n => setString upper env js n
  | .other => none
  | .obj none _ => none
  | .obj (some svgoName) (some params) =>
    let name := toSnake upper svgoName
    if name = pathName then
      if env.isObject params then
        let js := set js .convertPathData (some (env.pathCfg params))
        match env.applyCfg params with
        | some a => some (set js .applyTransforms (some a))
        | none => some js
      else some js
    else
      match byName name with
      | none => none
      | some j => (env.deser j params).map fun c => set js j (some c)
  | .obj (some svgoName) none =>
    let name := toSnake upper svgoName
    match byName name with
    | none => none
    | some j =>
      let js := set js j (some (env.dflt j))
      some (if name = pathName then set js .applyTransforms (some (env.dflt .applyTransforms)) else js)

/-- `from_svgo_plugin_config` (lines 149-221). -/
def importConfig (upper : Char → Bool) (env : Env α π) : Option (List (Plugin π)) → Option (Jobs α)
  | none => some (defaultJobs env.dflt)
  | some plugins => plugins.foldlM (step upper env) noJobs

/-! ### The parameters of `convertPathData` -/

/-- JSON values, as far as they matter here. -/
inductive Json where
  | bool (b : Bool) | num (n : Nat) | object (threshold : Option Nat) | other
deriving DecidableEq, Repr

/-- The fields of `ConvertPathData` that the import sets. Numbers are naturals. -/
structure PathCfg where
  positional : Nat
  precision : Nat
  closeSegments : Bool
  joinNodes : Bool
  removeEmptySegments : Bool
  removeZeroSegments : Bool
  straightCurves : Bool
  arcCurves : Bool
  smartArcRounding : Bool
deriving DecidableEq, Repr

/-- A JSON object as association list; `serde_json::Map::remove` takes the value out. -/
abbrev Obj := List (String × Json)

def remove (o : Obj) (k : String) : Option Json × Obj :=
  ((o.find? (·.1 == k)).map (·.2), o.filter (fun p => !(p.1 == k)))

/-- `.map(serde_json::from_value).and_then(Result::ok).unwrap_or(old)` at type `bool`. -/
def asBool (v : Option Json) (old : Bool) : Bool := match v with | some (.bool b) => b | _ => old

/-- The same for a number. -/
def asNum (v : Option Json) (old : Nat) : Nat := match v with | some (.num n) => n | _ => old

/-- Lines 171-185: `base` is what `serde_json::from_value(params).unwrap_or_default()` gave. -/
def pathConfig (base : PathCfg) (o : Obj) : PathCfg :=
  let (arcs, o) := remove o "makeArcs"
  let positional := match arcs with | some (.object (some t)) => t | _ => base.positional
  let (v, o) := remove o "floatPrecision"
  let precision := asNum v base.precision
  let (v, o) := remove o "convertToZ"
  let closeSegments := asBool v base.closeSegments
  let (v, o) := remove o "collapseRepeated"
  let joinNodes := asBool v base.joinNodes
  let (v, o) := remove o "removeUseless"
  let removeEmptySegments := asBool v base.removeEmptySegments
  let (v, o) := remove o "removeUseless"
  let removeZeroSegments := asBool v base.removeZeroSegments
  let (v, o) := remove o "straightCurves"
  let straightCurves := asBool v base.straightCurves
  let (v, _) := remove o "smartArcRounding"
  let smartArcRounding := asBool v base.smartArcRounding
  { positional, precision, closeSegments, joinNodes, removeEmptySegments, removeZeroSegments,
    straightCurves, arcCurves := arcs.isSome, smartArcRounding }

end Verif.Jobs.Svgo
