import Verif.Jsx.Preset

/-!
# Model: the module around the JSX

`crates/oxvg_jsx/src/swc/get_variables.rs`, `crates/oxvg_jsx/src/config.rs` (the options),
`crates/oxvg/src/commands/jsx.rs` (the name of the component and the index).

What is modelled of a module is the names it declares and uses.
-/

namespace Verif.Jsx

/-- config.rs:339-351, `JSXRuntime`. -/
inductive Runtime
  | classic | automatic | preact
  deriving DecidableEq, Repr

/-- config.rs:353-377, `JsxRuntimeImport`. -/
structure RuntimeImport where
  sourceNamespace : Option String
  source : String
  specifiers : Option (List String)
  namespaceName : Option String
  defaultSpecifier : Option String
  deriving DecidableEq, Repr

/-- config.rs:212-242, `TemplateContextOptions`. -/
structure Opts where
  config : Config := {}
  typescript : Option Bool := none
  memo : Option Bool := none
  named : Bool := false
  namedExport : Option String := none
  runtime : Option Runtime := none
  runtimeImport : Option RuntimeImport := none
  component : String := "SvgComponent"
  nativeIdents : List String := []

def Opts.ref (o : Opts) : Bool := o.config.ref.getD false
def Opts.title (o : Opts) : Bool := o.config.titleProp.getD false
def Opts.desc (o : Opts) : Bool := o.config.descProp.getD false
def Opts.native (o : Opts) : Bool := o.config.native.getD false
def Opts.ts (o : Opts) : Bool := o.typescript.getD false
def Opts.expands (o : Opts) : Bool := o.config.expand != .off

/-- config.rs:282-312, `jsx_runtime_import`. -/
def Opts.runtimeDecl (o : Opts) : RuntimeImport :=
  match o.runtimeImport with
  | some v => v
  | none =>
    match o.runtime.getD .classic with
    | .classic => ⟨none, "react", none, some "React", none⟩
    | .preact => ⟨some "preact", "preact/compat", some ["h"], none, none⟩
    | .automatic => ⟨none, "react", none, none, none⟩

/-- `ImportSpecifier`. -/
inductive Spec
  | default (n : String)
  | named (n : String)
  | star (n : String)
  deriving DecidableEq, Repr

/-- The local name. -/
def Spec.local : Spec → String
  | .default n => n
  | .named n => n
  | .star n => n

/-- `ImportDecl`. -/
structure Import where
  specs : List Spec
  src : String
  deriving DecidableEq, Repr

/-- The parameters of the component: an object pattern, or an identifier; with the types they
are given. -/
inductive Param
  | object (props : List String) (rest : Option String) (types : List String)
  | ident (x : String) (types : List String)
  deriving DecidableEq, Repr

/-- The declarations behind the component, and the export. -/
inductive Export
  | wrap (name fn arg : String)
  | default (x : String)
  | named (orig : String) (exported : Option String)
  deriving DecidableEq, Repr

/-- get_variables.rs:23-42, `Variables`, in the order `default_template` (564-624) writes it. -/
structure Module where
  imports : List Import
  interfaces : List (String × List String)
  component : String
  params : List Param
  body : Jsx
  exports : List Export

/-- get_variables.rs:441-557, `get_jsx_runtime_import`: the import of the namespace, the import
of names and the import of a default.  `valid` is `Ident::verify_symbol`. -/
def runtimeImports (valid : String → Bool) (o : Opts) : Option (List Import × List Import × List Import) :=
  let r := o.runtimeDecl
  let custom := r.specifiers.getD []
  let src := r.sourceNamespace.getD r.source
  if !custom.all valid then none
  else if !r.namespaceName.toList.all valid then none
  else if !r.defaultSpecifier.toList.all valid then none
  else
    let extra :=
      (if o.ref then [Spec.named "forwardRef"] else []) ++
      (if o.memo.getD false then [Spec.named "memo"] else []) ++
      (if o.expands && o.ts && !o.native then [Spec.named "SVGProps"] else [])
    let ns := r.namespaceName.toList.map Spec.star ++ (if r.sourceNamespace.isSome then extra else [])
    let sp := custom.map Spec.named ++ (if r.sourceNamespace.isSome then [] else extra)
    some (if ns.isEmpty then [] else [⟨ns, src⟩], if sp.isEmpty then [] else [⟨sp, r.source⟩],
      r.defaultSpecifier.toList.map fun d => ⟨[.default d], src⟩)

/-- get_variables.rs:74-122, the import of the elements of React Native. -/
def nativeImport (o : Opts) : List Import :=
  if o.native then
    [⟨(if o.nativeIdents.contains "Svg" then [Spec.default "Svg"] else []) ++
      (if o.ts && o.expands then [Spec.named "SVGProps"] else []) ++
      (o.nativeIdents.filter (· ≠ "Svg")).map Spec.named ++
      (if o.title && !o.nativeIdents.contains "Title" then [Spec.named "Title"] else []) ++
      (if o.desc && !o.nativeIdents.contains "Desc" then [Spec.named "Desc"] else []),
      "react-native-svg"⟩]
  else []

/-- get_variables.rs:64, `props_ident`. -/
def Opts.propsName (o : Opts) : String := o.component ++ "Props"

/-- The names of the properties for the title and the description, get_variables.rs:162-180. -/
def Opts.labels (o : Opts) : List String :=
  (if o.title then ["title", "titleId"] else []) ++ (if o.desc then ["desc", "descId"] else [])

/-- get_variables.rs:124-296, the parameters. -/
def params (o : Opts) : List Param :=
  let ps :=
    if o.title || o.desc then
      [Param.object o.labels (if o.expands then some "props" else none)
        (if o.ts then (if o.expands then ["SVGProps", "SVGSVGElement", o.propsName] else [o.propsName]) else [])]
    else if o.expands then [Param.ident "props" (if o.ts then [o.propsName] else [])]
    else []
  if o.ref then
    (if ps.isEmpty then [Param.ident "_" []] else ps) ++
      [Param.ident "ref" (if o.ts then ["Ref", "SVGSVGElement"] else [])]
  else ps

/-- get_variables.rs:182-193, the interface. -/
def interfaces (o : Opts) : List (String × List String) :=
  if (o.title || o.desc) && o.ts then [(o.propsName, o.labels)] else []

/-- get_variables.rs:297-327 and 329-356, `forwardRef` and `memo`, and 379-412, the export. -/
def exports (valid : String → Bool) (o : Opts) : Option (List Export) :=
  let x := o.component
  let (l, x) := if o.ref then ([Export.wrap "ForwardRef" "forwardRef" x], "ForwardRef") else ([], x)
  let (l, x) := if o.memo.getD false then (l ++ [Export.wrap "Memo" "memo" x], "Memo") else (l, x)
  if !o.named then some (l ++ [.default x])
  else if !o.namedExport.toList.all valid then none
  else some (l ++ [.named x o.namedExport])

/-- get_variables.rs:51-417, `Variables::new`, with `default_template`. -/
def variables (valid : String → Bool) (o : Opts) (j : Jsx) : Option Module :=
  match runtimeImports valid o, exports valid o with
  | some (ns, sp, df), some es =>
    some ⟨ns ++ nativeImport o ++ sp ++ df, interfaces o, o.component, params o, j, es⟩
  | _, _ => none

/-- lib.rs:60-120, `transform` without the optimiser, for the JSX of a document. -/
def transform (parse : String → Option String) (valid : String → Bool) (o : Opts) (kids : List Doc) :
    Except (Option PErr) Module :=
  match preset parse o.config (docJsx kids) with
  | .error e => .error (some e)
  | .ok (j, ids) =>
    match variables valid { o with nativeIdents := ids.eraseDups } j with
    | some m => .ok m
    | none => .error none

/-- jsx.rs:568-587, `path_to_component_name`: letters and digits, those behind something else as
capitals. -/
def camel (next : Bool) : List Char → List Char
  | [] => []
  | c :: s =>
    if c.isAlphanum then (if next then c.toUpper else c) :: camel false s else camel true s

/-- jsx.rs:568-587, without the digits at the start. -/
def componentName (stem : List Char) : List Char := (camel true stem).dropWhile Char.isDigit

/-- jsx.rs:589-620, `append_to_index_js`: a line for a file; the name exported by the module (by
the index it always is the one of the component), and the module. -/
structure IndexLine where
  imported : String
  exported : String
  source : String
  deriving DecidableEq, Repr

/-- jsx.rs:601-617. -/
def indexLine (o : Opts) (stem : String) : IndexLine :=
  if o.named then ⟨o.component, o.component, stem⟩ else ⟨"default", o.component, stem⟩

/-- jsx.rs:589-620: the index behind the lines it has. -/
def appendIndex (o : Opts) (stem : String) (index : List IndexLine) : List IndexLine :=
  index ++ [indexLine o stem]

end Verif.Jsx
