import Verif.Jsx.Vars

/-!
# What is asked of a module

The names JavaScript and TypeScript resolve: identifiers in expressions, elements whose name
begins with a capital (they are components), and types.
-/

namespace Verif.Jsx

/-- The identifiers of the value of an attribute (those of expressions of the configuration are
its own). -/
def AVal.uses : AVal → List String
  | .ident x => [x]
  | .either x e => x :: e.uses
  | _ => []

/-- The identifiers of an attribute. -/
def JAttr.uses : JAttr → List String
  | .attr _ (some v) => v.uses
  | .attr _ none => []
  | .spread x => [x]

/-- A name that begins with a capital. -/
def capital (n : String) : Bool :=
  match n.toList with
  | c :: _ => c.isUpper
  | [] => false

mutual
/-- The identifiers of JSX. -/
def uses : Jsx → List String
  | .elem n as _ _ ks => (if capital n then [n] else []) ++ as.flatMap JAttr.uses ++ usess ks
  | .frag ks => usess ks
  | .text _ => []
  | .empty => []
  | .ident x => [x]
  | .cond (.undef x) a b => x :: "undefined" :: (uses a ++ uses b)
  | .cond (.truthy x) a b => x :: (uses a ++ uses b)
  | .null => []
def usess : List Jsx → List String
  | [] => []
  | j :: js => uses j ++ usess js
end

/-- The names a parameter binds. -/
def Param.names : Param → List String
  | .object ps rest _ => ps ++ rest.toList
  | .ident x _ => [x]

/-- The types of a parameter. -/
def Param.types : Param → List String
  | .object _ _ ts => ts
  | .ident _ ts => ts

/-- The names that are imported. -/
def Module.locals (m : Module) : List String := m.imports.flatMap fun i => i.specs.map Spec.local

/-- The name an export declares in the module. -/
def Export.declares : Export → List String
  | .wrap n _ _ => [n]
  | _ => []

/-- Every name behind the component is declared before. -/
def Ordered : List String → List Export → Prop
  | _, [] => True
  | known, .wrap n f a :: es => f ∈ known ∧ a ∈ known ∧ Ordered (n :: known) es
  | known, .default x :: es => x ∈ known ∧ Ordered known es
  | known, .named x _ :: es => x ∈ known ∧ Ordered known es

/-- Every identifier has a declaration: inside of the component its parameters and everything of
the module, behind it what was declared before. -/
def Module.Resolved (m : Module) : Prop :=
  (∀ x ∈ uses m.body, x = "undefined" ∨ x ∈ m.params.flatMap Param.names ∨ x ∈ m.locals) ∧
    Ordered (m.component :: m.locals) m.exports

/-- Every type has a declaration; `SVGSVGElement` belongs to the DOM. -/
def Module.Typed (m : Module) : Prop :=
  ∀ t ∈ m.params.flatMap Param.types,
    t = "SVGSVGElement" ∨ t ∈ m.locals ∨ t ∈ m.interfaces.map (·.1)

/-- What JSX itself calls, for the runtimes that come with the program. -/
def Module.Runs (m : Module) (r : Runtime) : Prop :=
  match r with
  | .classic => "React" ∈ m.locals
  | .preact => "h" ∈ m.locals
  | .automatic => True

/-- No name is declared twice. -/
def Module.Distinct (m : Module) : Prop :=
  (m.locals ++ m.interfaces.map (·.1) ++ m.component :: m.exports.flatMap Export.declares).Nodup

/-- The names the module exports. -/
def Module.exported (m : Module) : List String :=
  m.exports.flatMap fun
    | .wrap .. => []
    | .default _ => ["default"]
    | .named x none => [x]
    | .named _ (some n) => [n]

mutual
/-- The names of the elements of a document are not those of components. -/
def Doc.Small : Doc → Prop
  | .element _ loc _ kids => capital loc = false ∧ SmallAll kids
  | _ => True
def SmallAll : List Doc → Prop
  | [] => True
  | d :: ds => d.Small ∧ SmallAll ds
end

end Verif.Jsx
