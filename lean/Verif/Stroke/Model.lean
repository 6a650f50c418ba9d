import Verif.Apply.Limits
import Verif.Transform.Css

/-!
# Model: when transforms are applied to paths, and what becomes of strokes

`crates/oxvg_optimiser/src/jobs/apply_transforms.rs`, `element` and `apply_stroked`.

Numbers are real and arithmetic is exact, as in the modules `Apply` and `Transform`. Of the styles of an element only the
winning rule of each property is kept, with those of its ancestors; how they are found is the matter of `Cascade`.
-/

namespace Verif.Stroke

open Real Verif.Transform Verif.Apply

noncomputable section

/-- crates/oxvg_ast/src/style.rs:89-98, `Mode`. -/
inductive Mode where
  | static
  | dynamic
  deriving DecidableEq

/-- crates/oxvg_collections/src/attribute/inheritable.rs, `Inheritable`; `odd` is for `Attr::Unparsed` and
`Attr::CSSUnknown`, of which only the renderer knows the value. -/
inductive Val (V : Type) where
  | is (v : V)
  | inherit
  | odd (v : V)

/-- lightningcss, `LengthPercentage`: a sum of user units and a percentage. -/
@[ext] structure Len where
  px : ℝ
  percent : ℝ

/-- lightningcss, `LengthPercentage::mul`. -/
def Len.mul (l : Len) (s : ℝ) : Len := ⟨l.px * s, l.percent * s⟩

/-- lightningcss, `SVGPaint`: nothing, a reference, or something else. -/
inductive Paint where
  | nothing
  | server (url : String)
  | plain (color : String)

variable {U O : Type}

/-- The attributes of the element. `origin` is `transform-origin`, `vectorEffect` whether the stroke does not scale. Of other
attributes, the ids they refer to (`visit_id`) and their urls (`visit_url`). -/
inductive Attr (U O : Type) where
  | d (ops : List Op)
  | id
  | style
  | transform (l : Val (List (T (C U O))))
  | origin (p : Pt)
  | stroke (p : Val Paint)
  | width (l : Val Len)
  | offset (l : Val Len)
  | dashes (l : Val (List Len))
  | vectorEffect (fixed : Bool)
  | pathLength (n : ℝ)
  | other (name : String) (ids urls : List String)

/-- crates/oxvg_collections/src/content_type.rs:243-320, `visit_url`. -/
def Attr.urls : Attr U O → List String
  | .stroke (.is (.server u)) => [u]
  | .other _ _ us => us
  | _ => []

/-- content_type.rs:323-362, `visit_id`. -/
def Attr.ids : Attr U O → List String
  | .other _ is _ => is
  | _ => []

/-- What is said of a property elsewhere: by the rules for the element, and for each of its ancestors, nearest first. -/
structure Source (V : Type) where
  rule : Option (Val V × Mode)
  above : List (Option (Val V × Mode))

/-- What is said elsewhere of the properties that matter; `servers` are references to gradients, markers and so on that rules
or ancestors bring. -/
structure Sheet (U O : Type) where
  transform : Option (List (C U O) × Mode)
  origin : Option Pt
  stroke : Source Paint
  width : Source Len
  dashes : Source (List Len)
  offset : Source Len
  vectorEffect : Option Bool
  servers : List String

/-- apply_transforms.rs:56-63, `ApplyTransforms`. -/
structure Config where
  precision : Option ℝ
  stroked : Bool

/-- style.rs:379-402, `get`, for an inherited property. -/
def computed {V : Type} (s : Source V) (attr : Option (Val V)) : Option (Val V × Mode) :=
  s.rule.or ((attr.map fun v => (v, Mode.static)).or (s.above.findSome? id))

/-- `get_attribute!` and its kin: the first attribute of a kind. -/
def data : List (Attr U O) → Option (List Op)
  | [] => none
  | .d ops :: _ => some ops
  | _ :: as => data as

def transformOf : List (Attr U O) → Option (Val (List (T (C U O))))
  | [] => none
  | .transform l :: _ => some l
  | _ :: as => transformOf as

def strokeOf : List (Attr U O) → Option (Val Paint)
  | [] => none
  | .stroke p :: _ => some p
  | _ :: as => strokeOf as

def widthOf : List (Attr U O) → Option (Val Len)
  | [] => none
  | .width l :: _ => some l
  | _ :: as => widthOf as

def vectorEffectOf : List (Attr U O) → Option Bool
  | [] => none
  | .vectorEffect b :: _ => some b
  | _ :: as => vectorEffectOf as

/-- `*d = …`, for the first. -/
def setData (ops : List Op) : List (Attr U O) → List (Attr U O)
  | [] => []
  | .d _ :: as => .d ops :: as
  | a :: as => a :: setData ops as

/-- `set_attribute`: the first is replaced, or one is added at the end. -/
def setWidth (l : Len) : List (Attr U O) → List (Attr U O)
  | [] => [.width (.is l)]
  | .width _ :: as => .width (.is l) :: as
  | a :: as => a :: setWidth l as

/-- apply_transforms.rs:232-236. -/
def scaleOffset (s : ℝ) : List (Attr U O) → List (Attr U O)
  | [] => []
  | .offset (.is l) :: as => .offset (.is (l.mul s)) :: as
  | .offset v :: as => .offset v :: as
  | a :: as => a :: scaleOffset s as

/-- apply_transforms.rs:237-243. -/
def scaleDashes (s : ℝ) : List (Attr U O) → List (Attr U O)
  | [] => []
  | .dashes (.is l) :: as => .dashes (.is (l.map fun x => x.mul s)) :: as
  | .dashes v :: as => .dashes v :: as
  | a :: as => a :: scaleDashes s as

/-- `remove_attribute(&AttrId::Transform)`: the first is removed. -/
def removeTransform : List (Attr U O) → List (Attr U O)
  | [] => []
  | .transform _ :: as => as
  | a :: as => a :: removeTransform as

/-- apply_transforms.rs:88-109, whether an attribute makes the job leave the element alone. -/
def Attr.stops (a : Attr U O) : Bool :=
  match a with
  | .id => true
  | .style => true
  | a => !a.ids.isEmpty || a.urls.any fun u => u.startsWith "#"

/-- `TryFrom<&TransformList> for SVGTransformList`, transform.rs:583-590. -/
def readCss (env : Env (C U O)) (l : List (C U O)) : Option (List (T (C U O))) := l.mapM (fromCss env.cssMatrix)

open scoped Classical in
/-- apply_transforms.rs:122-135, whether another transform applies. The style is turned into an attribute and back
(style.rs:404-412), which panics for what no attribute can hold. -/
def contradicts (env : Env (C U O)) (sheet : Sheet U O) (l : List (T (C U O))) : Except String Bool :=
  match sheet.transform with
  | some (c, mode) => match readCss env c with
    | none => .error "panic"
    | some found => .ok (mode == .static && (match readCss env (found.map T.toCss) with
      | none => true
      | some css => decide (toMatrix env l ≠ toMatrix env css)))
  | none => .ok (match readCss env (l.map T.toCss) with
    | none => true
    | some css => decide (toMatrix env l ≠ toMatrix env css))

/-- apply_transforms.rs:208-211, the factor of a similarity. -/
def factor (cfg : Config) (m : M) : ℝ :=
  match cfg.precision with
  | none => √(m.a * m.a + m.b * m.b)
  | some p => roundAway (√(m.a * m.a + m.b * m.b) * p) / p

/-- apply_transforms.rs:219-223, the new width. -/
def newWidth (s : ℝ) : Option (Val Len × Mode) → Len
  | some (.is l, _) => l.mul s
  | _ => ⟨s, 0⟩

/-- apply_transforms.rs:182-246, `apply_stroked`; `none` leaves the element alone. -/
def applyStroked (cfg : Config) (m : M) (stroke : Paint) (width : Option (Val Len × Mode)) (as : List (Attr U O)) :
    Option (List (Attr U O)) :=
  match stroke with
  | .nothing => some as
  | _ =>
    if cfg.stroked then none
    else if (m.a ≠ m.d ∨ m.b ≠ -m.c) ∧ (m.a ≠ -m.d ∨ m.b ≠ m.c) then none
    else if vectorEffectOf as = some true then some as
    else if factor cfg m = 1 then some as
    else some (scaleDashes (factor cfg m) (scaleOffset (factor cfg m) (setWidth (newWidth (factor cfg m) width) as)))

/-- Whether a computed style stops the job: `ComputedStyle::Some((_, Mode::Dynamic))` or `ComputedStyle::Unparsed`. -/
def unclear {V : Type} : Option (Val V × Mode) → Bool
  | some (.odd _, _) => true
  | some (_, .dynamic) => true
  | _ => false

/-- apply_transforms.rs:165-169, the call of `apply_stroked`. -/
def stroked (cfg : Config) (sheet : Sheet U O) (m : M) (as : List (Attr U O)) : Option (List (Attr U O)) :=
  match computed sheet.stroke (strokeOf as) with
  | some (.is p, .static) => applyStroked cfg m p (computed sheet.width (widthOf as)) as
  | _ => some as

/-- apply_transforms.rs:171-178, the new data. -/
def finish (m : M) (ops : List Op) (as : List (Attr U O)) : Except String (List (Attr U O)) :=
  match apply m ops with
  | none => .error "not a number"
  | some out => .ok (removeTransform (setData out as))

/-- apply_transforms.rs:136-178, with the transform. -/
def withTransform (env : Env (C U O)) (cfg : Config) (sheet : Sheet U O) (ops : List Op) (l : List (T (C U O)))
    (as : List (Attr U O)) : Except String (List (Attr U O)) :=
  if unclear (computed sheet.stroke (strokeOf as)) then .ok as
  else if unclear (computed sheet.width (widthOf as)) then .ok as
  else match toMatrix env l with
    | none => .ok as
    | some m => match stroked cfg sheet m as with
      | none => .ok as
      | some as' => finish m ops as'

/-- apply_transforms.rs:78-178, `element`. `sheet` is an error if the styles have a bad selector. -/
def element (env : Env (C U O)) (cfg : Config) (sheet : Except String (Sheet U O)) (as : List (Attr U O)) :
    Except String (List (Attr U O)) :=
  match data as with
  | none => .ok as
  | some ops =>
    if as.any Attr.stops then .ok as
    else match sheet with
      | .error e => .error e
      | .ok sheet => match transformOf as with
        | some (.is (t :: l)) => match contradicts env sheet (t :: l) with
          | .error e => .error e
          | .ok true => .ok as
          | .ok false => withTransform env cfg sheet ops (t :: l) as
        | _ => .ok as

end

end Verif.Stroke
