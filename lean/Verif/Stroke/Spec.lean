import Verif.Stroke.Model
import Mathlib.Topology.EMetricSpace.BoundedVariation
import Mathlib.Analysis.InnerProductSpace.PiL2

/-!
# What a path with a stroke looks like

SVG 2, chapter 13, and CSS Cascading: which values properties have, what the outline of a path is, what its stroke covers, and
in which coordinates gradients and the like are laid out.
-/

namespace Verif.Stroke

open Real Verif.Transform Verif.Apply

noncomputable section

/-! ## Values -/

/-- The value an element takes over, given what is said for its ancestors, nearest first. Rules with a condition count if
it holds. -/
def fromAbove {V : Type} (holds : Bool) (initial : V) : List (Option (Val V × Mode)) → V
  | [] => initial
  | some (.is v, mode) :: l => if mode = .static ∨ holds then v else fromAbove holds initial l
  | some (.odd v, mode) :: l => if mode = .static ∨ holds then v else fromAbove holds initial l
  | _ :: l => fromAbove holds initial l

/-- The value given by an attribute. -/
def fromAttr {V : Type} (holds : Bool) (initial : V) (s : Source V) : Option (Val V) → V
  | some (.is v) => v
  | some (.odd v) => v
  | _ => fromAbove holds initial s.above

/-- The value of an inherited property: that of a rule, else that of the attribute, else that of the parent. -/
def used {V : Type} (holds : Bool) (initial : V) (s : Source V) (attr : Option (Val V)) : V :=
  match s.rule with
  | none => fromAttr holds initial s attr
  | some (v, mode) =>
    if mode = .static ∨ holds then
      match v with
      | .is v => v
      | .odd v => v
      | .inherit => fromAbove holds initial s.above
    else fromAttr holds initial s attr

/-- A length in user units; `unit` is what a percentage refers to. -/
def Len.value (unit : ℝ) (l : Len) : ℝ := l.px + l.percent * unit

variable {U O : Type}

/-- The value of an attribute, if it is of a kind. -/
def Attr.ops? : Attr U O → Option (List Op)
  | .d ops => some ops
  | _ => none

def Attr.transform? : Attr U O → Option (Val (List (T (C U O))))
  | .transform l => some l
  | _ => none

def Attr.origin? : Attr U O → Option Pt
  | .origin p => some p
  | _ => none

def Attr.stroke? : Attr U O → Option (Val Paint)
  | .stroke p => some p
  | _ => none

def Attr.width? : Attr U O → Option (Val Len)
  | .width l => some l
  | _ => none

def Attr.offset? : Attr U O → Option (Val Len)
  | .offset l => some l
  | _ => none

def Attr.dashes? : Attr U O → Option (Val (List Len))
  | .dashes l => some l
  | _ => none

def Attr.vectorEffect? : Attr U O → Option Bool
  | .vectorEffect b => some b
  | _ => none

def Attr.pathLength? : Attr U O → Option ℝ
  | .pathLength n => some n
  | _ => none

/-- Whether an attribute is a transform. -/
def Attr.isTransform (a : Attr U O) : Bool := a.transform?.isSome

/-- The attributes that have nothing to do with the outline and the stroke. -/
def Attr.isOther : Attr U O → Bool
  | .d _ => false
  | .transform _ => false
  | .width _ => false
  | .offset _ => false
  | .dashes _ => false
  | _ => true

/-! ## Curves -/

abbrev Curves := List (Kind × (ℝ → Pt))

/-- The curves of a path. -/
def curves (ops : List Op) : Curves := Classical.choose (draws_exists ops)

/-- Curves under a map of the plane. -/
def image (f : Pt → Pt) (γs : Curves) : Curves := γs.map fun y => (y.1, fun t => f (y.2 t))

/-- The distance of two points. -/
def distance (p q : Pt) : ℝ := √((p.1 - q.1) ^ 2 + (p.2 - q.2) ^ 2)

/-- The map stretches all distances by the factor. -/
def Similar (f : Pt → Pt) (s : ℝ) : Prop := ∀ p q, distance (f p) (f q) = s * distance p q

/-- A curve in the plane with its usual metric. -/
def flat (γ : ℝ → Pt) (t : ℝ) : EuclideanSpace ℝ (Fin 2) := !₂[(γ t).1, (γ t).2]

/-- The length of a curve up to a parameter. -/
def lengthTo (γ : ℝ → Pt) (t : ℝ) : ℝ := (eVariationOn (flat γ) (Set.Icc 0 t)).toReal

/-- The length of a path. -/
def length (γs : Curves) : ℝ := (γs.map fun y => lengthTo y.2 1).sum

/-! ## Strokes -/

/-- How strokes are drawn: what is covered along curves for a width, dashes and their offset. Where all distances are
stretched, so is the stroke. -/
structure Brush where
  ink : Curves → ℝ → List ℝ → ℝ → Set Pt
  similar : ∀ (m : M) (s : ℝ), 0 < s → Similar m.apply s → ∀ γs w ds o,
    ink (image m.apply γs) (s * w) (ds.map (s * ·)) (s * o) = m.apply '' ink γs w ds o

/-- All that decides how a path is painted. -/
structure Look where
  ops : List Op
  place : Pt → Pt
  stroke : Paint
  width : ℝ
  dashes : List ℝ
  offset : ℝ
  fixed : Bool
  pathLength : Option ℝ
  servers : List String

/-- How an attribute moves points. -/
def moveAttr (css : C U O → Pt → Pt) : Option (Val (List (T (C U O)))) → Pt → Pt
  | some (.is l) => draw css l
  | some (.odd l) => draw css l
  | _ => id

/-- How the element is moved: by a rule, else by the attribute. -/
def moved (css : C U O → Pt → Pt) (holds : Bool) (rule : Option (List (C U O) × Mode))
    (attr : Option (Val (List (T (C U O))))) : Pt → Pt :=
  match rule with
  | none => moveAttr css attr
  | some (c, mode) => if mode = .static ∨ holds then fun p => c.foldr css p else moveAttr css attr

/-- A map with another point in the place of the origin. -/
def around (o : Pt) (f : Pt → Pt) (p : Pt) : Pt := o + f (p - o)

/-- How an element is to be painted, as its attributes and styles say. -/
def look (css : C U O → Pt → Pt) (unit : ℝ) (holds : Bool) (sheet : Sheet U O) (as : List (Attr U O)) : Look where
  ops := (as.findSome? Attr.ops?).getD []
  place := around ((sheet.origin.or (as.findSome? Attr.origin?)).getD 0)
    (moved css holds sheet.transform (as.findSome? Attr.transform?))
  stroke := used holds .nothing sheet.stroke (as.findSome? Attr.stroke?)
  width := (used holds ⟨1, 0⟩ sheet.width (as.findSome? Attr.width?)).value unit
  dashes := (used holds [] sheet.dashes (as.findSome? Attr.dashes?)).map (·.value unit)
  offset := (used holds ⟨0, 0⟩ sheet.offset (as.findSome? Attr.offset?)).value unit
  fixed := (sheet.vectorEffect.or (as.findSome? Attr.vectorEffect?)).getD false
  pathLength := as.findSome? Attr.pathLength?
  servers := sheet.servers ++ as.flatMap Attr.urls

/-- What is covered along curves. Dashes count in the length the author gives for the path. -/
def Look.along (b : Brush) (l : Look) (γs : Curves) : Set Pt :=
  match l.stroke, l.dashes, l.pathLength with
  | .nothing, _, _ => ∅
  | _, [], _ => b.ink γs l.width [] 0
  | _, ds, none => b.ink γs l.width ds l.offset
  | _, ds, some n => b.ink γs l.width (ds.map (· * (length γs / n))) (l.offset * (length γs / n))

/-- What is seen: the curves on the screen, what the stroke covers, and where gradients and the like are laid out. -/
structure Picture where
  outline : Curves
  ink : Set Pt
  servers : List (String × (Pt → Pt))

/-- What is seen of an element; `screen` is the map from its parent to the screen. A stroke that does not scale is drawn on
the screen. -/
def Look.picture (b : Brush) (screen : Pt → Pt) (l : Look) : Picture where
  outline := image (screen ∘ l.place) (curves l.ops)
  ink :=
    if l.fixed then l.along b (image (screen ∘ l.place) (curves l.ops))
    else (screen ∘ l.place) '' l.along b (curves l.ops)
  servers := l.servers.map fun u => (u, screen ∘ l.place)

/-! ## Ordinary elements -/

/-- Neither the element nor what is above it says that a property is to be inherited. -/
def NoInherit {V : Type} (s : Source V) (attr : Option (Val V)) : Prop :=
  (∀ mode, s.rule ≠ some (.inherit, mode)) ∧ attr ≠ some .inherit ∧ ∀ mode, some (.inherit, mode) ∉ s.above

/-- The transform of the element comes from its attribute only, is about the origin, and nothing is laid out in its
coordinates that is defined outside of the document, in rules or for ancestors. -/
structure Own (sheet : Sheet U O) (as : List (Attr U O)) : Prop where
  one : (as.filter Attr.isTransform).length ≤ 1
  transform : sheet.transform = none
  origin : sheet.origin = none ∧ as.findSome? Attr.origin? = none
  servers : sheet.servers = []
  inner : ∀ a ∈ as, ∀ u ∈ a.urls, u.startsWith "#"

/-- The width of the stroke is not decided by rules, dashes neither by rules nor by ancestors, and nothing is said to be
inherited. Dashes do not count in a length given by the author. Only the attribute says whether the stroke scales. -/
structure OwnStroke (sheet : Sheet U O) (as : List (Attr U O)) : Prop where
  effect : sheet.vectorEffect = none
  stroke : NoInherit sheet.stroke (as.findSome? Attr.stroke?)
  width : sheet.width.rule = none ∧ NoInherit sheet.width (as.findSome? Attr.width?)
  dashes : sheet.dashes.rule = none ∧ (
    (as.findSome? Attr.dashes? = none ∧ ∀ x ∈ sheet.dashes.above, x = none) ∨
    ((∃ ds, as.findSome? Attr.dashes? = some (.is ds)) ∧ as.findSome? Attr.pathLength? = none ∧ sheet.offset.rule = none ∧
      ((as.findSome? Attr.offset? = none ∧ ∀ x ∈ sheet.offset.above, x = none) ∨
        ∃ o, as.findSome? Attr.offset? = some (.is o))))

/-! ## Round strokes -/

/-- Whether a point at this length of the path is on a dash: they alternate with gaps. -/
def dashed (ds : List ℝ) (x : ℝ) : Prop :=
  ds.sum ≤ 0 ∨ ∃ (n : ℤ) (i : ℕ), 2 * i < (ds ++ ds).length ∧
    ((ds ++ ds).take (2 * i)).sum + n * (ds ++ ds).sum ≤ x ∧ x ≤ ((ds ++ ds).take (2 * i + 1)).sum + n * (ds ++ ds).sum

/-- The points of curves that are on a dash; `x` is the length of the subpath so far. -/
def onDash (ds : List ℝ) (o : ℝ) : ℝ → Curves → Set Pt
  | _, [] => ∅
  | _, (.move, _) :: γs => onDash ds o 0 γs
  | x, (_, γ) :: γs =>
    {p | ∃ t, 0 ≤ t ∧ t ≤ 1 ∧ p = γ t ∧ dashed ds (x + lengthTo γ t + o)} ∪ onDash ds o (x + lengthTo γ 1) γs

/-- A round pen covers all within half its width. -/
def roundInk (γs : Curves) (w : ℝ) (ds : List ℝ) (o : ℝ) : Set Pt :=
  {p | ∃ q ∈ onDash ds o 0 γs, distance p q ≤ w / 2}

end

end Verif.Stroke
