import Verif.Unknowns.Model
import Verif.Retain.Tables

/-!
# Model: removing strokes and fills that are not drawn

`crates/oxvg_optimiser/src/jobs/remove_useless_stroke_and_fill.rs`.

Attributes and styles are those of `Verif.Unknowns`. A value that is not parsed (`ComputedStyle::Unparsed`) is one that is
neither zero nor `none`. The job does not run on documents with style sheets, so styles are computed without rules.
-/

namespace Verif.Unpainted

open Verif.Tree Verif.Names
open Verif.Unknowns (Key Val Attr AId E El elementOf look tails startsWith isId)
open Verif.Cascade (Computed Mode withAll get getInherited)

/-- remove_useless_stroke_and_fill.rs:39-49. -/
structure Options where
  stroke : Bool
  fill : Bool
  removeNone : Bool

/-- style.rs:175-252, `with_all` without style sheets. -/
def computed : E → List E → Option (Computed Key Val)
  | e, cs => withAll (Sel := Unit) (C := Unit) (fun _ _ => none) look [] (e :: cs) (tails cs)

/-- style.rs:379-402, `get`, for a presentation attribute. -/
def style (c : Computed Key Val) (k : Key) : Option (Val × Mode) := get Key.inheritable c k

/-- `SVGPaint::None`. -/
def isNone (v : Val) : Bool := v == .parts [.word "none"]

/-- lightningcss, `Zero::is_zero` for a `DimensionPercentage`. -/
def zeroLength : Val → Bool
  | .parts [.num q] | .parts [.px q] | .parts [.dim q _] | .parts [.pct q] => decide (q = 0)
  | _ => false

/-- `AlphaValue(0.0)`. -/
def zeroAlpha (v : Val) : Bool := v == .parts [.num 0]

/-- A value that always holds and is as asked for. -/
def statically (p : Val → Bool) : Option (Val × Mode) → Bool
  | some (v, .static) => p v
  | _ => false

/-- Whether an attribute has no prefix and a local name that begins so. -/
def begins (s : String) : Attr → Bool
  | .style _ => startsWith (lit s) (lit "style")
  | .plain (.known k) _ => k.pre.isNone && startsWith (lit s) (lit k.loc)
  | .plain (.other p l) _ => decide (p.unaliased = .std .svg) && startsWith (lit s) l

/-- attribute.rs (ast):222-233, `set_attribute!`: an attribute of the same name is replaced, or it is put at the end. -/
def set (k : Key) (v : Val) : List Attr → List Attr
  | [] => [.plain (.known k) v]
  | .plain (.known l) w :: as => if l = k then .plain (.known k) v :: as else .plain (.known l) w :: set k v as
  | a :: as => a :: set k v as

/-- `Inheritable::Defined(SVGPaint::None)`. -/
def noPaint : Val := .parts [.word "none"]

/-- remove_useless_stroke_and_fill.rs:165-169, `is_stroke_eq_none`. -/
def strokeEqNone (c : Computed Key Val) : Bool := match style c .Stroke with
  | some (v, _) => isNone v
  | none => false

/-- remove_useless_stroke_and_fill.rs:170-172, `is_stroke_none`. -/
def strokeNone (c : Computed Key Val) : Bool := match style c .Stroke with
  | some (_, m) => decide (m = .static) && strokeEqNone c
  | none => true

/-- remove_useless_stroke_and_fill.rs:135-221, `remove_stroke`: the attributes after it, and whether the element is removed. -/
def removeStroke (o : Options) (c : Computed Key Val) (as : List Attr) : List Attr × Bool :=
  if !o.stroke then (as, false)
  else
    let widthZero := statically zeroLength (style c .StrokeWidth)
    if !widthZero && (style c .MarkerEnd).isSome then (as, false)
    else
      let eqNone := strokeEqNone c
      let opacityZero := statically zeroAlpha (style c .StrokeOpacity)
      if strokeNone c || opacityZero || widthZero then
        let as' := as.filter fun a => !begins "stroke" a
        if statically (fun v => !isNone v) (getInherited Key.inheritable c .Stroke)
        then (set .Stroke noPaint as', o.removeNone)
        else (as', eqNone && o.removeNone)
      else (as, eqNone && o.removeNone)

/-- remove_useless_stroke_and_fill.rs:223-266, `remove_fill`. -/
def removeFill (o : Options) (c : Computed Key Val) (as : List Attr) : List Attr × Bool :=
  if !o.fill then (as, false)
  else
    let eqNone := statically isNone (style c .Fill)
    let opacityZero := statically zeroAlpha (style c .FillOpacity)
    if eqNone || opacityZero then
      let as' := as.filter fun a => !begins "fill-" a
      if (style c .Fill).isNone || !eqNone then (set .Fill noPaint as', o.removeNone)
      else (as', o.removeNone)
    else (as, eqNone && o.removeNone)

/-- element.rs (collections), the category `Shape`. -/
def isShape (n : EName) : Bool := match elementOf n with
  | some e => decide (.Shape ∈ e.categories)
  | none => false

/-- remove_useless_stroke_and_fill.rs:96-123, `element`, for an element without an id that is not within one that has an id. -/
def hook (o : Options) (anc : List E) (n : EName) (as : List Attr) : Option (List Attr × Bool) :=
  if isShape n then
    match computed (n, as) anc with
    | none => none
    | some c =>
      let s := removeStroke o c as
      let f := removeFill o c s.1
      some (f.1, s.2 || f.2)
  else some (as, false)

mutual
/-- visitor.rs:312-349 with remove_useless_stroke_and_fill.rs:96-135. `within` is whether an element with an id has been
entered and not left. An element that was removed has no parent, and its children are visited. `none` is an error. -/
def visit (o : Options) (within : Bool) (anc : List E) : Node Attr → Option (List (Node Attr))
  | .elem n as ks =>
    if within || as.any isId then (visitAll o true ((n, as) :: anc) ks).map fun ks' => [.elem n as ks']
    else match hook o anc n as with
      | none => none
      | some (as', gone) =>
        if gone then (visitAll o false [(n, as')] ks).map fun _ => []
        else (visitAll o false ((n, as') :: anc) ks).map fun ks' => [.elem n as' ks']
  | .text s => some [.text s]
  | .css s => some [.css s]
  | .comment s => some [.comment s]
  | .pi t d => some [.pi t d]
/-- visitor.rs:355-377, `visit_children`. -/
def visitAll (o : Options) (within : Bool) (anc : List E) : List (Node Attr) → Option (List (Node Attr))
  | [] => some []
  | n :: ns => match visit o within anc n, visitAll o within anc ns with
    | some a, some b => some (a ++ b)
    | _, _ => none
end

mutual
/-- Whether an element of a tree is as asked for. -/
def someElem (p : EName → List Attr → List (Node Attr) → Bool) : Node Attr → Bool
  | .elem n as ks => p n as ks || anyElem p ks
  | _ => false
def anyElem (p : EName → List Attr → List (Node Attr) → Bool) : List (Node Attr) → Bool
  | [] => false
  | n :: ns => someElem p n || anyElem p ns
end

/-- visitor.rs:79-85 and style.rs:140-146, `query_has_stylesheet`: an element whose first child is a style sheet. The order of
`breadth_first` does not matter here. -/
def hasSheet (doc : List (Node Attr)) : Bool :=
  anyElem (fun _ _ ks => match ks with
    | .css _ :: _ => true
    | _ => false) doc

/-- attribute/group.rs:52-58, `event`. -/
def events : List Unknowns.Group := [.AnimationEvent, .DocumentEvent, .DocumentElementEvent, .GraphicalEvent, .GlobalEvent]

/-- visitor.rs:386-400, `has_scripts`. `javascript` says whether a value begins so. -/
def hasScript (javascript : Val → Bool) (doc : List (Node Attr)) : Bool :=
  anyElem (fun n as _ => n.is "script" || as.any fun
    | .plain (.known .Href) v => n.is "a" && javascript v
    | .plain (.known k) _ => k.groups.any (· ∈ events)
    | _ => false) doc

/-- remove_useless_stroke_and_fill.rs:58-94, with `prepare`. -/
def job (o : Options) (javascript : Val → Bool) (doc : List (Node Attr)) : Option (List (Node Attr)) :=
  if hasScript javascript doc || hasSheet doc then some doc else visitAll o false [] doc

end Verif.Unpainted
