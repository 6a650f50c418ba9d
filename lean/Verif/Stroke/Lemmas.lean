import Verif.Stroke.Round

/-!
# What the edits do to the attributes
-/

namespace Verif.Stroke

open Real Verif.Transform Verif.Apply

noncomputable section

variable {U O : Type}

/-! ## The code reads the first attribute of a kind -/

theorem data_eq (as : List (Attr U O)) : data as = as.findSome? Attr.ops? := by
  induction as with
  | nil => rfl
  | cons a as ih => cases a <;> simp [List.findSome?_cons, data, Attr.ops?, ih]

theorem transformOf_eq (as : List (Attr U O)) : transformOf as = as.findSome? Attr.transform? := by
  induction as with
  | nil => rfl
  | cons a as ih => cases a <;> simp [List.findSome?_cons, transformOf, Attr.transform?, ih]

theorem strokeOf_eq (as : List (Attr U O)) : strokeOf as = as.findSome? Attr.stroke? := by
  induction as with
  | nil => rfl
  | cons a as ih => cases a <;> simp [List.findSome?_cons, strokeOf, Attr.stroke?, ih]

theorem widthOf_eq (as : List (Attr U O)) : widthOf as = as.findSome? Attr.width? := by
  induction as with
  | nil => rfl
  | cons a as ih => cases a <;> simp [List.findSome?_cons, widthOf, Attr.width?, ih]

theorem vectorEffectOf_eq (as : List (Attr U O)) : vectorEffectOf as = as.findSome? Attr.vectorEffect? := by
  induction as with
  | nil => rfl
  | cons a as ih => cases a <;> simp [List.findSome?_cons, vectorEffectOf, Attr.vectorEffect?, ih]

/-! ## Edits leave other attributes alone -/

theorem setData_other {B : Type} {f : Attr U O → Option B} (hf : ∀ x, f (.d x) = none) (ops : List Op)
    (as : List (Attr U O)) : (setData ops as).findSome? f = as.findSome? f := by
  induction as with
  | nil => rfl
  | cons a as ih => cases a <;> simp [List.findSome?_cons, setData, ih, hf]

theorem setData_ops {ops : List Op} {as : List (Attr U O)} {x : List Op} (h : as.findSome? Attr.ops? = some x) :
    (setData ops as).findSome? Attr.ops? = some ops := by
  induction as with
  | nil => cases h
  | cons a as ih => cases a <;> simp_all [List.findSome?_cons, setData, Attr.ops?]

theorem setWidth_other {B : Type} {f : Attr U O → Option B} (hf : ∀ x, f (.width x) = none) (l : Len)
    (as : List (Attr U O)) : (setWidth l as).findSome? f = as.findSome? f := by
  induction as with
  | nil => simp [List.findSome?_cons, setWidth, hf]
  | cons a as ih => cases a <;> simp [List.findSome?_cons, setWidth, ih, hf]

theorem setWidth_width (l : Len) (as : List (Attr U O)) : (setWidth l as).findSome? Attr.width? = some (.is l) := by
  induction as with
  | nil => rfl
  | cons a as ih => cases a <;> simp [List.findSome?_cons, setWidth, Attr.width?, ih]

theorem scaleOffset_other {B : Type} {f : Attr U O → Option B} (hf : ∀ x, f (.offset x) = none) (s : ℝ)
    (as : List (Attr U O)) : (scaleOffset s as).findSome? f = as.findSome? f := by
  induction as with
  | nil => rfl
  | cons a as ih => cases a with
    | offset v => cases v <;> simp [List.findSome?_cons, scaleOffset, hf]
    | _ => simp [List.findSome?_cons, scaleOffset, ih]

theorem scaleDashes_other {B : Type} {f : Attr U O → Option B} (hf : ∀ x, f (.dashes x) = none) (s : ℝ)
    (as : List (Attr U O)) : (scaleDashes s as).findSome? f = as.findSome? f := by
  induction as with
  | nil => rfl
  | cons a as ih => cases a with
    | dashes v => cases v <;> simp [List.findSome?_cons, scaleDashes, hf]
    | _ => simp [List.findSome?_cons, scaleDashes, ih]

/-- A value with a change made to what is defined. -/
def Val.map' {V : Type} (g : V → V) : Val V → Val V
  | .is v => .is (g v)
  | v => v

theorem scaleOffset_offset (s : ℝ) (as : List (Attr U O)) : (scaleOffset s as).findSome? Attr.offset? =
    (as.findSome? Attr.offset?).map (Val.map' fun l => l.mul s) := by
  induction as with
  | nil => rfl
  | cons a as ih => cases a with
    | offset v => cases v <;> simp [List.findSome?_cons, scaleOffset, Attr.offset?, Val.map']
    | _ => simp [List.findSome?_cons, scaleOffset, Attr.offset?, ih]

theorem scaleDashes_dashes (s : ℝ) (as : List (Attr U O)) : (scaleDashes s as).findSome? Attr.dashes? =
    (as.findSome? Attr.dashes?).map (Val.map' fun l => l.map fun x => x.mul s) := by
  induction as with
  | nil => rfl
  | cons a as ih => cases a with
    | dashes v => cases v <;> simp [List.findSome?_cons, scaleDashes, Attr.dashes?, Val.map']
    | _ => simp [List.findSome?_cons, scaleDashes, Attr.dashes?, ih]

theorem removeTransform_other {B : Type} {f : Attr U O → Option B} (hf : ∀ x, f (.transform x) = none)
    (as : List (Attr U O)) : (removeTransform as).findSome? f = as.findSome? f := by
  induction as with
  | nil => rfl
  | cons a as ih => cases a <;> simp [List.findSome?_cons, removeTransform, ih, hf]

/-! ## Transforms, counted -/

theorem removeTransform_none {as : List (Attr U O)} (h : (as.filter Attr.isTransform).length ≤ 1) :
    (removeTransform as).findSome? Attr.transform? = none := by
  induction as with
  | nil => rfl
  | cons a as ih => cases a with
    | transform v =>
      simp only [List.filter_cons, Attr.isTransform, Attr.transform?, Option.isSome_some, if_true, List.length_cons] at h
      have h0 : as.filter Attr.isTransform = [] := List.eq_nil_of_length_eq_zero (Nat.le_zero.1 (Nat.le_of_succ_le_succ h))
      rw [removeTransform, List.findSome?_eq_none_iff]
      intro a ha
      have := List.filter_eq_nil_iff.1 h0 a ha
      simpa [Attr.isTransform] using this
    | _ => simpa [List.findSome?_cons, removeTransform, Attr.transform?, Attr.isTransform] using ih (by simpa [Attr.isTransform, Attr.transform?] using h)

theorem filter_setData (ops : List Op) (as : List (Attr U O)) :
    ((setData ops as).filter Attr.isTransform) = as.filter Attr.isTransform := by
  induction as with
  | nil => rfl
  | cons a as ih => cases a <;> simp [List.findSome?_cons, setData, List.filter_cons, Attr.isTransform, Attr.transform?, ih] <;> exact ih

theorem filter_setWidth (l : Len) (as : List (Attr U O)) :
    ((setWidth l as).filter Attr.isTransform) = as.filter Attr.isTransform := by
  induction as with
  | nil => rfl
  | cons a as ih => cases a <;> simp [List.findSome?_cons, setWidth, List.filter_cons, Attr.isTransform, Attr.transform?, ih] <;> exact ih

theorem filter_scaleOffset (s : ℝ) (as : List (Attr U O)) :
    ((scaleOffset s as).filter Attr.isTransform) = as.filter Attr.isTransform := by
  induction as with
  | nil => rfl
  | cons a as ih => cases a with
    | offset v => cases v <;> simp [List.findSome?_cons, scaleOffset, List.filter_cons, Attr.isTransform, Attr.transform?]
    | _ => simp [List.findSome?_cons, scaleOffset, List.filter_cons, Attr.isTransform, Attr.transform?] <;> exact ih

theorem filter_scaleDashes (s : ℝ) (as : List (Attr U O)) :
    ((scaleDashes s as).filter Attr.isTransform) = as.filter Attr.isTransform := by
  induction as with
  | nil => rfl
  | cons a as ih => cases a with
    | dashes v => cases v <;> simp [List.findSome?_cons, scaleDashes, List.filter_cons, Attr.isTransform, Attr.transform?]
    | _ => simp [List.findSome?_cons, scaleDashes, List.filter_cons, Attr.isTransform, Attr.transform?] <;> exact ih

/-! ## What is left as it is -/

theorem other_setData (ops : List Op) (as : List (Attr U O)) :
    (setData ops as).filter Attr.isOther = as.filter Attr.isOther := by
  induction as with
  | nil => rfl
  | cons a as ih => cases a <;> simp [List.findSome?_cons, setData, List.filter_cons, Attr.isOther, ih]

theorem other_setWidth (l : Len) (as : List (Attr U O)) :
    (setWidth l as).filter Attr.isOther = as.filter Attr.isOther := by
  induction as with
  | nil => rfl
  | cons a as ih => cases a <;> simp [List.findSome?_cons, setWidth, List.filter_cons, Attr.isOther, ih]

theorem other_scaleOffset (s : ℝ) (as : List (Attr U O)) :
    (scaleOffset s as).filter Attr.isOther = as.filter Attr.isOther := by
  induction as with
  | nil => rfl
  | cons a as ih => cases a with
    | offset v => cases v <;> simp [List.findSome?_cons, scaleOffset, List.filter_cons, Attr.isOther]
    | _ => simp [List.findSome?_cons, scaleOffset, List.filter_cons, Attr.isOther, ih]

theorem other_scaleDashes (s : ℝ) (as : List (Attr U O)) :
    (scaleDashes s as).filter Attr.isOther = as.filter Attr.isOther := by
  induction as with
  | nil => rfl
  | cons a as ih => cases a with
    | dashes v => cases v <;> simp [List.findSome?_cons, scaleDashes, List.filter_cons, Attr.isOther]
    | _ => simp [List.findSome?_cons, scaleDashes, List.filter_cons, Attr.isOther, ih]

theorem other_removeTransform (as : List (Attr U O)) :
    (removeTransform as).filter Attr.isOther = as.filter Attr.isOther := by
  induction as with
  | nil => rfl
  | cons a as ih => cases a <;> simp [List.findSome?_cons, removeTransform, List.filter_cons, Attr.isOther, ih]

theorem urls_other (as : List (Attr U O)) : as.flatMap Attr.urls = (as.filter Attr.isOther).flatMap Attr.urls := by
  induction as with
  | nil => rfl
  | cons a as ih => cases a <;> simp [List.findSome?_cons, List.filter_cons, Attr.isOther, Attr.urls, ih]

end

end Verif.Stroke
