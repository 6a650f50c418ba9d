import Verif.Boxes.Spec

/-!
# What a keyword or a number means

Nothing here uses the model.
-/

namespace Verif.Choice

open Verif.Boxes (Value)

/-- `font-size-adjust` of SVG 1.1 without `inherit`. -/
inductive AdjustMeans : List Char → Option ℚ → Prop
  | off : AdjustMeans "none".toList none
  | number (t v) : Value t v → AdjustMeans t (some v)

/-- `repeatCount`: a number above zero, or for ever. -/
inductive CountMeans : List Char → Option ℚ → Prop
  | indefinite : CountMeans "indefinite".toList none
  | number (t v) : Value t v → 0 < v → CountMeans t (some v)

/-- `rotate` of `animateMotion`: along the path (`false`), against it (`true`), or an angle. -/
inductive RotateMeans : List Char → Bool ⊕ ℚ → Prop
  | auto : RotateMeans "auto".toList (.inl false)
  | reverse : RotateMeans "auto-reverse".toList (.inl true)
  | number (t v) : Value t v → RotateMeans t (.inr v)

/-- The units of frequencies of CSS, in any case of letters. -/
def Unit (u : List Char) (k : ℚ) : Prop := (u.map Char.toLower = "hz".toList ∧ k = 1) ∨ (u.map Char.toLower = "khz".toList ∧ k = 1000)

/-- A frequency in hertz. -/
inductive FreqMeans : List Char → ℚ → Prop
  | mk (t v u k) : Value t v → Unit u k → FreqMeans (t ++ u) (v * k)

end Verif.Choice
