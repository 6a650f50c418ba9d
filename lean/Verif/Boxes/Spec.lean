import Verif.Clock.Spec

/-!
# What texts of several numbers mean

The grammar of numbers of SVG with their values, and of the values made of them. Nothing here uses the model.
-/

namespace Verif.Boxes

open Verif.Number (Digits decimal IsSign signed)
open Verif.Clock (tail White)

/-- The exponent of a number; exponents that do not fit into 64 bits are left out (no float has them). -/
def Exponent (x : List Char) (k : Int) : Prop :=
  (x = [] ∧ k = 0) ∨ ∃ e s d, x = e :: (s ++ d) ∧ (e = 'e' ∨ e = 'E') ∧ IsSign s ∧ Digits d ∧ d ≠ [] ∧ decimal d < 2 ^ 63 ∧ k = signed s d

/-- The text of a number (of CSS and SVG 2: there are digits behind a point) and its value. -/
def Value (t : List Char) (v : ℚ) : Prop :=
  ∃ s d f x k, t = s ++ d ++ f ++ x ∧ IsSign s ∧ Digits d ∧ ((f = [] ∧ d ≠ []) ∨ ∃ d', f = '.' :: d' ∧ Digits d' ∧ d' ≠ []) ∧
    Exponent x k ∧ v = (if s = ['-'] then -1 else 1) * (decimal d + tail f.tail) * (10 : ℚ) ^ k

/-- `comma-wsp`: white space with at most one comma. -/
def Comma (g : List Char) : Prop := ∃ w w' c, g = w ++ c ++ w' ∧ White w ∧ White w' ∧ (c = [] ∨ c = [',']) ∧ g ≠ []

/-- White space that is there. -/
def Blank (g : List Char) : Prop := White g ∧ g ≠ []

/-- Four numbers with separators between them. -/
def FourOf (S : List Char → Prop) (t : List Char) (v : ℚ × ℚ × ℚ × ℚ) : Prop :=
  ∃ a b c d g h i, t = a ++ (g ++ (b ++ (h ++ (c ++ (i ++ d))))) ∧ Value a v.1 ∧ Value b v.2.1 ∧ Value c v.2.2.1 ∧ Value d v.2.2.2 ∧
    S g ∧ S h ∧ S i

/-- A `viewBox`, with white space around it. -/
def ViewBoxMeans (t : List Char) (v : ℚ × ℚ × ℚ × ℚ) : Prop := ∃ w u w', t = w ++ (u ++ w') ∧ White w ∧ White w' ∧ FourOf Comma u v

/-- `clip`: `auto` or a rectangle of numbers. -/
inductive ClipMeans : List Char → Option (ℚ × ℚ × ℚ × ℚ) → Prop
  | auto : ClipMeans "auto".toList none
  | rect (w u w' v) : White w → White w' → FourOf Comma u v → ClipMeans ("rect(".toList ++ (w ++ (u ++ (w' ++ [')'])))) (some v)

/-- `enable-background`: `none` is `accumulate`. -/
inductive EnableMeans : List Char → Option (Option (ℚ × ℚ × ℚ × ℚ)) → Prop
  | accumulate : EnableMeans "accumulate".toList none
  | fresh : EnableMeans "new".toList (some none)
  | box (g u v) : Blank g → FourOf Blank u v → EnableMeans ("new".toList ++ (g ++ u)) (some (some v))

/-- One number, or two. -/
inductive PairMeans : List Char → ℚ × Option ℚ → Prop
  | one (a v) : Value a v → PairMeans a (v, none)
  | two (a g b v v') : Value a v → Comma g → Value b v' → PairMeans (a ++ (g ++ b)) (v, some v')

end Verif.Boxes
