import Verif.Boxes.Spec

/-!
# What the text of a `transform` means

The grammar of `transform` of SVG with the meaning of its functions. Nothing here uses the model.
-/

namespace Verif.Moves

open Verif.Boxes (Value Comma)
open Verif.Clock (White)

/-- A transform, with its numbers. -/
inductive Move where
  | matrix (a b c d e f : ℚ)
  | translate (x y : ℚ)
  | scale (x y : ℚ)
  | rotate (angle x y : ℚ)
  | skewX (angle : ℚ)
  | skewY (angle : ℚ)
deriving DecidableEq

/-- What is between two numbers: a separator, or nothing if a sign follows. -/
def Between (g b : List Char) : Prop := Comma g ∨ (g = [] ∧ ∃ u, b = '-' :: u ∨ b = '+' :: u)

/-- Arguments of a function. -/
inductive Args : List Char → List ℚ → Prop
  | one (t v) : Value t v → Args t [v]
  | more (t v g r l) : Value t v → Between g r → Args r l → Args (t ++ (g ++ r)) (v :: l)

/-- The functions: the second coordinate of a translation is zero if it is left out, the second factor of a scale is the first,
the centre of a rotation is the origin. -/
inductive Call : List Char → List ℚ → Move → Prop
  | matrix (a b c d e f) : Call "matrix".toList [a, b, c, d, e, f] (.matrix a b c d e f)
  | translate (x y) : Call "translate".toList [x, y] (.translate x y)
  | translateX (x) : Call "translate".toList [x] (.translate x 0)
  | scale (x y) : Call "scale".toList [x, y] (.scale x y)
  | scaleBoth (x) : Call "scale".toList [x] (.scale x x)
  | rotate (a x y) : Call "rotate".toList [a, x, y] (.rotate a x y)
  | rotateOrigin (a) : Call "rotate".toList [a] (.rotate a 0 0)
  | skewX (a) : Call "skewX".toList [a] (.skewX a)
  | skewY (a) : Call "skewY".toList [a] (.skewY a)

/-- A function with its arguments. White space may be before and behind the parenthesis. -/
def Means (t : List Char) (m : Move) : Prop :=
  ∃ name w w1 u w2 l, t = name ++ (w ++ ('(' :: (w1 ++ (u ++ (w2 ++ [')']))))) ∧ White w ∧ White w1 ∧ White w2 ∧ Args u l ∧ Call name l m

/-- What is between two functions: white space with at most one comma, or nothing. -/
def Sep (g : List Char) : Prop := g = [] ∨ Comma g

/-- Functions one after another. -/
inductive Items : List Char → List Move → Prop
  | last (t m w) : Means t m → White w → Items (t ++ w) [m]
  | more (t m g r l) : Means t m → Sep g → Items r l → Items (t ++ (g ++ r)) (m :: l)

/-- A `transform`: functions one after another, with white space around them, or nothing. -/
def ListMeans (t : List Char) (l : List Move) : Prop := (White t ∧ l = []) ∨ ∃ w x, t = w ++ x ∧ White w ∧ Items x l

end Verif.Moves
