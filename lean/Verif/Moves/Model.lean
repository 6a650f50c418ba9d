import Verif.Boxes.Model

/-!
# Model: transforms as they are read and written

The parser and the printer of the `transform` attribute, on the cursor of `Verif.Parse`. Numbers are exact decimals, as in
`Verif.Clock`. Transforms in CSS are opaque: the parser of lightningcss is a parameter that is given all of the remaining text, and so is its
printer.
-/

namespace Verif.Moves

open Verif.Parse Verif.Clock Verif.Boxes

variable {γ : Type}

/-- transform.rs:24-39, `SVGTransform`. -/
inductive Item (γ : Type) where
  | matrix (a b c d e f : Num)
  | translate (x y : Num)
  | scale (x y : Num)
  | rotate (angle x y : Num)
  | skewX (angle : Num)
  | skewY (angle : Num)
  | css (t : γ)

/-- `0.0` -/
def zero : Num := ⟨false, [], []⟩

/-- `x == 0.0` -/
def isZero (n : Num) : Bool := n.ip.isEmpty && n.fp.isEmpty

/-- `x == y` -/
def same (m n : Num) : Bool := m == n || (isZero m && isZero n)

/-- White space and the closing parenthesis (transform.rs:284-285 and others). -/
def close (x : Item γ) (p : Parser) : Res (Item γ) := p.skipWhitespace.bind fun _ p => (p.expectChar ')').bind fun _ p => .ok x p

/-- transform.rs:499-503, `skip_comma_and_whitespace`; the code is that of `Boxes.gap`. -/
def skipComma (p : Parser) : Res Unit := p.skipWhitespace.bind fun _ p => (p.skipChar ',').bind fun _ p => p.skipWhitespace

/-- transform.rs:273-288, the numbers of a matrix. -/
def matrixArgs (p : Parser) : Res (Item γ) :=
  (f32 p).bind fun a p => (skipComma p).bind fun _ p => (f32 p).bind fun b p => (skipComma p).bind fun _ p => (f32 p).bind fun c p =>
    (skipComma p).bind fun _ p => (f32 p).bind fun d p => (skipComma p).bind fun _ p => (f32 p).bind fun e p => (skipComma p).bind fun _ p =>
      (f32 p).bind fun f p => close (.matrix a b c d e f) p

/-- transform.rs:289-301, the numbers of a translation. -/
def translateArgs (p : Parser) : Res (Item γ) :=
  (f32 p).bind fun x p => (skipComma p).bind fun _ p =>
    match p.tryParse f32 with
    | .ok y p => close (.translate x y) p
    | .err p => close (.translate x zero) p
    | .panic => .panic

/-- transform.rs:302-314, the numbers of a scale. -/
def scaleArgs (p : Parser) : Res (Item γ) :=
  (f32 p).bind fun x p => (skipComma p).bind fun _ p =>
    match p.tryParse f32 with
    | .ok y p => close (.scale x y) p
    | .err p => close (.scale x x) p
    | .panic => .panic

/-- transform.rs:315-329, the numbers of a rotation. -/
def rotateArgs (p : Parser) : Res (Item γ) :=
  (f32 p).bind fun a p => (skipComma p).bind fun _ p =>
    match p.tryParse f32 with
    | .ok x p => (skipComma p).bind fun _ p => (f32 p).bind fun y p => close (.rotate a x y) p
    | .err p => close (.rotate a zero zero) p
    | .panic => .panic

/-- transform.rs:271-346, the `match` on the name. -/
def args (name : List Char) (p : Parser) : Res (Item γ) :=
  if name = "matrix".toList then matrixArgs p
  else if name = "translate".toList then translateArgs p
  else if name = "scale".toList then scaleArgs p
  else if name = "rotate".toList then rotateArgs p
  else if name = "skewX".toList then (f32 p).bind fun a p => close (.skewX a) p
  else if name = "skewY".toList then (f32 p).bind fun a p => close (.skewY a) p
  else .err p

/-- transform.rs:265-346, the first attempt. -/
def function (p : Parser) : Res (Item γ) :=
  p.expectIdent.bind fun name p => p.skipWhitespace.bind fun _ p => (p.expectChar '(').bind fun _ p => args name p

/-- transform.rs:260-352, `SVGTransform::parse`; oxvg_parse types/lightningcss.rs:33-42: lightningcss is given all of the remaining text. -/
def item (css : List Char → Option γ) (p : Parser) : Res (Item γ) :=
  orElse (p.tryParse function) fun p => p.takeSlice.bind fun s p =>
    match css s with
    | some t => .ok (.css t) p
    | none => .err p

/-- transform.rs:596-604, the loop over transforms, with the number of turns that are left. -/
def loop (css : List Char → Option γ) : Nat → Parser → Res (List (Item γ))
  | 0, _ => .panic
  | n + 1, p => (skipComma p).bind fun _ p =>
    match p.tryParse (item css) with
    | .ok x p => (loop css n p).bind fun l p => .ok (x :: l) p
    | .err p => .ok [] p
    | .panic => .panic

/-- transform.rs:592-607, `SVGTransformList::parse`. -/
def list (css : List Char → Option γ) (p : Parser) : Res (List (Item γ)) := loop css 2048 p

/-- transform.rs:355-418, `SVGTransform::write_value`. -/
def itemText (z : List Char) (css : γ → List Char) : Item γ → List Char
  | .matrix a b c d e f => "matrix(".toList ++ (a.text z ++ ' ' :: (b.text z ++ ' ' :: (c.text z ++ ' ' :: (d.text z ++ ' ' :: (e.text z ++ ' ' ::
      (f.text z ++ [')']))))))
  | .translate x y => "translate(".toList ++ (x.text z ++ ((if isZero y then [] else ' ' :: y.text z) ++ [')']))
  | .scale x y => "scale(".toList ++ (x.text z ++ ((if same x y then [] else ' ' :: y.text z) ++ [')']))
  | .rotate a x y => "rotate(".toList ++ (a.text z ++ ((if isZero x && isZero y then [] else ' ' :: (x.text z ++ ' ' :: y.text z)) ++ [')']))
  | .skewX a => "skewX(".toList ++ (a.text z ++ [')'])
  | .skewY a => "skewY(".toList ++ (a.text z ++ [')'])
  | .css t => css t

/-- transform.rs:609-623, `SVGTransformList::write_value`. -/
def listText (z : List Char) (css : γ → List Char) (l : List (Item γ)) : List Char := l.flatMap (itemText z css)

end Verif.Moves
