import Verif.Boxes.Model

/-!
# Model: attribute values that are a keyword or a number

`font-size-adjust`, `repeatCount`, `rotate`, frequencies and the control points of `keySplines`, on the cursor of `Verif.Parse`.
Numbers are exact decimals, as in `Verif.Clock`.
-/

namespace Verif.Choice

open Verif.Parse Verif.Clock Verif.Boxes

/-- presentation.rs:459-466, `FontSizeAdjust::parse`; `none` is the keyword. -/
def adjust (p : Parser) : Res (Option Num) :=
  orElse (p.tryParse fun p => (p.expectIdentMatching "none".toList).bind fun _ p => .ok none p) fun p => (f32 p).bind fun n p => .ok (some n) p

/-- presentation.rs:468-479, `FontSizeAdjust::write_value`. -/
def adjustText (z : List Char) : Option Num → List Char
  | none => "none".toList
  | some n => n.text z

/-- `number <= 0.0` -/
def nonpos (n : Num) : Bool := n.neg || (n.ip.isEmpty && n.fp.isEmpty)

/-- animation_timing.rs:301-316, `RepeatCount::parse`; `none` is `indefinite`. -/
def count (p : Parser) : Res (Option Num) :=
  (orElse (p.tryParse fun p => (p.expectIdentMatching "indefinite".toList).bind fun _ p => .ok none p)
    fun p => (f32 p).bind fun n p => .ok (some n) p).bind fun r p =>
      match r with
      | some n => if nonpos n then .err p else .ok (some n) p
      | none => .ok none p

/-- animation_timing.rs:318-329, `RepeatCount::write_value`. -/
def countText (z : List Char) : Option Num → List Char
  | none => "indefinite".toList
  | some n => n.text z

/-- uncategorised.rs:892-899, `Rotate`. -/
inductive Rotate where
  | number (n : Num)
  | auto
  | reverse

/-- uncategorised.rs:902-918, `Rotate::parse`. -/
def rotate (p : Parser) : Res Rotate :=
  orElse (p.tryParse fun p => p.expectIdent.bind fun w p =>
      if w = "auto".toList then .ok .auto p else if w = "auto-reverse".toList then .ok .reverse p else .err p)
    fun p => p.skipWhitespace.bind fun _ p => (f32 p).bind fun n p => .ok (.number n) p

/-- uncategorised.rs:921-932, `Rotate::write_value`. -/
def rotateText (z : List Char) : Rotate → List Char
  | .auto => "auto".toList
  | .reverse => "auto-reverse".toList
  | .number n => n.text z

/-- core_attrs.rs:206-211, `Frequency`: the number, and whether it is in kilohertz. -/
structure Freq where
  n : Num
  kilo : Bool

/-- core_attrs.rs:213-228, `Frequency::parse`. -/
def frequency (p : Parser) : Res Freq :=
  (f32 p).bind fun n p => p.expectIdent.bind fun u p =>
    if u = "Hz".toList then .ok ⟨n, false⟩ p else if u = "KHz".toList then .ok ⟨n, true⟩ p else .err p

/-- core_attrs.rs:231-246, `Frequency::write_value`. -/
def frequencyText (z : List Char) (f : Freq) : List Char := f.n.text z ++ if f.kilo then "KHz".toList else "Hz".toList

/-- animation.rs:333-351, `ControlPoint::parse`. -/
def control (p : Parser) : Res Four :=
  p.skipWhitespace.bind fun _ p => (f32 p).bind fun a p => (gap p).bind fun _ p => (f32 p).bind fun b p =>
    (gap p).bind fun _ p => (f32 p).bind fun c p => (gap p).bind fun _ p => (f32 p).bind fun d p => .ok ⟨a, b, c, d⟩ p

/-- animation.rs:353-367, `ControlPoint::write_value`. -/
def controlText (z : List Char) (v : Four) : List Char :=
  v.a.text z ++ ' ' :: (v.b.text z ++ ' ' :: (v.c.text z ++ ' ' :: v.d.text z))

end Verif.Choice
