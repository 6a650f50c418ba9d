import Verif.Clock.Model
import Verif.ListOf.Model

/-!
# Model: attribute values of several numbers

`viewBox`, `clip`, `enable-background` and the values of one or two numbers (`order`, `radius`, `stdDeviation`,
`baseFrequency`, `filterRes`, `kernelUnitLength`) as parser and printer, on the cursor of `Verif.Parse`. Numbers are exact decimals, as in
`Verif.Clock`: rounding to `f32` and printing with six digits are not modelled.
-/

namespace Verif.Boxes

open Verif.Parse Verif.Clock

/-- uncategorised.rs:1218-1220: white space, commas, white space. -/
def gap (p : Parser) : Res Unit :=
  p.skipWhitespace.bind fun _ p => (p.skipChar ',').bind fun _ p => p.skipWhitespace

/-- The four numbers (uncategorised.rs:1203-1212; presentation.rs:166-173, 330-336). -/
structure Four where
  a : Num
  b : Num
  c : Num
  d : Num

/-- uncategorised.rs:1215-1238, `ViewBox::parse`. -/
def viewBox (p : Parser) : Res Four :=
  p.skipWhitespace.bind fun _ p => (f32 p).bind fun a p => (gap p).bind fun _ p => (f32 p).bind fun b p =>
    (gap p).bind fun _ p => (f32 p).bind fun c p => (gap p).bind fun _ p => (f32 p).bind fun d p =>
      p.skipWhitespace.bind fun _ p => .ok ⟨a, b, c, d⟩ p

/-- uncategorised.rs:1240-1253, `ViewBox::write_value`. -/
def viewBoxText (z : List Char) (v : Four) : List Char :=
  v.a.text z ++ ' ' :: (v.b.text z ++ ' ' :: (v.c.text z ++ ' ' :: v.d.text z))

/-- presentation.rs:176-201, `Clip::parse`; `none` is `auto`. -/
def clip (p : Parser) : Res (Option Four) :=
  orElse (p.tryParse fun p => (p.expectIdentMatching "auto".toList).bind fun _ p => .ok none p) fun p =>
    (p.expectStr "rect(".toList).bind fun _ p => (gap p).bind fun _ p => (f32 p).bind fun a p => (gap p).bind fun _ p =>
      (f32 p).bind fun b p => (gap p).bind fun _ p => (f32 p).bind fun c p => (gap p).bind fun _ p => (f32 p).bind fun d p =>
        p.skipWhitespace.bind fun _ p => (p.expectChar ')').bind fun _ p => .ok (some ⟨a, b, c, d⟩) p

/-- presentation.rs:204-224, `Clip::write_value`. -/
def clipText (z : List Char) : Option Four → List Char
  | none => "auto".toList
  | some v => "rect(".toList ++ (v.a.text z ++ ',' :: (v.b.text z ++ ',' :: (v.c.text z ++ ',' :: (v.d.text z ++ [')']))))

/-- presentation.rs:330-336, `EnableBackground`. -/
inductive Enable where
  | accumulate
  | fresh (v : Option Four)

/-- presentation.rs:338-362, `EnableBackground::parse`. -/
def enable (p : Parser) : Res Enable :=
  orElse (p.tryParse fun p => (p.expectIdentMatching "accumulate".toList).bind fun _ p => .ok .accumulate p) fun p =>
    (p.expectIdentMatching "new".toList).bind fun _ p => p.skipWhitespace.bind fun _ p =>
      match p.tryParse f32 with
      | .ok a p => p.skipWhitespace.bind fun _ p => (f32 p).bind fun b p => p.skipWhitespace.bind fun _ p =>
          (f32 p).bind fun c p => p.skipWhitespace.bind fun _ p => (f32 p).bind fun d p => .ok (.fresh (some ⟨a, b, c, d⟩)) p
      | .err p => .ok (.fresh none) p
      | .panic => .panic

/-- presentation.rs:364-386, `EnableBackground::write_value`. -/
def enableText (z : List Char) : Enable → List Char
  | .accumulate => "accumulate".toList
  | .fresh none => "new".toList
  | .fresh (some v) => "new ".toList ++ viewBoxText z v

/-- core_attrs.rs:290-315, `NumberOptionalNumber::parse`. -/
def pair (p : Parser) : Res (Num × Option Num) :=
  (f32 p).bind fun a p =>
    let before := p.cursor
    p.skipWhitespace.bind fun _ p =>
      match p.tryParse fun p => p.expectChar ',' with
      | .ok _ p => p.skipWhitespace.bind fun _ p => (f32 p).bind fun b p => .ok (a, some b) p
      | .err p => p.skipWhitespace.bind fun _ p =>
          let behind := p.cursor
          match p.tryParse f32 with
          | .ok b p => if before = behind then .err p else .ok (a, some b) p
          | .err p => .ok (a, none) p
          | .panic => .panic
      | .panic => .panic

/-- core_attrs.rs:318-330, `NumberOptionalNumber::write_value`. -/
def pairText (z : List Char) : Num × Option Num → List Char
  | (a, none) => a.text z
  | (a, some b) => a.text z ++ ' ' :: b.text z

end Verif.Boxes
