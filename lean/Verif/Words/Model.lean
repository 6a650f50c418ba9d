import Verif.ListOf.Model

/-!
# Model: attribute values that are words or names

`target`, `in`, the names of colour profiles, `true` and `false`, boolean attributes and ids, on the cursor of `Verif.Parse`.
-/

namespace Verif.Words

open Verif.Parse

/-- The closure that `Target`, `In` and `ColorProfileName` try first: a name that is in the table `f`. -/
def named {α : Type} (f : List Char → Option α) (p : Parser) : Res α :=
  p.tryParse fun p => p.expectIdent.bind fun s p => match f s with
    | some a => .ok a p
    | none => .err p

/-- uncategorised.rs:961-972, `Target`. -/
inductive Target where
  | self
  | parent
  | top
  | blank
  | name (s : List Char)

/-- uncategorised.rs:980-986 -/
def targetWord (s : List Char) : Option Target :=
  if s = "_self".toList then some .self else if s = "_parent".toList then some .parent else if s = "_top".toList then some .top
  else if s = "_blank".toList then some .blank else none

/-- uncategorised.rs:975-991, `Target::parse`. -/
def target (p : Parser) : Res Target :=
  match named targetWord p with
  | .ok a q => .ok a q
  | .err q => q.takeSlice.bind fun s q => .ok (.name s) q
  | .panic => .panic

/-- uncategorised.rs:994-1007, `Target::write_value`. -/
def targetText : Target → List Char
  | .self => "_self".toList
  | .parent => "_parent".toList
  | .top => "_top".toList
  | .blank => "_blank".toList
  | .name s => s

/-- filter_effect.rs:151-166, `In`. -/
inductive In where
  | sourceGraphic
  | sourceAlpha
  | backgroundImage
  | backgroundAlpha
  | fillPaint
  | strokePaint
  | reference (s : List Char)

/-- filter_effect.rs:173-181 -/
def inWord (s : List Char) : Option In :=
  if s = "SourceGraphic".toList then some .sourceGraphic else if s = "SourceAlpha".toList then some .sourceAlpha
  else if s = "BackgroundImage".toList then some .backgroundImage else if s = "BackgroundAlpha".toList then some .backgroundAlpha
  else if s = "FillPaint".toList then some .fillPaint else if s = "StrokePaint".toList then some .strokePaint else none

/-- filter_effect.rs:168-187, `In::parse`. -/
def inParse (p : Parser) : Res In :=
  (match named inWord p with
  | .ok a q => .ok a q
  | .err q => q.expectIdent.bind fun s q => .ok (.reference s) q
  | .panic => .panic : Res In).bind fun a p => p.expectDone.bind fun _ p => .ok a p

/-- filter_effect.rs:190-205, `In::write_value`. -/
def inText : In → List Char
  | .sourceGraphic => "SourceGraphic".toList
  | .sourceAlpha => "SourceAlpha".toList
  | .backgroundImage => "BackgroundImage".toList
  | .backgroundAlpha => "BackgroundAlpha".toList
  | .fillPaint => "FillPaint".toList
  | .strokePaint => "StrokePaint".toList
  | .reference s => s

/-- uncategorised.rs:609-615, `ColorProfileName`. -/
inductive Profile where
  | srgb
  | name (s : List Char)

/-- uncategorised.rs:621-626; `to_lowercase` is modelled on ASCII letters: no other character has `s`, `r`, `g` or `b` as lower case. -/
def profileWord (s : List Char) : Option Profile := if s.map Char.toLower = "srgb".toList then some .srgb else none

/-- uncategorised.rs:617-630, `ColorProfileName::parse`. -/
def profile (p : Parser) : Res Profile :=
  match named profileWord p with
  | .ok a q => .ok a q
  | .err q => q.takeSlice.bind fun s q => .ok (.name s) q
  | .panic => .panic

/-- uncategorised.rs:633-643, `ColorProfileName::write_value`. -/
def profileText : Profile → List Char
  | .srgb => "sRGB".toList
  | .name s => s

/-- uncategorised.rs:1072-1087, `TrueFalse::parse`. -/
def trueFalse (p : Parser) : Res Bool :=
  p.expectIdent.bind fun s p => if s = "true".toList then .ok true p else if s = "false".toList then .ok false p else .err p

/-- uncategorised.rs:1090-1101, `TrueFalse::write_value`. -/
def trueFalseText (b : Bool) : List Char := if b then "true".toList else "false".toList

/-- uncategorised.rs:1121-1141, `TrueFalseUndefined::parse`. -/
def trueFalseUndefined (p : Parser) : Res (Option Bool) :=
  match p.tryParse fun p => p.expectIdentMatching "undefined".toList with
  | .ok _ q => .ok none q
  | .err q => (trueFalse q).bind fun b q => .ok (some b) q
  | .panic => .panic

/-- uncategorised.rs:1144-1154, `TrueFalseUndefined::write_value`. -/
def trueFalseUndefinedText : Option Bool → List Char
  | some b => trueFalseText b
  | none => "undefined".toList

/-- core_attrs.rs:111-123, `Boolean::parse`. -/
def boolean (p : Parser) : Res (Option (List Char)) :=
  p.skipWhitespace.bind fun _ p => match p.tryParse fun p => p.expectIdent with
    | .ok s q => .ok (some s) q
    | .err q => .ok none q
    | .panic => .panic

/-- core_attrs.rs:126-135, `Boolean::write_value`. -/
def booleanText (_ : Option (List Char)) : List Char := []

/-- core_attrs.rs:43-56, `NonWhitespace::parse`. -/
def nonWhitespace (p : Parser) : Res (List Char) :=
  p.skipWhitespace.bind fun _ p => (p.takeMatches fun c => !isWhitespace c).bind fun s p => if s.isEmpty then .err p else .ok s p

end Verif.Words
