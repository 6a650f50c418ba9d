import Verif.Transform.Model

/-!
# Model: rounding the numbers of attributes

`crates/oxvg_optimiser/src/jobs/cleanup_numeric_values.rs`, `cleanup_list_of_values.rs` and the functions they call in
`crates/oxvg_collections/src/content_type.rs`.

Numbers are real and arithmetic is exact; in the code they are `f32`, and `f64` for the points of a polygon.
-/

namespace Verif.Values

open Verif.Transform

noncomputable section

/-- The units of lightningcss' `LengthValue`, as matched in content_type.rs:505-514. The units that depend on a font,
a viewport or a container are only numbered. -/
inductive U where
  | px | inch | cm | mm | q | pt | pc
  | rel (k : Nat)
  deriving DecidableEq

/-- lightningcss' `LengthValue`. -/
structure Len where
  unit : U
  n : ℝ

/-- lightningcss' `LengthValue::to_px` (used in content_type.rs:640). Its source is not in the repository: the factors
are those of CSS Values, 96 pixels to an inch. -/
def Len.toPx (l : Len) : Option ℝ :=
  match l.unit with
  | .px => some l.n
  | .inch => some (l.n * 96)
  | .cm => some (l.n * (96 / 2.54))
  | .mm => some (l.n * (96 / 25.4))
  | .q => some (l.n * (96 / 101.6))
  | .pt => some (l.n * (96 / 72))
  | .pc => some (l.n * 16)
  | .rel _ => none

/-- core_attrs.rs:149-156, `Length`; a percentage is kept as a fraction, as in lightningcss. -/
inductive Length where
  | number (n : ℝ)
  | length (l : Len)
  | percentage (p : ℝ)

/-- lightningcss' `DimensionPercentage<LengthValue>`. -/
inductive DP where
  | dim (l : Len)
  | pct (p : ℝ)
  | calc (k : Nat)

/-- presentation.rs, `LengthOrNumber`. -/
inductive LN where
  | number (n : ℝ)
  | length (l : Len)

/-- uncategorised.rs:444, `NumberPercentage`. -/
inductive NP where
  | number (n : ℝ)
  | pct (p : ℝ)

/-- content_type.rs, `ContentType`: the kinds of value that carry numbers the two jobs might visit, a kind of their
own for each that is named in content_type.rs:434-620; `other` stands for the rest, and for the variants without a
number (`auto`, `indefinite`, `inherit` and so on). -/
inductive Content where
  | spacing (l : Len)
  | kerning (l : Length)
  | lengthPercentage (d : DP)
  | length (l : Length)
  | angle (unit : Nat) (n : ℝ)
  | frequency (kilo : Bool) (n : ℝ)
  | opacity (n : ℝ)
  | repeatCount (n : ℝ)
  | rotate (n : ℝ)
  | number (n : ℝ)
  | numberPercentage (v : NP)
  | lengthOrNumber (v : LN)
  | refX (v : LN)
  | refY (v : LN)
  | percentage (p : ℝ)
  | radius (d : DP)
  | numberOptionalNumber (n : ℝ) (m : Option ℝ)
  | viewBox (x y w h : ℝ)
  | enableBackground (x y w h : ℝ)
  | strokeDasharray (ds : List DP)
  | controlPoint (ns : List ℝ)
  | points (cs : List (List ℝ))
  | listOf (vs : List Content)
  | inheritable (v : Content)
  | other (k : Nat)

/-- content_type.rs:468-485, `visit_length_value_not_list`. -/
def lengthsOne (f : Len → Len) : Content → Content
  | .spacing l => .spacing (f l)
  | .kerning (.length l) => .kerning (.length (f l))
  | .lengthPercentage (.dim l) => .lengthPercentage (.dim (f l))
  | .length (.length l) => .length (.length (f l))
  | v => v

/-- content_type.rs:434-467, `visit_length_value`. -/
def lengths (f : Len → Len) (list : Bool) : Content → Content
  | .strokeDasharray ds =>
    if list then .strokeDasharray (ds.map fun d => match d with | .dim l => .dim (f l) | d => d)
    else .strokeDasharray ds
  | .listOf vs => if list then .listOf (vs.map (lengthsOne f)) else .listOf vs
  | .inheritable v => if list then .inheritable v else .inheritable (lengths f list v)
  | v => lengthsOne f v

/-- content_type.rs:589-592, and 540-542: a percentage is rounded as it is written. -/
def percent (f : ℝ → ℝ) (p : ℝ) : ℝ := f (p * 100) / 100

/-- content_type.rs:566-620, `visit_float_not_list`. -/
def floatsOne (f : ℝ → ℝ) : Content → Content
  | .length (.number n) => .length (.number (f n))
  | .kerning (.number n) => .kerning (.number (f n))
  | .angle u n => .angle u (f n)
  | .frequency k n => .frequency k (f n)
  | .opacity n => .opacity (f n)
  | .repeatCount n => .repeatCount (f n)
  | .rotate n => .rotate (f n)
  | .numberPercentage (.number n) => .numberPercentage (.number (f n))
  | .lengthOrNumber (.number n) => .lengthOrNumber (.number (f n))
  | .refX (.number n) => .refX (.number (f n))
  | .refY (.number n) => .refY (.number (f n))
  | .number n => .number (f n)
  | .percentage p => .percentage (percent f p)
  | .radius (.pct p) => .radius (.pct (percent f p))
  | .lengthPercentage (.pct p) => .lengthPercentage (.pct (percent f p))
  | .length (.percentage p) => .length (.percentage (percent f p))
  | .kerning (.percentage p) => .kerning (.percentage (percent f p))
  | .numberPercentage (.pct p) => .numberPercentage (.pct (percent f p))
  | .numberOptionalNumber n m => .numberOptionalNumber (f n) (m.map f)
  | .viewBox x y w h => .viewBox (f x) (f y) (f w) (f h)
  | v => v

/-- content_type.rs:524-564, the part of `visit_float` after the call of `visit_length_value`. -/
def floatsRest (f : ℝ → ℝ) (list : Bool) : Content → Content
  | .enableBackground x y w h =>
    if list then .enableBackground (f x) (f y) (f w) (f h) else .enableBackground x y w h
  | .strokeDasharray ds =>
    if list then .strokeDasharray (ds.map fun d => match d with | .pct p => .pct (percent f p) | d => d)
    else .strokeDasharray ds
  | .controlPoint ns => if list then .controlPoint (ns.map f) else .controlPoint ns
  | .listOf vs => if list then .listOf (vs.map (floatsOne f)) else .listOf vs
  | v => floatsOne f v

/-- content_type.rs:495-523: the numbers within lengths are visited through `visit_length_value`. -/
def visitNum (f : ℝ → ℝ) (l : Len) : Len := ⟨l.unit, f l.n⟩

/-- How often a value is wrapped as `Inheritable`; not in the code, where the recursion of `visit_float` needs no reason
to end. -/
def depth : Content → Nat
  | .inheritable v => depth v + 1
  | _ => 0

theorem depth_lengthsOne (f : Len → Len) (v : Content) : depth (lengthsOne f v) = depth v := by
  unfold lengthsOne; split <;> rfl

theorem depth_lengths (f : Len → Len) (list : Bool) (v : Content) : depth (lengths f list v) = depth v := by
  fun_induction lengths f list v <;> simp_all [depth, depth_lengthsOne]

/-- content_type.rs:494-565, `visit_float`. If lists are not followed, the lengths within an inherited kind of value are
visited twice: by the call of `visit_length_value` for the value itself, and in the call of `visit_float` for the value
within (line 561). -/
def floats (f : ℝ → ℝ) (list : Bool) : Content → Content
  | .inheritable v =>
    if list then .inheritable v else .inheritable (floats f list (lengths (visitNum f) list v))
  | v => floatsRest f list (lengths (visitNum f) list v)
termination_by v => depth v
decreasing_by simp [depth_lengths, depth]

/-- content_type.rs:630 and 637: `(n * factor).round() / factor`. -/
def roundFloat (p : ℕ) (n : ℝ) : ℝ := roundAway (n * 10 ^ p) / 10 ^ p

/-- content_type.rs:639-643: a length with an absolute unit becomes one in pixels. -/
def convert (l : Len) : Len :=
  match l.toPx with
  | some n => ⟨.px, n⟩
  | none => l

/-- content_type.rs:623-650, `round`. The assertion of lines 624-627 is checked in debug builds only; the jobs refuse
a precision above 5 before they get here. -/
def round (p : ℕ) (px list : Bool) : Content → Content
  | .points cs => .points (cs.map fun c => c.map (roundFloat p))
  | v => floats (roundFloat p) list (if px then lengths convert list v else v)

/-- The options of both jobs. -/
structure Config where
  floatPrecision : ℕ
  defaultPx : Bool
  convertToPx : Bool

/-- An attribute: its name and its parsed value. -/
abbrev Attr := String × Content

/-- An element, of which the jobs only look at the attributes. -/
abbrev Elem := List Attr

/-- cleanup_numeric_values.rs:66-76 and cleanup_list_of_values.rs:66-76, `element`. -/
def element (c : Config) (list : Bool) (e : Elem) : Elem :=
  e.map fun a => (a.1, round c.floatPrecision c.convertToPx list a.2)

/-- cleanup_numeric_values.rs:53-76 and cleanup_list_of_values.rs:53-76: `document` may refuse, then every element is
visited. The error carries the precision. -/
def run (c : Config) (list : Bool) (doc : List Elem) : Except ℕ (List Elem) :=
  if c.floatPrecision > 5 then .error c.floatPrecision else .ok (doc.map (element c list))

/-- The job `cleanupNumericValues`. -/
def cleanupNumericValues (c : Config) := run c false

/-- The job `cleanupListOfValues`. -/
def cleanupListOfValues (c : Config) := run c true

end

end Verif.Values
