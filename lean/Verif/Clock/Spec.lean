import Mathlib.Algebra.Order.Field.Rat
import Verif.Number.Props

/-!
# What the values of `dur`, `begin` and `end` mean

The grammar of clock values and of begin values of SMIL and of SVG Animations (`Clock-value`, `Offset-value`,
`Begin-value`), with the meaning of a text: a time in seconds, or what makes an animation begin. Nothing here uses the
model.
-/

namespace Verif.Clock

open Verif.Number (Digits decimal)

/-- The fraction of a number: nothing, or a point and digits. -/
def Fraction (f : List Char) : Prop := f = [] ∨ ∃ d, d ≠ [] ∧ Digits d ∧ f = '.' :: d

/-- The value of the digits behind a point. -/
def tail (d : List Char) : ℚ := (decimal d : ℚ) / 10 ^ d.length

/-- Two digits below sixty. -/
def Sixty (t : List Char) : Prop := Digits t ∧ t.length = 2 ∧ decimal t < 60

/-- The units, in seconds. -/
def units : List (List Char × ℚ) :=
  [([], 1), ("s".toList, 1), ("h".toList, 3600), ("min".toList, 60), ("ms".toList, 1 / 1000)]

/-- `Clock-value`: the text and the time in seconds. -/
inductive Clock : List Char → ℚ → Prop
  | full (h m s f : List Char) : Digits h → h ≠ [] → Sixty m → Sixty s → Fraction f →
      Clock (h ++ ':' :: (m ++ ':' :: (s ++ f))) (3600 * decimal h + 60 * decimal m + decimal s + tail f.tail)
  | half (m s f : List Char) : Sixty m → Sixty s → Fraction f →
      Clock (m ++ ':' :: (s ++ f)) (60 * decimal m + decimal s + tail f.tail)
  | count (d f u : List Char) (k : ℚ) : Digits d → d ≠ [] → Fraction f → (u, k) ∈ units →
      Clock (d ++ f ++ u) ((decimal d + tail f.tail) * k)

/-- A number as many readers take it: the digits before the point may be missing. -/
def LooseNumber (d f : List Char) : Prop := Digits d ∧ Fraction f ∧ (d ≠ [] ∨ f ≠ [])

/-- A clock value as many readers take it: the digits before a point may be missing, and fields may have any number of
digits. -/
inductive Loose : List Char → ℚ → Prop
  | full (h m s f : List Char) : Digits h → h ≠ [] → Digits m → m ≠ [] → LooseNumber s f →
      Loose (h ++ ':' :: (m ++ ':' :: (s ++ f))) (3600 * decimal h + 60 * decimal m + decimal s + tail f.tail)
  | half (m s f : List Char) : Digits m → m ≠ [] → LooseNumber s f →
      Loose (m ++ ':' :: (s ++ f)) (60 * decimal m + decimal s + tail f.tail)
  | count (d f u : List Char) (k : ℚ) : LooseNumber d f → (u, k) ∈ units →
      Loose (d ++ f ++ u) ((decimal d + tail f.tail) * k)

/-- White space. -/
def White (w : List Char) : Prop := ∀ c ∈ w, c = ' ' ∨ c = '\t' ∨ c = '\n' ∨ c = '\r'

/-- The sign and the clock value of an offset: `+` or `-`, perhaps among white space. -/
inductive Signed (C : List Char → ℚ → Prop) : List Char → ℚ → Prop
  | plus (w : List Char) (t : List Char) (v : ℚ) : White w → C t v → Signed C ('+' :: (w ++ t)) v
  | minus (w : List Char) (t : List Char) (v : ℚ) : White w → C t v → Signed C ('-' :: (w ++ t)) (-v)

/-- `Offset-value`. -/
inductive Offset (C : List Char → ℚ → Prop) : List Char → ℚ → Prop
  | bare (t : List Char) (v : ℚ) : C t v → Offset C t v
  | signed (t : List Char) (v : ℚ) : Signed C t v → Offset C t v

/-- What makes an animation begin, with the time to wait. -/
inductive Trigger where
  | offset (v : ℚ)
  | sync (id : List Char) (begin : Bool) (v : ℚ)
  | event (id : Option (List Char)) (ev : List Char) (v : ℚ)
  | indefinite

/-- The time to wait. -/
def Trigger.wait : Trigger → ℚ
  | .offset v | .sync _ _ v | .event _ _ v => v
  | .indefinite => 0

/-- The characters of names of elements and of events, without those that must be escaped in a begin value. -/
def plainChar (c : Char) : Bool := c.isAlpha || c.isDigit || c == '_'

/-- A name of an element: it begins with a letter or `_`. -/
def Name (l : List Char) : Prop := (∃ c t, l = c :: t ∧ (c.isAlpha || c == '_') = true) ∧ ∀ c ∈ l, (plainChar c || c == '-') = true

/-- In a begin value, `-` is escaped in the name of an element. -/
def escape : List Char → List Char
  | [] => []
  | c :: l => if c == '-' then '\\' :: '-' :: escape l else c :: escape l

/-- The name of the element that is waited for. -/
def Trigger.id : Trigger → List Char
  | .sync id _ _ => id
  | .event (some id) _ _ => id
  | _ => []

/-- A name of an event. -/
def EventName (l : List Char) : Prop := l ≠ [] ∧ ∀ c ∈ l, c.isAlpha = true

/-- The offset behind a name: none, or a signed clock value, perhaps behind white space. -/
inductive Wait (C : List Char → ℚ → Prop) : List Char → ℚ → Prop
  | zero : Wait C [] 0
  | signed (w t : List Char) (v : ℚ) : White w → Signed C t v → Wait C (w ++ t) v

/-- `Begin-value`: the text and what it means. -/
inductive Begin (C : List Char → ℚ → Prop) : List Char → Trigger → Prop
  | offset (t : List Char) (v : ℚ) : Offset C t v → Begin C t (.offset v)
  | sync (id : List Char) (begin : Bool) (o : List Char) (v : ℚ) : Name id → Wait C o v →
      Begin C (escape id ++ '.' :: ((if begin then "begin".toList else "end".toList) ++ o)) (.sync id begin v)
  | event (id ev o : List Char) (v : ℚ) : Name id → EventName ev → ev ≠ "begin".toList → ev ≠ "end".toList →
      ev ≠ "repeat".toList → Wait C o v → Begin C (escape id ++ '.' :: (ev ++ o)) (.event (some id) ev v)
  | anyEvent (ev o : List Char) (v : ℚ) : EventName ev → ev ≠ "indefinite".toList → ev ≠ "repeat".toList → Wait C o v →
      Begin C (ev ++ o) (.event none ev v)
  | indefinite : Begin C "indefinite".toList .indefinite

end Verif.Clock
