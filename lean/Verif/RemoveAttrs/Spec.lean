import Verif.RemoveAttrs.Model

/-! # Specification: which attributes a pattern is about -/

namespace Verif.RemoveAttrs

/-- The expression matches the whole text. -/
def Whole (r : Src) (s : Str) : Prop := ∃ a ∈ r, Mat a [] s []

/-- `^` before and `$` after the source of an expression bind stronger than `|`. -/
def anchored : Src → Src
  | [] => []
  | [r] => [.cat (.cat .start r) .stop]
  | r :: s :: rs => .cat .start r :: stopLast (s :: rs)
where
  stopLast : Src → Src
    | [] => []
    | [r] => [.cat r .stop]
    | r :: s :: rs => r :: stopLast (s :: rs)

/-- What is used about the parser: an expression has at least one branch, and with `^` before and `$` after it, it is the anchored expression. -/
def Grammar (parse : Str → Option Src) : Prop := ∀ s r, parse s = some r → r ≠ [] ∧
  ∃ r', parse ('^' :: (s ++ ['$'])) = some r' ∧ ∀ t, Finds r' t ↔ Finds (anchored r) t

/-- The text contains the separator. -/
def Contains (sep s : Str) : Prop := ∃ x y, s = x ++ sep ++ y

/-- `s` is `a`, the separator and `b`, where the separator is the first one. -/
def FirstAt (sep s a b : Str) : Prop := s = a ++ sep ++ b ∧ ∀ x y, s = x ++ sep ++ y → a.length ≤ x.length

/-- The three parts of a pattern: for elements, attributes and values. `none` is a part that is left out. -/
inductive Parts (sep : Str) : Str → Option Str × Str × Option Str → Prop
  | one {p : Str} : ¬ Contains sep p → Parts sep p (none, p, none)
  | two {p a b : Str} : FirstAt sep p a b → ¬ Contains sep b → Parts sep p (some a, b, none)
  | three {p a b c r : Str} : FirstAt sep p a r → FirstAt sep r b c → Parts sep p (some a, b, some c)

/-- What the documentation says of a part: an asterisk or omission matches all, everything else is an expression for the whole text. -/
def Covers (parse : Str → Option Src) (part : Option Str) (s : Str) : Prop :=
  ∀ p, part = some p → p = [] ∨ p = ['*'] ∨ p = ['.', '*'] ∨ ∃ r, parse p = some r ∧ Whole r s

/-- The attributes that are to go, by the documentation. -/
def Selected (parse : Str → Option Src) (cfg : Config) (name : Str) (a : Attr) : Prop := ¬ (cfg.preserve = true ∧ a.current = true) ∧
  ∃ p ∈ cfg.attrs, ∃ q, Parts cfg.sep p q ∧ Covers parse q.1 name ∧ Covers parse (some q.2.1) a.name ∧ Covers parse q.2.2 a.value

/-! A parser for expressions without parentheses and repetition; it shows that what is used about parsers can be. -/

/-- A character that stands for itself, or `.`, `^`, `$`. -/
def atom (c : Char) : Re := if c = '^' then .start else if c = '$' then .stop else if c = '.' then .chr (· ≠ '\n') else .chr (· = c)

/-- The branches, and the last character read comes first in `cur`. -/
def branches : Re → Str → Src
  | cur, [] => [cur]
  | cur, c :: s => if c = '|' then cur :: branches .eps s else branches (.cat cur (atom c)) s

/-- The parser. -/
def simpleParse (s : Str) : Option Src := some (branches .eps s)

end Verif.RemoveAttrs
