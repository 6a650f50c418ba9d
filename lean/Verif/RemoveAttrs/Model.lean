/-!
# Model: removing attributes by patterns

`crates/oxvg_optimiser/src/jobs/remove_attrs.rs` and `utils/regex_memo.rs`. Text is a list of characters. The parser of the crate `regex` is a parameter;
what its expressions match is defined here. That compiled expressions are kept in a table by their source makes no difference and is left out.
-/

namespace Verif.RemoveAttrs

abbrev Str := List Char

/-- Regular expressions. -/
inductive Re where
  | eps
  | chr (p : Char → Bool)
  | start
  | stop
  | cat (a b : Re)
  | alt (a b : Re)
  | star (a : Re)

/-- `r` matches `mid` between `before` and `after`. -/
inductive Mat : Re → Str → Str → Str → Prop
  | eps (x y : Str) : Mat .eps x [] y
  | chr {p : Char → Bool} {c : Char} (x y : Str) : p c = true → Mat (.chr p) x [c] y
  | start (y : Str) : Mat .start [] [] y
  | stop (x : Str) : Mat .stop x [] []
  | cat {a b : Re} {x m n y : Str} : Mat a x m (n ++ y) → Mat b (x ++ m) n y → Mat (.cat a b) x (m ++ n) y
  | altL {a b : Re} {x m y : Str} : Mat a x m y → Mat (.alt a b) x m y
  | altR {a b : Re} {x m y : Str} : Mat b x m y → Mat (.alt a b) x m y
  | starNil {a : Re} (x y : Str) : Mat (.star a) x [] y
  | starCons {a : Re} {x m n y : Str} : Mat a x m (n ++ y) → Mat (.star a) (x ++ m) n y → Mat (.star a) x (m ++ n) y

/-- The source of an expression after parsing: what stands between the `|` outside of all parentheses. -/
abbrev Src := List Re

/-- Something in the text is matched. -/
def Finds (r : Src) (s : Str) : Prop := ∃ x m y, s = x ++ m ++ y ∧ ∃ a ∈ r, Mat a x m y

open Classical in
/-- regex_memo.rs 66-71, `Regex::is_match`. -/
noncomputable def isMatch (r : Src) (s : Str) : Bool := decide (Finds r s)

/-- `str::split_once`. -/
def splitOnce (sep : Str) : Str → Option (Str × Str)
  | [] => if sep = [] then some ([], []) else none
  | c :: s => if sep.isPrefixOf (c :: s) then some ([], (c :: s).drop sep.length) else (splitOnce sep s).map fun p => (c :: p.1, p.2)

/-- remove_attrs.rs 88-95, `create_regex`. The inner `none` is an expression that matches everything; the outer one is an error. -/
def createRegex (parse : Str → Option Src) (part : Str) : Option (Option Src) :=
  if part = ['*'] ∨ part = ['.', '*'] then some none else (parse ('^' :: (part ++ ['$']))).map some

/-- remove_attrs.rs 98-124, `parse_pattern`. -/
def parsePattern (parse : Str → Option Src) (sep pattern : Str) : Option (Option Src × Option Src × Option Src) := match splitOnce sep pattern with
  | some (a, rest) => match splitOnce sep rest with
    | some (b, c) => match createRegex parse a, createRegex parse b, createRegex parse c with
      | some a, some b, some c => some (a, b, c)
      | _, _, _ => none
    | none => match createRegex parse a, createRegex parse rest with
      | some a, some b => some (a, b, none)
      | _, _ => none
  | none => match createRegex parse pattern with
    | some b => some (none, b, none)
    | none => none

/-- An attribute: its name with prefix, its value as it is written, and whether the value is `currentColor`. -/
structure Attr where
  name : Str
  value : Str
  current : Bool
deriving DecidableEq

/-- The attributes whose values are `Inheritable<Paint>` (collections, attribute.rs 2317, 2503). -/
def paints : List Str := ["fill".toList, "stroke".toList]

/-- The options. -/
structure Config where
  attrs : List Str
  sep : Str
  preserve : Bool

noncomputable section

/-- `pattern[i].as_ref().is_none_or(|p| p.is_match(…))`. -/
def noneOr (p : Option Src) (s : Str) : Bool := match p with
  | none => true
  | some r => isMatch r s

/-- remove_attrs.rs 148-172: the attribute stays. -/
def retains (preserve : Bool) (p : Option Src × Option Src × Option Src) (a : Attr) : Bool :=
  if preserve && (a.current && paints.contains a.name) then true
  else if !noneOr p.2.2 a.value then true
  else !noneOr p.2.1 a.name

/-- remove_attrs.rs 134-174: the loop over the parsed patterns. -/
def strip (preserve : Bool) (name : Str) : List (Option Src × Option Src × Option Src) → List Attr → List Attr
  | [], as => as
  | p :: ps, as => if !noneOr p.1 name then strip preserve name ps as else strip preserve name ps (as.filter (retains preserve p))

/-- remove_attrs.rs 129-133: all patterns are parsed first. -/
def parseAll (parse : Str → Option Src) (sep : Str) : List Str → Option (List (Option Src × Option Src × Option Src))
  | [] => some []
  | p :: ps => match parsePattern parse sep p, parseAll parse sep ps with
    | some p, some ps => some (p :: ps)
    | _, _ => none

/-- remove_attrs.rs 129-177, `element`. -/
def element (parse : Str → Option Src) (cfg : Config) (name : Str) (as : List Attr) : Option (List Attr) :=
  match parseAll parse cfg.sep cfg.attrs with
  | some ps => some (strip cfg.preserve name ps as)
  | none => none

/-- A document; `leaf` is anything but an element. -/
inductive Node (L : Type) where
  | leaf (l : L)
  | elem (name : Str) (attrs : List Attr) (kids : List (Node L))

variable {L : Type}

mutual
/-- visitor.rs 312-349 with this job; an error ends it. -/
def run (parse : Str → Option Src) (cfg : Config) : Node L → Option (Node L)
  | .leaf l => some (.leaf l)
  | .elem n as ks => match element parse cfg n as with
    | some as => match runAll parse cfg ks with
      | some ks => some (.elem n as ks)
      | none => none
    | none => none
def runAll (parse : Str → Option Src) (cfg : Config) : List (Node L) → Option (List (Node L))
  | [] => some []
  | n :: ns => match run parse cfg n with
    | some n => match runAll parse cfg ns with
      | some ns => some (n :: ns)
      | none => none
    | none => none
end

end

end Verif.RemoveAttrs
