import Verif.Keywords.Tables
import Verif.Parse.Model

/-!
# Model: attribute values made of keywords

The types of `crates/oxvg_collections/src/attribute/*.rs` that are made with the macro `enum_attr!`, and those composed of
them: `paint-order`, `preserveAspectRatio`, `font-variant`, and values that may be `inherit`. A variant of an enum is the
place of its keyword in the table. Texts that cannot be parsed are kept by the code as they are; here this is the error of
the parser. The printer is the text that is written; `none` is a panic.
-/

namespace Verif.Keywords

open Verif.Parse

/-- oxvg_parse lib.rs:280-287, `Parse::parse_string`. -/
def parseString {α : Type} (f : Parser → Res α) (text : List Char) : Res α :=
  (Parser.new text).skipWhitespace.bind fun _ p =>
    (f p).bind fun a p =>
      p.skipWhitespace.bind fun _ p =>
        p.expectDone.bind fun _ p => .ok a p

/-- The place of the first keyword that matches (the arms of the `match` of attribute.rs:117-123). -/
def find : Table → Word → Option Nat
  | [], _ => none
  | k :: t, w => if w = k then some 0 else (find t w).map (· + 1)

/-- attribute.rs:112-125, `parse` of `enum_attr!`. -/
def parseEnum (t : Table) (p : Parser) : Res Nat :=
  p.expectIdent.bind fun w q =>
    match find t w with
    | some i => .ok i q
    | none => .err q

/-- attribute.rs:128-140, `write_value` of `enum_attr!`. -/
def writeEnum (t : Table) (i : Nat) : Word := t.getD i []

/-- `try_parse(f).or_else(|_| g)`. -/
def orElse {α : Type} (f g : Parser → Res α) (p : Parser) : Res α :=
  match p.tryParse f with
  | .ok a q => .ok a q
  | .err q => g q
  | .panic => .panic

/-- attribute/inheritable.rs:9-15, `Inheritable`; `none` is `Inherited`. -/
abbrev Inheritable (α : Type) := Option α

/-- attribute/inheritable.rs:72-83. -/
def parseInheritable {α : Type} (f : Parser → Res α) : Parser → Res (Inheritable α) :=
  orElse (fun p => (p.expectIdentMatching "inherit".toList).bind fun _ q => .ok none q)
    (fun p => (f p).bind fun a q => .ok (some a) q)

/-- attribute/inheritable.rs:84-120. -/
def writeInheritable {α : Type} (w : α → List Char) : Inheritable α → List Char
  | none => "inherit".toList
  | some a => w a

/-! ## `paint-order` -/

/-- attribute/presentation.rs:1284-1286, `PaintOrder::normal`. -/
def normalOrder : List Nat := [1, 0, 2]

/-- attribute/presentation.rs:1288-1293, `PaintOrder::is_normal`. -/
def isNormal (l : List Nat) : Bool :=
  (match l[0]? with | none => true | some a => a == 1) && (match l[1]? with | none => true | some a => a == 0) &&
    (match l[2]? with | none => true | some a => a == 2)

/-- attribute/presentation.rs:1306-1313: up to `n` operations. -/
def paints : Nat → List Nat → Parser → Res (List Nat)
  | 0, l, p => .ok l p
  | n + 1, l, p =>
    match p.tryParse (parseEnum tPaint) with
    | .ok i q => q.skipWhitespace.bind fun _ q => paints n (l ++ [i]) q
    | .err q => .ok l q
    | .panic => .panic

/-- attribute/presentation.rs:1320-1324: the operations that are not given are done in the normal order. -/
def complete (l : List Nat) : List Nat :=
  normalOrder.foldl (fun l i => if l.contains i then l else l ++ [i]) l

/-- attribute/presentation.rs:1298-1330. -/
def parsePaintOrder (p : Parser) : Res (List Nat) :=
  match p.tryParse fun p => p.expectIdentMatching "normal".toList with
  | .ok _ q => .ok normalOrder q
  | .panic => .panic
  | .err q =>
    (paints 3 [] q).bind fun l q =>
      if l.isEmpty then .err q
      else if (complete l).length > 3 then .err q else .ok (complete l) q

/-- attribute/presentation.rs:1335-1348; `none` is the failed assertion. -/
def writePaintOrder (l : List Nat) : Option (List Char) :=
  if l.length ≠ 3 then none
  else if isNormal l then some "normal".toList
  else some (writeEnum tPaint (l.getD 0 0) ++ ' ' :: writeEnum tPaint (l.getD 1 0) ++ ' ' :: writeEnum tPaint (l.getD 2 0))

/-! ## `preserveAspectRatio` -/

/-- attribute/uncategorised.rs:90-103. -/
def parseAspect (p : Parser) : Res (Nat × Nat) :=
  (parseEnum tPreserveAspectRatioAlign p).bind fun a p =>
    p.skipWhitespace.bind fun _ p =>
      match p.tryParse (parseEnum tPreserveAspectRatioMeetOrSlice) with
      | .panic => .panic
      | .ok m q => .ok (a, if a = 0 then 0 else m) q
      | .err q => .ok (a, 0) q

/-- attribute/uncategorised.rs:107-117. -/
def writeAspect (v : Nat × Nat) : List Char :=
  writeEnum tPreserveAspectRatioAlign v.1 ++ (if v.2 ≠ 0 then ' ' :: writeEnum tPreserveAspectRatioMeetOrSlice v.2 else [])

/-! ## `font-variant` -/

/-- One round of a loop that fills the first field which is empty and can be parsed; `none` if there is none
(presentation.rs:544-574, 698-719, 829-861, 1172-1192). -/
def fill {β : Type} : List (Parser → Res β) → List (Option β) → Parser → Res (Option (List (Option β)))
  | f :: fs, v :: vs, p =>
    match v with
    | some b => (fill fs vs p).bind fun r q => .ok (r.map (some b :: ·)) q
    | none =>
      match p.tryParse f with
      | .ok b q => .ok (some (some b :: vs)) q
      | .err q => (fill fs vs q).bind fun r q => .ok (r.map (none :: ·)) q
      | .panic => .panic
  | _, _, p => .ok none p

/-- The loop; the fuel is more than the number of fields. -/
def fillAll {β : Type} (skip : Bool) (fs : List (Parser → Res β)) : Nat → List (Option β) → Parser → Res (List (Option β))
  | 0, _, _ => .panic
  | n + 1, vs, p =>
    (if skip then p.skipWhitespace else .ok () p).bind fun _ p =>
      (fill fs vs p).bind fun r q =>
        match r with
        | none => .ok vs q
        | some vs => fillAll skip fs n vs q

/-- presentation.rs:746-781, the fields of `FontVariantLigatures` (:682-688). -/
def ligatures : List Table := [tCommonLigValues, tDiscretionaryLigValues, tHistoricalLigValues, tContextualAltValues]

/-- presentation.rs:1124-1150, the fields of `FontVariantNumeric` (:807-818); a flag is an enum of one keyword. -/
def numeric : List Table :=
  [tNumericFigureValues, tNumericSpacingValues, tNumericFractionValues, tab ["ordinal"], tab ["slashed-zero"]]

/-- presentation.rs:1214-1239, the fields of `FontVariantEastAsian` (:1156-1163). -/
def eastAsian : List Table := [tEastAsianVariantValues, tEastAsianWidthValues, tab ["ruby"]]

/-- The fields of a component of `font-variant`. -/
abbrev Comp := List (Option Nat)

/-- presentation.rs:691-721, 821-864, 1166-1195, `parse` of `FontVariantLigatures`, `FontVariantNumeric` and
`FontVariantEastAsian`. -/
def parseComp (ts : List Table) : Parser → Res Comp :=
  fillAll false (ts.map parseEnum) (ts.length + 1) (ts.map fun _ => none)

/-- A component of one enum. -/
def parseOne (t : Table) (p : Parser) : Res Comp := (parseEnum t p).bind fun i q => .ok [some i] q

/-- presentation.rs:500-519, `FontVariant`: the components in the order of the fields. -/
inductive FontVariant where
  | normal
  | disabled
  | comps (l : List Comp)
deriving DecidableEq

/-- The tables of the components. -/
def groups : List (List Table) := [ligatures, [tFontVariantCaps], numeric, eastAsian, [tFontVariantPosition], [tFontVariantEmoji]]

/-- The parsers that the loop of presentation.rs:542-576 tries, in this order. -/
def compParsers : List (Parser → Res Comp) :=
  [parseComp ligatures, parseOne tFontVariantCaps, parseComp numeric, parseComp eastAsian, parseOne tFontVariantPosition, parseOne tFontVariantEmoji]

/-- `unwrap_or_default` (presentation.rs:577-584). -/
def withDefaults : List (List Table) → List (Option Comp) → List Comp
  | g :: gs, v :: vs => v.getD (g.map fun _ => none) :: withDefaults gs vs
  | _, _ => []

/-- presentation.rs:523-582. -/
def parseFontVariant : Parser → Res FontVariant :=
  orElse
    (fun p => p.expectIdent.bind fun w q =>
      if w = "normal".toList then .ok .normal q else if w = "none".toList then .ok .disabled q else .err q)
    (fun p => (fillAll true compParsers 7 (groups.map fun _ => none) p).bind fun vs q => .ok (.comps (withDefaults groups vs)) q)

/-- presentation.rs:726-743, 868-888, 1198-1212: the keywords of a component are written one behind the other. -/
def writeComp : List Table → Comp → List Char
  | t :: ts, v :: vs => (match v with | none => [] | some i => writeEnum t i) ++ writeComp ts vs
  | _, _ => []

/-- presentation.rs:600-643: what is written after a component when `after` says that there was one before. -/
def writeComps : Bool → List (List Table) → List Comp → List Char
  | after, g :: gs, v :: vs =>
    if v = g.map (fun _ => none) then writeComps after gs vs
    else (if after then [' '] else []) ++ writeComp g v ++ writeComps true gs vs
  | _, _, _ => []

/-- presentation.rs:587-646. -/
def writeFontVariant : FontVariant → List Char
  | .normal => "normal".toList
  | .disabled => "none".toList
  | .comps l => writeComps false groups l

end Verif.Keywords
