import Verif.Xml.Model
import Verif.Escape.Props

/-!
# Vocabulary: reading a document

A reader for the part of XML 1.0 that the writer uses: elements, attributes in either kind of quotes, character
data with the predefined entities, comments and processing instructions. White space in attribute values and line
ends are normalised as sections 2.11 and 3.3.3 demand. Numbers in brackets are the productions of the
recommendation.
-/

namespace Verif.Xml

/-- [3] `S`. -/
def isS (n : Nat) : Bool := n == 32 || n == 9 || n == 10 || n == 13

/-- [2] `Char`. -/
def isChar (n : Nat) : Bool :=
  n == 9 || n == 10 || n == 13 || (0x20 ≤ n && n ≤ 0xD7FF) || (0xE000 ≤ n && n ≤ 0xFFFD) || (0x10000 ≤ n && n ≤ 0x10FFFF)

/-- [4] `NameStartChar`. -/
def isNameStart (n : Nat) : Bool :=
  n == 58 || (65 ≤ n && n ≤ 90) || n == 95 || (97 ≤ n && n ≤ 122) || (0xC0 ≤ n && n ≤ 0xD6) || (0xD8 ≤ n && n ≤ 0xF6) ||
    (0xF8 ≤ n && n ≤ 0x2FF) || (0x370 ≤ n && n ≤ 0x37D) || (0x37F ≤ n && n ≤ 0x1FFF) || (0x200C ≤ n && n ≤ 0x200D) ||
    (0x2070 ≤ n && n ≤ 0x218F) || (0x2C00 ≤ n && n ≤ 0x2FEF) || (0x3001 ≤ n && n ≤ 0xD7FF) ||
    (0xF900 ≤ n && n ≤ 0xFDCF) || (0xFDF0 ≤ n && n ≤ 0xFFFD) || (0x10000 ≤ n && n ≤ 0xEFFFF)

/-- [4a] `NameChar`. -/
def isNameChar (n : Nat) : Bool :=
  isNameStart n || n == 45 || n == 46 || (48 ≤ n && n ≤ 57) || n == 0xB7 || (0x300 ≤ n && n ≤ 0x36F) ||
    (0x203F ≤ n && n ≤ 0x2040)

/-- [5] `Name`. -/
def isName (s : Str) : Bool := (s.head?.map isNameStart).getD false && s.all isNameChar

/-- The nodes a reader makes: names and attributes as text. -/
abbrev Doc := XNode Str (Str × Str)

/-- 2.11, line ends: `\r\n` and `\r` alone become `\n`. -/
def lineEnds : Str → Str
  | 13 :: 10 :: s => 10 :: lineEnds s
  | 13 :: s => 10 :: lineEnds s
  | c :: s => c :: lineEnds s
  | [] => []

/-- 3.3.3, for the characters of an attribute value that are not written as references. -/
def blankOut (n : Nat) : Nat := if isS n then 32 else n

/-- Whether `]]>` occurs. -/
def cdEnd : Str → Bool
  | 93 :: 93 :: 62 :: _ => true
  | _ :: s => cdEnd s
  | [] => false

/-- The characters up to the given one, and those after it. -/
def upTo (q : Nat) : Str → Option (Str × Str)
  | [] => none
  | c :: s => if c = q then some ([], s) else (upTo q s).map fun r => (c :: r.1, r.2)

/-- A name and what follows. -/
def readName (s : Str) : Option (Str × Str) :=
  if isName (s.takeWhile isNameChar) then some (s.takeWhile isNameChar, s.dropWhile isNameChar) else none

/-- [10] `AttValue` with one kind of quotes. -/
def readValue (s : Str) : Option (Str × Str) :=
  match s with
  | [] => none
  | q :: s =>
    if q = 34 || q = 39 then
      match upTo q s with
      | none => none
      | some (v, r) =>
        if v.all isChar then
          match Escape.decode ((lineEnds v).map blankOut) with
          | none => none
          | some v => some (v, r)
        else none
    else none

/-- [41] `Attribute`, after white space. -/
def readAttribute (s : Str) : Option ((Str × Str) × Str) :=
  match readName s with
  | none => none
  | some (n, r) =>
    match r.dropWhile isS with
    | 61 :: r =>
      match readValue (r.dropWhile isS) with
      | none => none
      | some (v, r) => some ((n, v), r)
    | _ => none

/-- `(S Attribute)* S?` in [40] and [44]: `c :: r` is what follows the white space, `spaced` says that there was
some, `next` reads the remaining attributes. -/
def attributesStep (next : Str → Option (List (Str × Str) × Str)) (spaced : Bool) : Str → Option (List (Str × Str) × Str)
  | [] => some ([], [])
  | c :: r =>
    if c == 62 || c == 47 then some ([], c :: r)
    else if !spaced then none
    else (readAttribute (c :: r)).bind fun x => (next x.2).bind fun y => some (x.1 :: y.1, y.2)

/-- The attributes of an element. The first argument bounds the number of steps. -/
def readAttributes : Nat → Str → Option (List (Str × Str) × Str)
  | 0, _ => none
  | f + 1, s => attributesStep (fun r => readAttributes f r) ((s.head?.map isS).getD false) (s.dropWhile isS)

/-- Whether no name occurs twice. -/
def distinctNames : List (Str × Str) → Bool
  | [] => true
  | a :: as => as.all (fun b => b.1 != a.1) && distinctNames as

/-- The inside of a comment ([15]) after `<!--`: up to `--`, which must be followed by `>`. -/
def readComment : Str → Option (Str × Str)
  | 45 :: 45 :: 62 :: s => some ([], s)
  | 45 :: 45 :: _ => none
  | c :: s => (readComment s).map fun r => (c :: r.1, r.2)
  | [] => none

/-- The characters up to `?>`. -/
def upToPi : Str → Option (Str × Str)
  | 63 :: 62 :: s => some ([], s)
  | c :: s => (upToPi s).map fun r => (c :: r.1, r.2)
  | [] => none

/-- Whether the target is `xml` in any case, which is reserved. -/
def isXmlTarget (s : Str) : Bool := s.map (fun c => if 65 ≤ c && c ≤ 90 then c + 32 else c) == [120, 109, 108]

/-- The value of a processing instruction from what stands after the target. -/
def piValue (s : Str) : Option (Option Str) :=
  match s with
  | [] => some none
  | c :: r => if isS c then
      (if (r.dropWhile isS).isEmpty then some none else some (some (lineEnds (r.dropWhile isS)))) else none

/-- [16] `PI`, after `<?`. -/
def readPi (s : Str) : Option (Doc × Str) :=
  match readName s with
  | none => none
  | some (t, r) =>
    if isXmlTarget t then none
    else match upToPi r with
      | none => none
      | some (d, r) =>
        if d.all isChar then
          match piValue d with
          | none => none
          | some d => some (.pi t d, r)
        else none

/-- Character data ([14] and references). -/
def readText (s : Str) : Option Doc :=
  if s.all isChar && !cdEnd s then (Escape.decode (lineEnds s)).map .text else none

/-- `>` and what follows. -/
def readClose : Str → Option Str
  | 62 :: r => some r
  | _ => none

/-- [42] `ETag` for the given name. -/
def readEnd (n : Str) : Str → Option Str
  | 60 :: 47 :: s => (readName s).bind fun x => if x.1 == n then readClose (x.2.dropWhile isS) else none
  | _ => none

/-- A reader of nodes up to the end or to the next end tag. -/
abbrev Reader := Str → Option (List Doc × Str)

/-- After a comment, a processing instruction, a text or an element comes more content. -/
def andThen (next : Reader) (n : Doc) (s : Str) : Option (List Doc × Str) := (next s).map fun x => (n :: x.1, x.2)

/-- [15] `Comment`, after `<!--`. -/
def commentStep (next : Reader) (s : Str) : Option (List Doc × Str) :=
  (readComment s).bind fun x => if x.1.all isChar then andThen next (.comment (lineEnds x.1)) x.2 else none

/-- [39] `element` after the name and the attributes. -/
def bodyStep (next : Reader) (n : Str) (as : List (Str × Str)) : Str → Option (List Doc × Str)
  | 47 :: 62 :: r => andThen next (.elem n as []) r
  | 62 :: r => (next r).bind fun x => (readEnd n x.2).bind fun r => andThen next (.elem n as x.1) r
  | _ => none

/-- [39] `element`, after `<`. -/
def elementStep (next : Reader) (attrs : Str → Option (List (Str × Str) × Str)) (s : Str) : Option (List Doc × Str) :=
  (readName s).bind fun x => (attrs x.2).bind fun y => if distinctNames y.1 then bodyStep next x.1 y.1 y.2 else none

/-- What may follow `<`. -/
def tagStep (next : Reader) (attrs : Str → Option (List (Str × Str) × Str)) : Str → Option (List Doc × Str)
  | 47 :: s => some ([], 60 :: 47 :: s)
  | 33 :: 45 :: 45 :: s => commentStep next s
  | 63 :: s => (readPi s).bind fun x => andThen next x.1 x.2
  | s => elementStep next attrs s

/-- Text up to the next `<`. -/
def textStep (next : Reader) (s : Str) : Option (List Doc × Str) :=
  (readText (s.takeWhile (· != 60))).bind fun t => andThen next t (s.dropWhile (· != 60))

/-- [43] `content`, one step. -/
def contentStep (next : Reader) (attrs : Str → Option (List (Str × Str) × Str)) : Str → Option (List Doc × Str)
  | [] => some ([], [])
  | c :: s => if c == 60 then tagStep next attrs s else textStep next (c :: s)

/-- [43] `content` (up to the end or to the next end tag) with [39] `element`. The first argument bounds the number
of steps. -/
def readContent : Nat → Str → Option (List Doc × Str)
  | 0, _ => none
  | f + 1, s => contentStep (fun r => readContent f r) (fun r => readAttributes f r) s

/-- At the top level of a document: white space. -/
def XNode.isSpace {E A : Type} : XNode E A → Bool
  | .text s => s.all isS
  | _ => false

/-- Whether the node is an element. -/
def XNode.isElem {E A : Type} : XNode E A → Bool
  | .elem _ _ _ => true
  | _ => false

/-- [1] `document`: exactly one element, no text but white space, which is not reported. -/
def read (s : Str) : Option (List Doc) :=
  match readContent (s.length + 1) s with
  | some (ns, []) =>
    if ((ns.filter XNode.isElem).length == 1) && ns.all (fun n => n.isSpace || !n.isText) then
      some (ns.filter fun n => !n.isText) else none
  | _ => none

end Verif.Xml
