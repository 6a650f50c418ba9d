import Verif.Path.FormatModel

/-!
# Model: lists of values

`crates/oxvg_collections/src/attribute/list_of.rs`. The parser of a single value is a parameter.
-/

namespace Verif.ListOf

open Verif.Parse

variable {α : Type}

/-- list_of.rs:9-33, the separators. -/
inductive Sep where
  | space | comma | spaceOrComma | semicolon
deriving DecidableEq

/-- list_of.rs:72-74, 96-98, 128-130, 152-154, `matches`. -/
def Sep.matches : Sep → Char → Bool
  | .space, c => isWhitespace c
  | .comma, c => c == ','
  | .spaceOrComma, c => isWhitespace c || c == ','
  | .semicolon, c => c == ';'

/-- list_of.rs:47, 87-89, 143-145, `maybe_skip_whitespace`. -/
def Sep.maybeSkip : Sep → Parser → Res Unit
  | .comma, p => p.skipWhitespace
  | .semicolon, p => p.skipWhitespace
  | _, p => .ok () p

/-- list_of.rs:57-61, `Separator::parse`. -/
def parseMatching (s : Sep) (p : Parser) : Res Unit := (p.expectMatches fun c => .ok (s.matches c)).bind fun _ p => .ok () p

/-- list_of.rs:119-121. -/
def afterSpace (p : Parser) : Res Unit :=
  p.skipWhitespace.bind fun _ p => (p.skipChar ',').bind fun _ p => p.skipWhitespace

/-- list_of.rs:117-127, `SpaceOrComma::parse`. -/
def parseSpaceOrComma (p : Parser) : Res Unit :=
  match p.tryParse Parser.expectWhitespace with
  | .ok _ q => afterSpace q
  | .err q => (parseMatching .comma q).bind fun _ q => q.skipWhitespace
  | .panic => .panic

def Sep.parse : Sep → Parser → Res Unit
  | .spaceOrComma, p => parseSpaceOrComma p
  | s, p => parseMatching s p

/-- What `write_value` writes for a separator (list_of.rs:77-84, 101-108, 133-140, 157-164). -/
def Sep.text : Sep → Char
  | .space => ' '
  | .comma => ','
  | .spaceOrComma => ' '
  | .semicolon => ';'

/-- list_of.rs:263-271: the text behind an item in quotes, when `n` quotes were seen. -/
def dropQuoted (quote : Char) : Nat → List Char → List Char
  | _, [] => []
  | n, c :: l => if n < 2 then dropQuoted quote (if c = quote then n + 1 else n) l else c :: l

/-- list_of.rs:262-279, 303-307: the text behind an item. -/
def itemRest (s : Sep) (l : List Char) : List Char :=
  if l.head? = some '"' then dropQuoted '"' 0 l
  else if l.head? = some '\'' then dropQuoted '\'' 0 l
  else l.dropWhile fun c => !s.matches c

/-- list_of.rs:262-275, `take_matches`. -/
def takeItem (s : Sep) (p : Parser) : Res (List Char) :=
  match p.slice with
  | none => .panic
  | some l => (p.skipInternal (width (itemRest s l))).bind fun _ q => q.giveFrom p.cursor

/-- oxvg_parse lib.rs:280-288, `parse_string`. -/
def parseString (T : Parser → Res α) (text : List Char) : Res α :=
  (Parser.new text).skipWhitespace.bind fun _ p => (T p).bind fun a p => p.skipWhitespace.bind fun _ p =>
    p.expectDone.bind fun _ p => .ok a p

/-- The result of an inner parser, with the outer parser. -/
def within (r : Res α) (p : Parser) : Res α :=
  match r with
  | .ok a _ => .ok a p
  | .err _ => .err p
  | .panic => .panic

/-- `if input.is_empty()`; the overflow is a panic. -/
def ifEmpty {β : Type} (p : Parser) (yes no : Res β) : Res β :=
  match p.len with
  | none => .panic
  | some 0 => yes
  | some _ => no

/-- list_of.rs:306-308: the next item. -/
def nextItem (T : Parser → Res α) (s : Sep) (list : List α) (q : Parser) : Res (List α) :=
  (takeItem s q).bind fun t q => (within (parseString T t) q).bind fun a q => (s.maybeSkip q).bind fun _ q => .ok (list ++ [a]) q

/-- The end of a round: go on. -/
def andThen {β : Type} (r : Res (List α)) (f : List α → Parser → Res β) : Res β :=
  match r with
  | .ok a q => f a q
  | .err q => .err q
  | .panic => .panic

/-- list_of.rs:292-309, the loop; `fuel` bounds the rounds (`rounds_enough` shows that the bound chosen is never reached). -/
def rounds (T : Parser → Res α) (s : Sep) : Nat → List α → Parser → Res (List α)
  | 0, _, _ => .panic
  | fuel + 1, list, p =>
    match s.parse p with
    | .panic => .panic
    | .err q => .ok list q
    | .ok _ q => (s.maybeSkip q).bind fun _ q =>
      ifEmpty q (.ok list { q with cursor := p.cursor }) (andThen (nextItem T s list q) (rounds T s fuel))

/-- list_of.rs:281-291: the first item. -/
def firstItem (T : Parser → Res α) (s : Sep) (r : Res α) (q : Parser) : Res (List α) :=
  match r with
  | .panic => .panic
  | .ok a e => ifEmpty e (rounds T s (width q.input + 1) [a] q) (.err q)
  | .err e => ifEmpty e (.ok [] q) (.err q)

/-- list_of.rs:260-314, `ListOf::parse`. -/
def parseList (T : Parser → Res α) (s : Sep) (p : Parser) : Res (List α) :=
  (takeItem s p).bind fun t q => firstItem T s (T (Parser.new t)) q

/-- list_of.rs:339-352, `write_value`; `w` writes a value. -/
def write (w : α → List Char) (s : Sep) : List α → List Char
  | [] => []
  | a :: l => w a ++ l.flatMap fun b => s.text :: w b

/-- Rust's `Display` for integers. -/
def intText (v : Int) : List Char := if v < 0 then '-' :: Verif.Path.natText v.natAbs else Verif.Path.natText v.natAbs

end Verif.ListOf
