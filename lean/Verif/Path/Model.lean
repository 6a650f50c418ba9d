import Verif.Number.Model

/-!
# Model: path data, read and written

`crates/oxvg_path/src/parser.rs`, `crates/oxvg_path/src/format.rs`, `crates/oxvg_path/src/paths/svg/command.rs`. The
argument arrays of a command are lists here. While reading, a number is its text (see `Verif.Number`). `ID::None` is
left out: nothing modelled makes it.
-/

namespace Verif.Path

open Verif.Parse Verif.Number

/-- command.rs:14-57 and 61-107, the commands without `Implicit` and `None`. -/
inductive Kind where
  | moveTo | moveBy | closePath | lineTo | lineBy | horizontalTo | horizontalBy | verticalTo | verticalBy
  | cubicTo | cubicBy | smoothTo | smoothBy | quadTo | quadBy | smoothQuadTo | smoothQuadBy | arcTo | arcBy
deriving DecidableEq

/-- command.rs:61-107, `ID`. -/
inductive ID where
  | plain (k : Kind)
  | implicit (i : ID)
deriving DecidableEq

/-- command.rs:14-57, `Data`. -/
inductive Data (N : Type) where
  | plain (k : Kind) (args : List N)
  | implicit (d : Data N)
deriving DecidableEq

variable {N : Type}

/-- command.rs:121-144, `Data::id`. -/
def Data.id : Data N → ID
  | .plain k _ => .plain k
  | .implicit d => .implicit d.id

/-- command.rs:147-171, `Data::args`; the empty list stands for `None`. -/
def Data.args : Data N → List N
  | .plain _ a => a
  | .implicit d => d.args

/-- command.rs:223-225, `Data::is_implicit`. -/
def Data.isImplicit : Data N → Bool
  | .plain _ _ => false
  | .implicit _ => true

/-- command.rs:228-233, `Data::as_explicit`. -/
def Data.asExplicit : Data N → Data N
  | .plain k a => .plain k a
  | .implicit d => d.asExplicit

/-- command.rs:374-376, `ID::is_implicit`. -/
def ID.isImplicit : ID → Bool
  | .plain _ => false
  | .implicit _ => true

/-- command.rs:388-395, the cases of `ID::next_implicit` that are not `Implicit`. -/
def Kind.nextImplicit : Kind → Kind
  | .moveTo => .lineTo
  | .moveBy => .lineBy
  | k => k

/-- command.rs:388-395, `ID::next_implicit`. -/
def ID.nextImplicit : ID → ID
  | .plain k => .plain k.nextImplicit
  | .implicit i => i.nextImplicit

/-- command.rs:427-453, `From<&ID> for char`. -/
def Kind.letter : Kind → Char
  | .moveTo => 'M' | .moveBy => 'm' | .closePath => 'Z' | .lineTo => 'L' | .lineBy => 'l'
  | .horizontalTo => 'H' | .horizontalBy => 'h' | .verticalTo => 'V' | .verticalBy => 'v'
  | .cubicTo => 'C' | .cubicBy => 'c' | .smoothTo => 'S' | .smoothBy => 's' | .quadTo => 'Q' | .quadBy => 'q'
  | .smoothQuadTo => 'T' | .smoothQuadBy => 't' | .arcTo => 'A' | .arcBy => 'a'

/-- command.rs:427-453, `From<&ID> for char`. -/
def ID.letter : ID → Char
  | .plain k => k.letter
  | .implicit _ => ' '

/-- parser.rs:83-104, the table of `ID::parse`. -/
def ofLetter (c : Char) : Option Kind :=
  if c = 'M' then some .moveTo else if c = 'm' then some .moveBy
  else if c = 'L' then some .lineTo else if c = 'l' then some .lineBy
  else if c = 'H' then some .horizontalTo else if c = 'h' then some .horizontalBy
  else if c = 'V' then some .verticalTo else if c = 'v' then some .verticalBy
  else if c = 'C' then some .cubicTo else if c = 'c' then some .cubicBy
  else if c = 'S' then some .smoothTo else if c = 's' then some .smoothBy
  else if c = 'Q' then some .quadTo else if c = 'q' then some .quadBy
  else if c = 'T' then some .smoothQuadTo else if c = 't' then some .smoothQuadBy
  else if c = 'A' then some .arcTo else if c = 'a' then some .arcBy
  else if c = 'Z' ∨ c = 'z' then some .closePath else none

/-- parser.rs:83-104, the match of `ID::parse`. -/
def idOf (c : Char) (p : Parser) : Res ID :=
  match ofLetter c with
  | some k => .ok (.plain k) p
  | none => .err p

/-- parser.rs:80-105, `ID::parse`. -/
def parseID (p : Parser) : Res ID := p.read.bind idOf

/-- White space, commas, white space: parser.rs:112-114, 121-123. -/
def skipSep (p : Parser) : Res Unit :=
  p.skipWhitespace.bind fun _ p => (p.skipChar ',').bind fun _ p => p.skipWhitespace

/-- parser.rs:108-116, `parse_number`. -/
def parseNumber (finite : List Char → Bool) (p : Parser) : Res (List Char) :=
  (parseF64 finite p).bind fun t p => (skipSep p).bind fun _ p => .ok t p

/-- parser.rs:117-129, `parse_flag`; the value 0.0 or 1.0 is represented by its text. -/
def parseFlag (p : Parser) : Res (List Char) :=
  p.read.bind fun c p => (skipSep p).bind fun _ p => if c = '0' ∨ c = '1' then .ok [c] p else .err p

/-- The arguments that `Data::parse` (parser.rs:132-200) reads for a command: `true` for a flag. -/
def Kind.shape : Kind → List Bool
  | .closePath => []
  | .horizontalTo | .horizontalBy | .verticalTo | .verticalBy => [false]
  | .lineTo | .lineBy | .moveTo | .moveBy | .smoothQuadTo | .smoothQuadBy => [false, false]
  | .smoothTo | .smoothBy | .quadTo | .quadBy => [false, false, false, false]
  | .cubicTo | .cubicBy => [false, false, false, false, false, false]
  | .arcTo | .arcBy => [false, false, false, true, true, false, false]

/-- One argument. -/
def parseArg (finite : List Char → Bool) (flag : Bool) (p : Parser) : Res (List Char) :=
  if flag then parseFlag p else parseNumber finite p

/-- parser.rs:147-199: the arguments one after the other. -/
def parseArgs (finite : List Char → Bool) : List Bool → Parser → Res (List (List Char))
  | [], p => .ok [] p
  | f :: l, p => (parseArg finite f p).bind fun t p => (parseArgs finite l p).bind fun ts p => .ok (t :: ts) p

/-- parser.rs:132-200, `Data::parse`. -/
def parseData (finite : List Char → Bool) : ID → Parser → Res (Data (List Char))
  | .plain k, p => (parseArgs finite k.shape p).bind fun a p => .ok (.plain k a) p
  | .implicit i, p => (parseData finite i p).bind fun d p => .ok (.implicit d) p

/-- parser.rs:32-36. -/
def separators (first : Bool) (p : Parser) : Res Unit :=
  if first then p.skipWhitespace else skipSep p

/-- An error of `parse_extend` takes the remaining content (`take_slice`). -/
def failed {α : Type} (p : Parser) : Res α :=
  match p.slice with
  | none => .panic
  | some _ => .err p.finish

/-- parser.rs:39-47, the command when no letter was read. -/
def implied (allow : Bool) (last : Option ID) : Option ID :=
  match last with
  | some i => some (.implicit i.nextImplicit)
  | none => if allow then some (.plain .moveTo) else none

/-- parser.rs:52-64, the command after the comparison with the one before; `none` is the error. -/
def adjust (last : Option ID) (i : ID) : Option ID :=
  match last with
  | some l => some (if !i.isImplicit && l.nextImplicit == i then .implicit i else i)
  | none => if i = .plain .moveBy ∨ i = .plain .moveTo then some i else none

/-- parser.rs:66-73: the arguments of the command. -/
def finishCommand (finite : List Char → Bool) (i : Option ID) (p : Parser) : Res (Data (List Char)) :=
  match i with
  | none => failed p
  | some i => match p.tryParse (parseData finite i) with
    | .ok d q => .ok d q
    | .err q => failed q
    | .panic => .panic

/-- parser.rs:37-73: one command. -/
def command (finite : List Char → Bool) (allow : Bool) (last : Option ID) (p : Parser) : Res (Data (List Char)) :=
  match p.tryParse parseID with
  | .ok i q => finishCommand finite (adjust last i) q
  | .err q => match implied allow last with
    | none => failed q
    | some i => finishCommand finite (adjust last i) q
  | .panic => .panic

/-- parser.rs:31-74, the body of the loop. -/
def iteration (finite : List Char → Bool) (allow : Bool) (list : List (Data (List Char))) (p : Parser) :
    Res (Data (List Char)) :=
  (separators list.isEmpty p).bind fun _ p => command finite allow (list.getLast?.map Data.id) p

/-- What a loop does after its body. -/
def continue' {α β : Type} (r : Res α) (f : α → Parser → Option (Res β)) : Option (Res β) :=
  match r with
  | .ok a q => f a q
  | .err q => some (.err q)
  | .panic => some .panic

/-- parser.rs:24-76, `parse_extend`, in at most `fuel` rounds; `none` means that it is still running. -/
def parseExtend (finite : List Char → Bool) (allow : Bool) : Nat → List (Data (List Char)) → Parser →
    Option (Res (List (Data (List Char))))
  | 0, _, _ => none
  | fuel + 1, list, p =>
    if p.len = none then some .panic
    else if p.len = some 0 then some (.ok list p)
    else continue' (iteration finite allow list p) fun d q => parseExtend finite allow fuel (list ++ [d]) q

/-- oxvg_parse lib.rs:280-288, `parse_string`, for `Path` (parser.rs:9-16). -/
def parseString (finite : List Char → Bool) (fuel : Nat) (text : List Char) : Option (Res (List (Data (List Char)))) :=
  continue' (Parser.new text).skipWhitespace fun _ p =>
  (parseExtend finite false fuel [] p).bind fun r =>
  continue' r fun l p => continue' p.skipWhitespace fun _ p => continue' p.expectDone fun _ p => some (.ok l p)

end Verif.Path
