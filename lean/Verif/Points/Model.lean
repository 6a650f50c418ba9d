import Verif.Path.FormatModel

/-!
# Model: the attribute `points`

`crates/oxvg_collections/src/attribute/path.rs`, `Points`, on top of the reading and writing of path data (`Verif.Path`).
A number is its text when it is read and a decimal when it is written, as there.
-/

namespace Verif.Points

open Verif.Parse Verif.Path

/-- path.rs:55, `Points`; of the remaining content only whether there is any is kept. -/
structure Value where
  commands : List (Data (List Char))
  whole : Bool
deriving DecidableEq

/-- oxvg_path parser.rs:24-76, `parse_extend` with an implicit start, as path.rs:58-62 calls it: the commands read before
an error are kept, the error is not passed on. At most `fuel` rounds; `none` means that it is still running. -/
def collect (finite : List Char → Bool) : Nat → List (Data (List Char)) → Parser → Option (Res Value)
  | 0, _, _ => none
  | fuel + 1, list, p =>
    if p.len = none then some .panic
    else if p.len = some 0 then some (.ok ⟨list, true⟩ p)
    else match iteration finite true list p with
      | .ok d q => collect finite fuel (list ++ [d]) q
      | .err q => some (.ok ⟨list, false⟩ q)
      | .panic => some .panic

/-- oxvg_parse lib.rs:280-288, `parse_string`, for `Points` (path.rs:57-63). -/
def parseString (finite : List Char → Bool) (fuel : Nat) (text : List Char) : Option (Res Value) :=
  continue' (Parser.new text).skipWhitespace fun _ p =>
  (collect finite fuel [] p).bind fun r =>
  continue' r fun v p => continue' p.skipWhitespace fun _ p => continue' p.expectDone fun _ p => some (.ok v p)

/-- oxvg_path command.rs:526-533, the pieces that are written for a number behind the first two steps. -/
def pieces (raw : List Char) : List (List Char) :=
  if "0.".toList.isPrefixOf raw then [raw.drop 1]
  else if "-0.".toList.isPrefixOf raw then [['-'], raw.drop 2]
  else [raw]

/-- command.rs:521-533. -/
def pointPieces (raw : List Char) : List (List Char) :=
  if raw = "0.".toList ∨ raw = "-0.".toList then [['0']] else pieces (stripSuffix '.' raw)

/-- command.rs:513-534, `short_number_from_buffer`, as the pieces it writes one after the other. -/
def numberPieces (n : Num) : List (List Char) :=
  pointPieces (if (ryu n).contains '.' then stripSuffix '0' (ryu n) else ryu n)

/-- A space that may be written. -/
def spacePiece (b : Bool) : List (List Char) := if b then [[' ']] else []

/-- command.rs:482-500, the arguments after the first. -/
def argPiecesFrom (previous : Num) : List Num → List (List Char)
  | [] => []
  | c :: l => spacePiece (spaceBefore previous c) ++ numberPieces c ++ argPiecesFrom c l

/-- command.rs:478-502, `Args::fmt`. -/
def argPieces : List Num → List (List Char)
  | [] => []
  | c :: l => numberPieces c ++ argPiecesFrom c l

/-- oxvg_path format.rs:28-43, what is written before the arguments of a command; a letter is a piece of its own. -/
def leaderPieces (prev : List Num) (d : Data Num) : List (List Char) :=
  if d.args.isEmpty then [[d.id.letter]]
  else if prev.isEmpty then [[d.id.letter]]
  else if d.isImplicit then spacePiece (isSpaceNeeded d.args prev && d.args.head?.any Num.nonneg)
  else [[d.id.letter]]

/-- format.rs:17-46, the commands after the first. -/
def piecesFrom (prev : List Num) : List (Data Num) → List (List Char)
  | [] => []
  | d :: ds => leaderPieces prev d ++ argPieces d.args ++ piecesFrom d.args ds

/-- format.rs:4-47 and command.rs:293-302, 461-469: the pieces of a path. -/
def pathPieces : List (Data Num) → List (List Char)
  | [] => []
  | [d] => (if d.id.isImplicit then [] else [[d.id.letter]]) ++ argPieces d.args
  | d :: ds => [d.id.letter] :: argPieces d.args ++ piecesFrom d.args ds

/-- path.rs:80-86, `Writer::write_str`. -/
def strip : List Char → List Char
  | [] => []
  | c :: l => if c = 'M' then l else c :: l

/-- path.rs:72-95, `Points::write_value`. -/
def written (l : List (Data Num)) : List Char := ((pathPieces l).map strip).flatten

end Verif.Points
