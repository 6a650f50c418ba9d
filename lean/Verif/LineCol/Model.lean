/-!
# Model of source positions

Models `crates/oxvg_ast/src/node.rs` lines 61-73 (`Ranges::to_line_and_col`). Bytes are `Nat`.
-/

namespace Verif.LineCol

/-- `slice.iter().rposition(|c| c == b'\n')`: index of the last line feed. -/
def rposition (l : List Nat) : Option Nat :=
  (l.reverse.findIdx? (· == 10)).map fun i => l.length - 1 - i

/-- `to_line_and_col` (lines 64-72); `none` models the panic of `source[..cursor]` for an offset past
the end. -/
def toLineAndCol (cursor : Nat) (source : List Nat) : Option (Nat × Nat) :=
  if source.length < cursor then none
  else
    let lineStart := match rposition (source.take cursor) with
      | some i => i + 1
      | none => 0
    let lineNumber := (source.take lineStart).count 10
    some (lineNumber, cursor - lineStart)

end Verif.LineCol
