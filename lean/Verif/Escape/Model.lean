/-!
# Model of escaping in the XML writer

Models `crates/oxvg_ast/src/xmlwriter.rs` lines 386-411 (`write_escaped`).

The Rust code works on the UTF-8 bytes of the string. All bytes it looks for are ASCII and the bytes of
multi-byte characters are all ≥ 0x80, so it is modelled on any list of code units `Nat` (the theorems
hold for bytes and for characters alike). The writer is the list of code units written so far; IO errors
are not modelled.
-/

namespace Verif.Escape

abbrev Str := List Nat

/-- `'&'` -/ def amp : Nat := 38
/-- `'<'` -/ def lt : Nat := 60
/-- `'>'` -/ def gt : Nat := 62
/-- `'"'` -/ def quot : Nat := 34
/-- `'\''` -/ def apos : Nat := 39

/-- The code units of a string literal. -/
def lit (s : String) : Str := s.toList.map Char.toNat

/-- The `match byte` of lines 389-396. -/
def escapedChar (escapeQuotes useSingleQuote : Bool) (b : Nat) : Option Str :=
  if b = amp then some [38, 97, 109, 112, 59]                    -- &amp;
  else if b = gt then some [38, 103, 116, 59]                     -- &gt;
  else if b = lt then some [38, 108, 116, 59]                     -- &lt;
  else if b = quot ∧ escapeQuotes ∧ ¬ useSingleQuote then some [38, 113, 117, 111, 116, 59] -- &quot;
  else if b = apos ∧ escapeQuotes ∧ useSingleQuote then some [38, 97, 112, 111, 115, 59]    -- &apos;
  else none

/-- The loop of lines 387-408 over the remaining bytes: `pos` is `byte_pos`, `start` is
`part_start_pos`, `out` what the writer has received. -/
def loop (eq sq : Bool) (s : Str) : List Nat → Nat → Nat → Str → Nat × Str
  | [], _, start, out => (start, out)
  | b :: bs, pos, start, out =>
    match escapedChar eq sq b with
    | some e => loop eq sq s bs (pos + 1) (pos + 1) (out ++ (s.drop start).take (pos - start) ++ e)
    | none => loop eq sq s bs (pos + 1) start out

/-- `write_escaped` (lines 386-411): appends the escaped string to what was written. -/
def writeEscaped (escapeQuotes useSingleQuote : Bool) (s : Str) (out : Str) : Str :=
  let r := loop escapeQuotes useSingleQuote s s 0 0 out
  r.2 ++ s.drop r.1

end Verif.Escape
