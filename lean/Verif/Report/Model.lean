import Verif.LineCol.Model

/-!
# Model: the excerpt of the source that goes with a report

`crates/oxvg_lint/src/error.rs` (`display_context`) and `crates/oxvg_lint/src/utils.rs` (`naive_range`).

Bytes are `Nat`. Of the text that is written, what depends on the source is kept: the number of the line, the column,
the lines shown, and how many blanks and dashes the line below has. The colours, the frame and the width of the
numbers are left out. That the lines are valid UTF-8 (error.rs:185-200) is left out: the source is a `str` and is cut at
line feeds.
-/

namespace Verif.Report

open Verif.LineCol (rposition)

/-- `is_ascii_whitespace`. -/
def white (c : Nat) : Bool := c == 32 || c == 9 || c == 10 || c == 12 || c == 13

/-- utils.rs:22-27, on the source from `start` on: `start` is advanced before the byte is looked at; `none` is the
panic of `source[start]` past the end. -/
def skip : List Nat → Nat → Option Nat
  | [], n => some n
  | [_], _ => none
  | _ :: c :: r, n => if !white c && c != 60 then some (n + 1) else skip (c :: r) (n + 1)

/-- utils.rs:28-34. -/
def stop : List Nat → Nat → Nat
  | [], n => n
  | c :: r, n => if white c || c == 62 then n else stop r (n + 1)

/-- utils.rs:21-36, `naive_range`. -/
def naiveRange (source : List Nat) (start : Nat) : Option (Nat × Nat) :=
  (skip (source.drop start) start).map fun s => (s, stop (source.drop s) s)

/-- What is shown. -/
structure Shown where
  number : Nat
  column : Nat
  before : List Nat
  line : List Nat
  after : List Nat
  blanks : Nat
  dashes : Nat
  deriving DecidableEq, Repr

/-- error.rs:176-179. -/
def lineStart (source : List Nat) (start : Nat) : Nat :=
  match rposition (source.take start) with
  | some i => i + 1
  | none => 0

/-- error.rs:180-183. -/
def lineEnd (source : List Nat) (ls : Nat) : Nat :=
  match (source.drop ls).findIdx? (· == 10) with
  | some i => i + ls
  | none => source.length

/-- `rsplit(|c| c == '\n').next()`. -/
def lastLine (l : List Nat) : List Nat :=
  match rposition l with
  | some i => l.drop (i + 1)
  | none => l

/-- `split(|c| c == '\n').next()`. -/
def firstLine (l : List Nat) : List Nat :=
  match l.findIdx? (· == 10) with
  | some i => l.take i
  | none => l

/-- error.rs:176-233 for a range. The line has no line feed, so the loop over `lines.split('\n')` shows one line, and
the first branch of 221-228 is not taken. `none` is the panic of `source_bytes[..range.start]`. -/
def context (source : List Nat) (range : Nat × Nat) : Option Shown :=
  if source.length < range.1 then none
  else
    let ls := lineStart source range.1
    let le := lineEnd source ls
    some {
      number := (source.take range.1).count 10 + 1
      column := range.1 - ls
      before := lastLine (source.take (ls - 1))
      line := (source.drop ls).take (le - ls)
      after := firstLine (source.drop (min source.length (le + 1)))
      blanks := range.1 - ls
      dashes := range.2 - range.1 }

/-- error.rs:169-175: a report without a range shows nothing (`some none`); an empty range is widened first. -/
def display (source : List Nat) : Option (Nat × Nat) → Option (Option Shown)
  | none => some none
  | some r =>
    if r.1 = r.2 then
      match naiveRange source r.1 with
      | some r => (context source r).map some
      | none => none
    else (context source r).map some

end Verif.Report
