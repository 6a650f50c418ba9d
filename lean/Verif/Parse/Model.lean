/-!
# Model: the cursor parser

`crates/oxvg_parse/src/lib.rs`. The input is a list of characters; positions are byte offsets of its UTF-8 form, as
in the code. Taking a string slice at an offset that is outside of the input or inside of a character panics;
so does a subtraction below zero (in the code it panics with overflow checks and wraps around without). Error
values carry no data here.
-/

namespace Verif.Parse

/-- lib.rs:9-12, `Parser`. -/
structure Parser where
  input : List Char
  cursor : Nat
deriving DecidableEq

/-- What a parser operation leads to: a value, an error (both with the parser afterwards), or a panic. -/
inductive Res (α : Type) where
  | ok (a : α) (p : Parser)
  | err (p : Parser)
  | panic
deriving DecidableEq

def Res.bind {α β : Type} (r : Res α) (f : α → Parser → Res β) : Res β :=
  match r with
  | .ok a p => f a p
  | .err p => .err p
  | .panic => .panic

/-- Number of bytes of a string. -/
def width (l : List Char) : Nat := (l.map Char.utf8Size).sum

/-- `&s[n..]`; `none` is the panic. -/
def dropBytes : Nat → List Char → Option (List Char)
  | 0, l => some l
  | _ + 1, [] => none
  | n + 1, c :: l => if n + 1 < c.utf8Size then none else dropBytes (n + 1 - c.utf8Size) l
termination_by _ l => l.length

/-- `&s[..n]`; `none` is the panic. -/
def takeBytes : Nat → List Char → Option (List Char)
  | 0, _ => some []
  | _ + 1, [] => none
  | n + 1, c :: l => if n + 1 < c.utf8Size then none else (takeBytes (n + 1 - c.utf8Size) l).map (c :: ·)
termination_by _ l => l.length

/-- Rust's `char::is_whitespace`: the Unicode property `White_Space`. -/
def isWhitespace (c : Char) : Bool :=
  let n := c.toNat
  (9 ≤ n && n ≤ 13) || n == 0x20 || n == 0x85 || n == 0xA0 || n == 0x1680 || (0x2000 ≤ n && n ≤ 0x200A) ||
    n == 0x2028 || n == 0x2029 || n == 0x202F || n == 0x205F || n == 0x3000

/-- Rust's `str::trim_matches(char)`. -/
def trimMatches (c : Char) (l : List Char) : List Char :=
  ((l.dropWhile (· == c)).reverse.dropWhile (· == c)).reverse

/-- lib.rs:258-261, `is_name_start_char`; note the half-open range before U+00D6. -/
def isNameStartChar (c : Char) : Bool :=
  let n := c.toNat
  c.isAlpha || c == ':' || c == '_' || (0xC0 ≤ n && n < 0xD6) || (0xD8 ≤ n && n ≤ 0xF6) || (0xF8 ≤ n && n ≤ 0x2FF) ||
    (0x370 ≤ n && n ≤ 0x37D) || (0x37F ≤ n && n ≤ 0x1FFF) || (0x200C ≤ n && n ≤ 0x200D) || (0x2070 ≤ n && n ≤ 0x218F) ||
    (0x2C00 ≤ n && n ≤ 0x2FEF) || (0x3001 ≤ n && n ≤ 0xD7FF) || (0xF900 ≤ n && n ≤ 0xFDCF) ||
    (0xFDF0 ≤ n && n ≤ 0xFFFD) || (0x10000 ≤ n && n ≤ 0xEFFFF)

/-- lib.rs:262-266, `is_name_char`. -/
def isNameChar (c : Char) : Bool :=
  let n := c.toNat
  isNameStartChar c || c.isDigit || c == '-' || c == '.' || n == 0xB7 || (0x300 ≤ n && n ≤ 0x36F) ||
    (0x203F ≤ n && n ≤ 0x2040)

namespace Parser

/-- lib.rs:16-18. -/
def new (input : List Char) : Parser := ⟨input, 0⟩

/-- lib.rs:71-73. -/
def slice (p : Parser) : Option (List Char) := dropBytes p.cursor p.input

/-- lib.rs:89-91; `none` is the overflow. -/
def len (p : Parser) : Option Nat := if p.cursor ≤ width p.input then some (width p.input - p.cursor) else none

/-- lib.rs:83-86. -/
def sliceFrom (p : Parser) (start : Nat) : Option (List Char) :=
  let fin := min p.cursor (width p.input)
  if start ≤ fin then (dropBytes start p.input).bind (takeBytes (fin - start)) else none

/-- lib.rs:42-44. -/
def advance (p : Parser) : Parser := { p with cursor := p.cursor + 1 }

/-- lib.rs:47-49. -/
def rewind (p : Parser) (n : Nat) : Res Unit := if n ≤ p.cursor then .ok () { p with cursor := p.cursor - n } else .panic

/-- lib.rs:52-54, `done`. -/
def finish (p : Parser) : Parser := { p with cursor := width p.input }

/-- lib.rs:103-105. -/
def current (p : Parser) : Res Char :=
  match p.slice with
  | none => .panic
  | some [] => .err p
  | some (c :: _) => .ok c p

/-- lib.rs:35-39. -/
def read (p : Parser) : Res Char := p.current.bind fun c p => .ok c p.advance

/-- lib.rs:61-68. -/
def tryParse {α : Type} (p : Parser) (f : Parser → Res α) : Res α :=
  match f p with
  | .ok a q => .ok a q
  | .err q => .err { q with cursor := p.cursor }
  | .panic => .panic

/-- lib.rs:76-80. -/
def takeSlice (p : Parser) : Res (List Char) :=
  match p.slice with
  | none => .panic
  | some s => .ok s p.finish

/-- lib.rs:132-135. -/
def skipInternal (p : Parser) (trim : Nat) : Res Unit :=
  match p.len with
  | none => .panic
  | some n => if trim ≤ n then .ok () { p with cursor := p.cursor + (n - trim) } else .panic

/-- lib.rs:118-120. -/
def skipMatches (p : Parser) (f : Char → Bool) : Res Unit :=
  match p.slice with
  | none => .panic
  | some s => p.skipInternal (width (s.dropWhile f))

/-- lib.rs:123-125; the code trims both ends of the remaining input. -/
def skipChar (p : Parser) (c : Char) : Res Unit :=
  match p.slice with
  | none => .panic
  | some s => p.skipInternal (width (trimMatches c s))

/-- lib.rs:128-130. -/
def skipWhitespace (p : Parser) : Res Unit := p.skipMatches isWhitespace

/-- The slice from `start` on as a value. -/
def giveFrom (p : Parser) (start : Nat) : Res (List Char) :=
  match p.sliceFrom start with
  | none => .panic
  | some s => .ok s p

/-- lib.rs:110-115. -/
def takeMatches (p : Parser) (f : Char → Bool) : Res (List Char) :=
  (p.skipMatches f).bind fun _ q => q.giveFrom p.cursor

/-- lib.rs:142-148. -/
def expectDone (p : Parser) : Res Unit := if p.cursor < width p.input then .err p else .ok () p

/-- lib.rs:155-162. -/
def expectChar (p : Parser) (expected : Char) : Res Unit :=
  p.read.bind fun received q => if received = expected then .ok () q else .err q

def okTrue : Except Unit Bool → Bool
  | .ok b => b
  | .error _ => false

def isError : Except Unit Bool → Bool
  | .ok _ => false
  | .error _ => true

/-- Whether the first character that does not match makes the matcher report an error. -/
def matcherFails (f : Char → Except Unit Bool) (s : List Char) : Bool :=
  match s.dropWhile (fun c => okTrue (f c)) with
  | [] => false
  | c :: _ => isError (f c)

/-- lib.rs:171-198. -/
def expectMatches (p : Parser) (f : Char → Except Unit Bool) : Res (List Char) :=
  match p.slice with
  | none => .panic
  | some s =>
    (p.skipMatches fun c => okTrue (f c)).bind fun _ q =>
      (q.giveFrom p.cursor).bind fun r q =>
        if matcherFails f s then .err q else if r.isEmpty then .err q else .ok r q

/-- lib.rs:205-208. -/
def expectWhitespace (p : Parser) : Res Unit :=
  (p.expectMatches fun c => .ok (isWhitespace c)).bind fun _ q => .ok () q

/-- lib.rs:215-224. -/
def expectStr (p : Parser) (expected : List Char) : Res Unit :=
  let q := { p with cursor := p.cursor + width expected }
  (q.giveFrom p.cursor).bind fun received q => if received = expected then .ok () q else .err q

/-- lib.rs:231-242. -/
def expectIdent (p : Parser) : Res (List Char) :=
  p.read.bind fun c q =>
    if isNameStartChar c then
      (q.skipMatches isNameChar).bind fun _ q => q.giveFrom p.cursor
    else (q.giveFrom p.cursor).bind fun _ q => .err q

/-- lib.rs:249-256. -/
def expectIdentMatching (p : Parser) (expected : List Char) : Res Unit :=
  p.expectIdent.bind fun received q => if received = expected then .ok () q else .err q

end Parser
end Verif.Parse
