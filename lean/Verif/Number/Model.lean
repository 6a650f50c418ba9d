import Verif.Parse.Lemmas

/-!
# Model: numbers in attribute values

`crates/oxvg_parse/src/types/number.rs`. The value of a number is represented by its text. Whether the value is in
the range of finite `f64` is a parameter `finite`; `inf` and `nan`, which Rust's `f64::from_str` also accepts, are
rejected by the code's finiteness test, so `rustFloat` leaves them out.
-/

namespace Verif.Number

open Verif.Parse

/-- States of a recogniser of floating point literals. -/
inductive St where
  | start | sgn | int | dot | intdot | frac | e | esgn | exp | dead
deriving DecidableEq

def isSign (c : Char) : Bool := c == '-' || c == '+'
def isE (c : Char) : Bool := c == 'e' || c == 'E'

/-- Next state after a digit. -/
def onDigit : St → St
  | .start | .sgn | .int => .int
  | .dot | .intdot | .frac => .frac
  | .e | .esgn | .exp => .exp
  | .dead => .dead

/-- Next state after a point. -/
def onDot : St → St
  | .start | .sgn => .dot
  | .int => .intdot
  | _ => .dead

/-- Next state after `e` or `E`. -/
def onE : St → St
  | .int | .intdot | .frac => .e
  | _ => .dead

/-- Next state after a sign. -/
def onSign : St → St
  | .start => .sgn
  | .e => .esgn
  | _ => .dead

/-- Next state of the recogniser. -/
def step (s : St) (c : Char) : St :=
  if c.isDigit then onDigit s
  else if c == '.' then onDot s
  else if isE c then onE s
  else if isSign c then onSign s
  else .dead

def accept : St → Bool
  | .int | .intdot | .frac | .exp => true
  | _ => false

/-- Rust's `str::parse::<f64>` succeeds (without `inf`, `infinity`, `nan`). -/
def rustFloat (t : List Char) : Bool := accept (t.foldl step .start)

/-- number.rs:15-29, the part for the exponent, from the position before `e`; `none` means no exponent is read and
parsing goes on. -/
def exponent (p : Parser) : Res Unit :=
  match p.current with
  | .panic => .panic
  | .err p => .ok () p
  | .ok c p =>
    if isE c then
      let q := p.advance
      match q.current with
      | .panic => .panic
      | .ok d q' =>
        if d == 'x' || d == 'm' then q'.rewind 1
        else body q
      | .err _ => body q
    else .ok () p
where
  /-- number.rs:20-27 -/
  body (q : Parser) : Res Unit :=
    (q.skipMatches isSign).bind fun _ r =>
    (r.skipMatches Char.isDigit).bind fun _ r =>
    (r.skipChar '.').bind fun _ r =>
    (r.skipMatches Char.isDigit).bind fun _ r =>
    if q.cursor = r.cursor then .err r else .ok () r

/-- number.rs:5-39, `f64::parse`. -/
def parseF64 (finite : List Char → Bool) (p : Parser) : Res (List Char) :=
  p.skipWhitespace.bind fun _ p =>
  (p.skipMatches isSign).bind fun _ q =>
  (q.skipMatches Char.isDigit).bind fun _ q =>
  (q.skipChar '.').bind fun _ q =>
  (q.skipMatches Char.isDigit).bind fun _ q =>
  (exponent q).bind fun _ q =>
  (q.giveFrom p.cursor).bind fun t q =>
  if rustFloat t && finite t then .ok t q else .err q

/-- Value of a digit list, most significant first. -/
def digitsValue (l : List Char) : Nat := l.foldl (fun n c => 10 * n + (c.toNat - 48)) 0

/-- The optional sign of an integer literal. -/
def splitSign : List Char → Bool × List Char
  | '-' :: d => (true, d)
  | '+' :: d => (false, d)
  | d => (false, d)

/-- Rust's `str::parse::<i64>`. -/
def rustInt (t : List Char) : Option Int :=
  let d := (splitSign t).2
  if d.isEmpty || !d.all Char.isDigit then none
  else
    let v : Int := if (splitSign t).1 then - (digitsValue d : Int) else digitsValue d
    if -(2 ^ 63 : Int) ≤ v ∧ v < 2 ^ 63 then some v else none

/-- Error or value. -/
def intResult (v : Option Int) (q : Parser) : Res Int :=
  match v with
  | none => .err q
  | some v => .ok v q

/-- number.rs:49-61, `i64::parse`. -/
def parseI64 (p : Parser) : Res Int :=
  p.skipWhitespace.bind fun _ p =>
  (p.skipMatches isSign).bind fun _ q =>
  (q.skipMatches Char.isDigit).bind fun _ q =>
  (q.giveFrom p.cursor).bind fun t q => intResult (rustInt t) q

/-- Rust's `as i32` on an `i64`: the low 32 bits, read as a signed number. -/
def asI32 (v : Int) : Int :=
  let m := v % 2 ^ 32
  if m < 2 ^ 31 then m else m - 2 ^ 32

/-- number.rs:64-68, `i32::parse`. -/
def parseI32 (p : Parser) : Res Int := (parseI64 p).bind fun v q => .ok (asI32 v) q

end Verif.Number
