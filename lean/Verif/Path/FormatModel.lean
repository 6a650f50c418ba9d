import Verif.Path.Model

/-!
# Model: writing path data

`crates/oxvg_path/src/format.rs`, `crates/oxvg_path/src/paths/svg/command.rs`. A number is the shortest decimal that
denotes it, as the crate `ryu` finds it; the search for this decimal is not modelled. Comparisons of `f64` values with
0, 1 and 1e-4 and the test for integers agree with the same questions about these decimals, because 0, 1, 1e-4 and the
integers that matter are written as themselves.
-/

namespace Verif.Path

/-- A number as `ryu` sees it: sign, digits (none for zero) and the power of ten of the last digit. -/
structure Num where
  neg : Bool
  digits : List Char
  exp : Int
deriving DecidableEq

namespace Num

/-- Zero or digits without superfluous zeros. -/
def Valid (n : Num) : Prop := (∀ c ∈ n.digits, c.isDigit = true) ∧ n.digits.head? ≠ some '0' ∧ n.digits.getLast? ≠ some '0'

def isZero (n : Num) : Bool := n.digits.isEmpty

/-- The position of the point relative to the digits (`kk` in `ryu`). -/
def point (n : Num) : Int := n.digits.length + n.exp

/-- `>= 0.0` -/
def nonneg (n : Num) : Bool := !n.neg || n.isZero

/-- `>= 1.0` -/
def geOne (n : Num) : Bool := !n.neg && !n.isZero && decide (1 ≤ n.point)

/-- `> 0.0` and `< 1e-4` -/
def tiny (n : Num) : Bool := !n.neg && !n.isZero && decide (n.point ≤ -4)

/-- `% 1.0 == 0.0` -/
def isInt (n : Num) : Bool := n.isZero || decide (0 ≤ n.exp)

end Num

/-- Decimal digit. -/
def digitChar (n : Nat) : Char := Char.ofNat (48 + n)

/-- Decimal numeral. -/
def natText (n : Nat) : List Char :=
  if n < 10 then [digitChar n] else natText (n / 10) ++ [digitChar (n % 10)]
termination_by n
decreasing_by omega

/-- An exponent as `ryu` writes it. -/
def expText (e : Int) : List Char := if e < 0 then '-' :: natText e.natAbs else natText e.natAbs

def signText (b : Bool) : List Char := if b then ['-'] else []

/-- `ryu::Buffer::format` (ryu 1.0, `pretty/mod.rs`, `format64`). -/
def ryu (n : Num) : List Char :=
  signText n.neg ++
  (if n.isZero then "0.0".toList
   else if 0 ≤ n.exp ∧ n.point ≤ 16 then n.digits ++ List.replicate n.exp.toNat '0' ++ ".0".toList
   else if 0 < n.point ∧ n.point ≤ 16 then n.digits.take n.point.toNat ++ '.' :: n.digits.drop n.point.toNat
   else if -5 < n.point ∧ n.point ≤ 0 then "0.".toList ++ List.replicate (-n.point).toNat '0' ++ n.digits
   else if n.digits.length = 1 then n.digits ++ 'e' :: expText (n.point - 1)
   else n.digits.take 1 ++ '.' :: n.digits.drop 1 ++ 'e' :: expText (n.point - 1))

/-- `str::strip_suffix(c).unwrap_or(raw)` -/
def stripSuffix (c : Char) (l : List Char) : List Char := if l.getLast? = some c then l.dropLast else l

/-- command.rs:526-533. -/
def dropLeadingZero (raw : List Char) : List Char :=
  if "0.".toList.isPrefixOf raw then raw.drop 1
  else if "-0.".toList.isPrefixOf raw then '-' :: raw.drop 2
  else raw

/-- command.rs:521-533. -/
def shortenPoint (raw : List Char) : List Char :=
  if raw = "0.".toList ∨ raw = "-0.".toList then ['0'] else dropLeadingZero (stripSuffix '.' raw)

/-- command.rs:513-534, `short_number_from_buffer`. -/
def shorten (raw : List Char) : List Char :=
  shortenPoint (if raw.contains '.' then stripSuffix '0' raw else raw)

/-- command.rs:537-546, `short_number`. -/
def short (n : Num) : List Char := shorten (ryu n)

/-- command.rs:490-494. -/
def spaceBefore (previous current : Num) : Bool :=
  current.geOne || current.isZero || (previous.isZero && current.nonneg) ||
    (previous.isInt && "0.".toList.isPrefixOf (ryu current)) || current.tiny

def spaceText (b : Bool) : List Char := if b then [' '] else []

/-- command.rs:482-500, the arguments after the first. -/
def argsFrom (previous : Num) : List Num → List Char
  | [] => []
  | c :: l => spaceText (spaceBefore previous c) ++ short c ++ argsFrom c l

/-- command.rs:478-502, `Args::fmt`. -/
def argsText : List Num → List Char
  | [] => []
  | c :: l => short c ++ argsFrom c l

/-- command.rs:508-510, `is_space_needed`; the arguments are never empty. -/
def isSpaceNeeded (args prev : List Num) : Bool :=
  prev.getLast?.any Num.isInt || args.head?.any fun c => c.geOne || c.isZero

/-- command.rs:461-469, `ID::fmt`. -/
def ID.display (i : ID) : List Char := if i.isImplicit then [] else [i.letter]

/-- command.rs:293-302, `Data::fmt`. -/
def Data.display (d : Data Num) : List Char := d.id.display ++ argsText d.args

/-- format.rs:28-43, what is written before the arguments of a command. -/
def leader (prev : List Num) (d : Data Num) : List Char :=
  if d.args.isEmpty then [d.id.letter]
  else if prev.isEmpty then [d.id.letter]
  else if d.isImplicit then spaceText (isSpaceNeeded d.args prev && d.args.head?.any Num.nonneg)
  else [d.id.letter]

/-- format.rs:17-46, the commands after the first. -/
def formatFrom (prev : List Num) : List (Data Num) → List Char
  | [] => []
  | d :: ds => leader prev d ++ argsText d.args ++ formatFrom d.args ds

/-- format.rs:4-47, `format`. -/
def format : List (Data Num) → List Char
  | [] => []
  | [d] => d.display
  | d :: ds => d.id.letter :: argsText d.args ++ formatFrom d.args ds

end Verif.Path
