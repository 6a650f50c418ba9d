import Verif.ListOf.Model
import Verif.Number.Model

/-!
# Model: clock values, durations and the begin and end of animations

`crates/oxvg_collections/src/attribute/animation_timing.rs` and `attribute/animation.rs`, on the cursor parser of
`Verif.Parse` and the numbers of `Verif.Number`. A number is an exact decimal (a sign and the digits before and behind
the point); the rounding to `f32` and the six significant digits of the printer of `lightningcss` are left out, so the
model is exact for numbers of up to six digits. The text printed for `-0.0` is a parameter. Values of attributes that
cannot be parsed are kept by the code as plain text; here this is the error of the parser.
-/

namespace Verif.Clock

open Verif.Parse Verif.Number

/-- A number (`f32`): the digits before the point have no leading zero, those behind it no trailing zero. -/
structure Num where
  neg : Bool
  ip : List Char
  fp : List Char
deriving DecidableEq

/-- Drop the zeros that do not count. -/
def norm (neg : Bool) (ip fp : List Char) : Num :=
  ⟨neg, ip.dropWhile (· == '0'), (fp.reverse.dropWhile (· == '0')).reverse⟩

/-- Move the point to the right. -/
def up : Nat → List Char → List Char → List Char × List Char
  | 0, ip, fp => (ip, fp)
  | n + 1, ip, [] => up n (ip ++ ['0']) []
  | n + 1, ip, d :: fp => up n (ip ++ [d]) fp

/-- Move the point to the left; the digits before the point are reversed. -/
def down : Nat → List Char → List Char → List Char × List Char
  | 0, ip, fp => (ip, fp)
  | n + 1, [], fp => down n [] ('0' :: fp)
  | n + 1, d :: ip, fp => down n ip (d :: fp)

/-- Move the point. -/
def shift (e : Int) (ip fp : List Char) : List Char × List Char :=
  if e < 0 then (let r := down e.natAbs ip.reverse fp; (r.1.reverse, r.2)) else up e.natAbs ip fp

/-- The value of the text of a number. -/
def numOf (t : List Char) : Num :=
  let sgn := splitSign t
  let m := sgn.2.takeWhile fun c => !isE c
  let e := (sgn.2.dropWhile fun c => !isE c).drop 1
  let r := shift ((rustInt e).getD 0) (m.takeWhile Char.isDigit) ((m.dropWhile Char.isDigit).drop 1)
  norm sgn.1 r.1 r.2

/-- oxvg_parse types/number.rs:42-46, `f32::parse`. -/
def f32 (p : Parser) : Res Num := (parseF64 (fun _ => true) p).bind fun t q => .ok (numOf t) q

/-- `n * sign`. -/
def Num.times (n : Num) (minus : Bool) : Num := { n with neg := n.neg != minus }

/-- `n as i32`: the point and the digits behind it are cut, the sign of zero is lost, the range is that of `i32`. -/
def Num.asInt (n : Num) : Int :=
  let v : Int := if n.neg then -(digitsValue n.ip : Int) else digitsValue n.ip
  max (-(2 ^ 31)) (min (2 ^ 31 - 1) v)

/-- `n < 10.0`. -/
def Num.below10 (n : Num) : Bool := n.neg || decide (n.ip.length ≤ 1)

/-- `f32::write_value` (the printer of `lightningcss`): no zero is written before the point of a number below one. -/
def Num.text (negZero : List Char) (n : Num) : List Char :=
  if n.ip.isEmpty && n.fp.isEmpty then (if n.neg then negZero else ['0'])
  else (if n.neg then ['-'] else []) ++ n.ip ++ (if n.fp.isEmpty then [] else '.' :: n.fp)

/-- animation_timing.rs:150-162, `Metric`. -/
inductive Metric where
  | hour | min | second | milli
deriving DecidableEq

/-- animation_timing.rs:168-174: the table. -/
def metricOf (ident : List Char) : Option Metric :=
  if ident = "h".toList then some .hour
  else if ident = "min".toList then some .min
  else if ident = "s".toList then some .second
  else if ident = "ms".toList then some .milli
  else none

/-- animation_timing.rs:164-178, `Metric::parse`. -/
def Metric.parse (p : Parser) : Res Metric :=
  match p.tryParse fun p => p.expectIdent.bind fun ident q => (match metricOf ident with
    | some m => .ok m q
    | none => .err q) with
  | .ok m q => .ok m q
  | .err q => .ok .second q
  | .panic => .panic

/-- animation_timing.rs:180-192, `Metric::write_value`. -/
def Metric.text : Metric → List Char
  | .hour => "h".toList
  | .min => "min".toList
  | .second => []
  | .milli => "ms".toList

/-- animation_timing.rs:13-39, `ClockValue`. -/
inductive ClockValue where
  | full (hours minutes : Int) (seconds : Num)
  | half (minutes : Int) (seconds : Num)
  | count (timecount : Num) (metric : Metric)
deriving DecidableEq

/-- animation_timing.rs:42-48, `is_negative`. -/
def ClockValue.isNegative : ClockValue → Bool
  | .full hours _ _ => decide (hours < 0)
  | .half minutes _ => decide (minutes < 0)
  | .count timecount _ => timecount.neg

/-- `or_else`: what is tried after an error. -/
def orElse {α : Type} (r : Res α) (f : Parser → Res α) : Res α :=
  match r with
  | .err q => f q
  | r => r

/-- animation_timing.rs:58-69: the optional sign. -/
def sign (p : Parser) : Res Bool :=
  orElse (p.tryParse fun p => p.read.bind fun c q => q.skipWhitespace.bind fun _ q =>
    if c = '+' then .ok false q else if c = '-' then .ok true q else .err q) fun q => .ok false q

/-- animation_timing.rs:80-103: minutes and seconds, or hours, minutes and seconds. -/
def colons (timecount : Num) (p : Parser) : Res ClockValue :=
  (p.expectChar ':').bind fun _ p => (f32 p).bind fun n p =>
    match p.tryParse fun p => p.expectChar ':' with
    | .panic => .panic
    | .err p => .ok (.half timecount.asInt n) p
    | .ok _ p => if n.fp.isEmpty then (f32 p).bind fun s p => .ok (.full timecount.asInt n.asInt s) p else .err p

/-- animation_timing.rs:70-107: what follows the first number. -/
def afterCount (timecount : Num) (p : Parser) : Res ClockValue :=
  orElse (orElse
    (p.tryParse fun p => p.expectIdent.bind fun ident p => (ListOf.within (ListOf.parseString Metric.parse ident) p).bind
      fun m p => .ok (.count timecount m) p)
    fun p => p.tryParse (colons timecount))
    fun p => .ok (.count timecount .second) p

/-- animation_timing.rs:51-109, `ClockValue::parse`. -/
def ClockValue.parse (p : Parser) : Res ClockValue :=
  p.skipWhitespace.bind fun _ p => (sign p).bind fun minus p => (f32 p).bind fun n p => afterCount (n.times minus) p

/-- The zero in front of a number below ten. -/
def pad (below10 : Bool) (t : List Char) : List Char := if below10 then '0' :: t else t

/-- animation_timing.rs:111-156, `ClockValue::write_value`. -/
def ClockValue.text (negZero : List Char) : ClockValue → List Char
  | .count timecount metric => timecount.text negZero ++ (if metric = .second then [] else metric.text)
  | .half minutes seconds => pad (decide (minutes < 10)) (ListOf.intText minutes) ++
      ':' :: pad seconds.below10 (seconds.text negZero)
  | .full hours minutes seconds => pad (decide (hours < 10)) (ListOf.intText hours) ++
      ':' :: (pad (decide (minutes < 10)) (ListOf.intText minutes) ++ ':' :: pad seconds.below10 (seconds.text negZero))

/-- animation_timing.rs:207-214, `Dur`; without `media` it is `RepeatDur` (343-348), without `indefinite` it is
`MinMax` (264-269). -/
inductive Dur where
  | clock (c : ClockValue)
  | media
  | indefinite
deriving DecidableEq

/-- animation_timing.rs:216-229, `Dur::parse`. -/
def Dur.parse (p : Parser) : Res Dur :=
  orElse (p.tryParse fun p => p.expectIdent.bind fun ident q =>
    if ident = "media".toList then .ok .media q
    else if ident = "indefinite".toList then .ok .indefinite q else .err q)
    fun p => (ClockValue.parse p).bind fun c p => .ok (.clock c) p

/-- animation_timing.rs:231-242. -/
def Dur.text (negZero : List Char) : Dur → List Char
  | .clock c => c.text negZero
  | .media => "media".toList
  | .indefinite => "indefinite".toList

/-- animation.rs:27-72, `BeginEnd`. -/
inductive BeginEnd where
  | offset (c : ClockValue)
  | sync (id : List Char) (begin : Bool) (offset : Option ClockValue)
  | event (id : Option (List Char)) (event : List Char) (offset : Option ClockValue)
  | repeats (id : Option (List Char)) (n : Int) (offset : Option ClockValue)
  | key (character : List Char) (offset : Option ClockValue)
  | wallclock (t : List Char)
  | indefinite
deriving DecidableEq

/-- `input.try_parse(ClockValue::parse).ok()`. -/
def maybeClock (p : Parser) : Res (Option ClockValue) :=
  match p.tryParse ClockValue.parse with
  | .ok c q => .ok (some c) q
  | .err q => .ok none q
  | .panic => .panic

/-- animation.rs:85-93, `accessKey(…)`. -/
def parseKey (p : Parser) : Res BeginEnd :=
  (p.expectIdentMatching "accessKey".toList).bind fun _ p => (p.expectChar '(').bind fun _ p =>
    (p.takeMatches (· != ')')).bind fun t p => (p.expectChar ')').bind fun _ p =>
      (maybeClock p).bind fun o p => .ok (.key t o) p

/-- animation.rs:94-102, `wallclock(…)`. -/
def parseWallclock (p : Parser) : Res BeginEnd :=
  (p.expectIdentMatching "wallclock".toList).bind fun _ p => (p.expectChar '(').bind fun _ p =>
    (p.takeMatches (· != ')')).bind fun t p => (p.expectChar ')').bind fun _ p => .ok (.wallclock t) p

/-- `id.rfind(['-', '+'])`, as the text before the last sign and the text from it on. -/
def splitLastSign (l : List Char) : Option (List Char × List Char) :=
  let after := l.reverse.takeWhile fun c => !isSign c
  let before := l.reverse.dropWhile fun c => !isSign c
  match before with
  | [] => none
  | c :: b => some (b.reverse, c :: after.reverse)

/-- `id.rsplit_once('.')`. -/
def splitLastDot (l : List Char) : Option (List Char × List Char) :=
  let after := l.reverse.takeWhile (· != '.')
  match l.reverse.dropWhile (· != '.') with
  | [] => none
  | _ :: b => some (b.reverse, after.reverse)

/-- animation.rs:111-114: the element and the event. -/
def nameParts (id : List Char) : Option (List Char) × List Char :=
  match splitLastDot id with
  | some (id, event) => (some id, event)
  | none => (none, id)

/-- animation.rs:115-125, `repeat(…)`. -/
def repeats (id : Option (List Char)) (p : Parser) : Res BeginEnd :=
  (p.expectChar '(').bind fun _ p => (parseI32 p).bind fun n p => (p.expectChar ')').bind fun _ p =>
    match ClockValue.parse p with
    | .ok c p => .ok (.repeats id n (some c)) p
    | .err p => .ok (.repeats id n none) p
    | .panic => .panic

/-- animation.rs:126-140: the offset; `begin` and `end` of an element are no events. -/
def named (id : Option (List Char)) (event : List Char) (p : Parser) : Res BeginEnd :=
  p.skipWhitespace.bind fun _ p => (maybeClock p).bind fun o p =>
    match id with
    | some i => if event = "begin".toList || event = "end".toList then .ok (.sync i (event == "begin".toList) o) p
        else .ok (.event id event o) p
    | none => .ok (.event id event o) p

/-- animation.rs:115: the branch. -/
def fromName (name : List Char) (p : Parser) : Res BeginEnd :=
  let parts := nameParts name
  if parts.2 = "repeat".toList then repeats parts.1 p else named parts.1 parts.2 p

/-- animation.rs:103-141: events and other elements. -/
def events (p : Parser) : Res BeginEnd :=
  p.expectIdent.bind fun id p =>
    match splitLastSign id with
    | some (name, back) => (p.rewind (width back)).bind fun _ p => fromName name p
    | none => fromName id p

/-- animation.rs:75-143, `BeginEnd::parse`. -/
def BeginEnd.parse (p : Parser) : Res BeginEnd :=
  orElse (orElse (orElse (orElse
    (p.tryParse fun p => (p.expectIdentMatching "indefinite".toList).bind fun _ p => .ok .indefinite p)
    fun p => p.tryParse fun p => (ClockValue.parse p).bind fun c p => .ok (.offset c) p)
    fun p => p.tryParse parseKey)
    fun p => p.tryParse parseWallclock)
    events

/-- animation.rs:162-167 and the like: the offset with its sign. -/
def offsetText (negZero : List Char) : Option ClockValue → List Char
  | none => []
  | some c => (if c.isNegative then [] else ['+']) ++ c.text negZero

/-- animation.rs:170-173, 183-186: the element in front of the event. -/
def idText : Option (List Char) → List Char
  | none => []
  | some id => id ++ ['.']

/-- animation.rs:145-218, `BeginEnd::write_value`. -/
def BeginEnd.text (negZero : List Char) : BeginEnd → List Char
  | .offset c => c.text negZero
  | .sync id begin o => id ++ '.' :: ((if begin then "begin".toList else "end".toList) ++ offsetText negZero o)
  | .event id ev o => idText id ++ (ev ++ offsetText negZero o)
  | .repeats id n o => idText id ++ ("repeat(".toList ++ (ListOf.intText n ++ ')' :: offsetText negZero o))
  | .key c o => "accessKey(".toList ++ (c ++ ')' :: offsetText negZero o)
  | .wallclock t => "wallclock(".toList ++ (t ++ [')'])
  | .indefinite => "indefinite".toList

end Verif.Clock
