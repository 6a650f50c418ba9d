import Verif.Values.Model

/-!
# What is compared: the numbers written in a value, and their sizes
-/

namespace Verif.Values

noncomputable section

/-- A number as an author writes it: plain, a percentage (kept as a fraction), or with a unit. -/
inductive Q where
  | num (n : ℝ)
  | pct (p : ℝ)
  | len (u : U) (n : ℝ)

def ofLength : Length → List Q
  | .number n => [.num n]
  | .length l => [.len l.unit l.n]
  | .percentage p => [.pct p]

def ofDP : DP → List Q
  | .dim l => [.len l.unit l.n]
  | .pct p => [.pct p]
  | .calc _ => []

def ofLN : LN → List Q
  | .number n => [.num n]
  | .length l => [.len l.unit l.n]

def ofNP : NP → List Q
  | .number n => [.num n]
  | .pct p => [.pct p]

mutual
/-- The numbers of a value, in the order in which they are written. -/
def numbers : Content → List Q
  | .spacing l => [.len l.unit l.n]
  | .kerning l => ofLength l
  | .lengthPercentage d => ofDP d
  | .length l => ofLength l
  | .angle _ n => [.num n]
  | .frequency _ n => [.num n]
  | .opacity n => [.num n]
  | .repeatCount n => [.num n]
  | .rotate n => [.num n]
  | .number n => [.num n]
  | .numberPercentage v => ofNP v
  | .lengthOrNumber v => ofLN v
  | .refX v => ofLN v
  | .refY v => ofLN v
  | .percentage p => [.pct p]
  | .radius d => ofDP d
  | .numberOptionalNumber n m => .num n :: m.toList.map .num
  | .viewBox x y w h => [.num x, .num y, .num w, .num h]
  | .enableBackground x y w h => [.num x, .num y, .num w, .num h]
  | .strokeDasharray ds => ds.flatMap ofDP
  | .controlPoint ns => ns.map .num
  | .points cs => cs.flatten.map .num
  | .listOf vs => numbersAll vs
  | .inheritable v => numbers v
  | .other _ => []

def numbersAll : List Content → List Q
  | [] => []
  | v :: vs => numbers v ++ numbersAll vs
end

def Length.bare : Length → Length
  | .number _ => .number 0
  | .length _ => .length ⟨.px, 0⟩
  | .percentage _ => .percentage 0

def DP.bare : DP → DP
  | .dim _ => .dim ⟨.px, 0⟩
  | .pct _ => .pct 0
  | .calc k => .calc k

def LN.bare : LN → LN
  | .number _ => .number 0
  | .length _ => .length ⟨.px, 0⟩

def NP.bare : NP → NP
  | .number _ => .number 0
  | .pct _ => .pct 0

mutual
/-- What is left of a value when every number in it is written as 0. -/
def bare : Content → Content
  | .spacing _ => .spacing ⟨.px, 0⟩
  | .kerning l => .kerning l.bare
  | .lengthPercentage d => .lengthPercentage d.bare
  | .length l => .length l.bare
  | .angle u _ => .angle u 0
  | .frequency k _ => .frequency k 0
  | .opacity _ => .opacity 0
  | .repeatCount _ => .repeatCount 0
  | .rotate _ => .rotate 0
  | .number _ => .number 0
  | .numberPercentage v => .numberPercentage v.bare
  | .lengthOrNumber v => .lengthOrNumber v.bare
  | .refX v => .refX v.bare
  | .refY v => .refY v.bare
  | .percentage _ => .percentage 0
  | .radius d => .radius d.bare
  | .numberOptionalNumber _ m => .numberOptionalNumber 0 (m.map fun _ => 0)
  | .viewBox _ _ _ _ => .viewBox 0 0 0 0
  | .enableBackground _ _ _ _ => .enableBackground 0 0 0 0
  | .strokeDasharray ds => .strokeDasharray (ds.map DP.bare)
  | .controlPoint ns => .controlPoint (ns.map fun _ => 0)
  | .points cs => .points (cs.map fun c => c.map fun _ => 0)
  | .listOf vs => .listOf (bareAll vs)
  | .inheritable v => .inheritable (bare v)
  | .other k => .other k

def bareAll : List Content → List Content
  | [] => []
  | v :: vs => bare v :: bareAll vs
end

/-- The physical size of an absolute unit, in inches (CSS Values, section 6.2). -/
def inches : U → Option ℝ
  | .inch => some 1
  | .px => some (1 / 96)
  | .pt => some (1 / 72)
  | .pc => some (1 / 6)
  | .cm => some (50 / 127)
  | .mm => some (5 / 127)
  | .q => some (5 / 508)
  | .rel _ => none

/-- `b` is `a` up to an error of `ε` in the number that is written. With `px`, a length may be written in pixels
instead; it then has the same physical size up to `ε` pixels. -/
def near (ε : ℝ) (px : Bool) : Q → Q → Prop
  | .num a, .num b => |b - a| ≤ ε
  | .pct a, .pct b => |100 * b - 100 * a| ≤ ε
  | .len u a, .len w b =>
    (w = u ∧ |b - a| ≤ ε) ∨
    (px = true ∧ w = .px ∧ ∃ k, inches u = some k ∧ |b * (1 / 96) - a * k| ≤ ε * (1 / 96))
  | _, _ => False

/-- The number, as it is written, has at most `p` decimals. -/
def decimals (p : ℕ) (n : ℝ) : Prop := ∃ z : ℤ, n = z / 10 ^ p

/-- The number is written with at most `p` decimals and, with `px`, in pixels if its unit is an absolute one. -/
def tidy (p : ℕ) (px : Bool) : Q → Prop
  | .num n => decimals p n
  | .pct n => decimals p (100 * n)
  | .len u n => decimals p n ∧ (px = true → u = .px ∨ inches u = none)

/-- Half a unit of the last decimal. -/
def half (p : ℕ) : ℝ := 1 / 2 / 10 ^ p

/-- `b` is the attribute `a`: the same name, the same kind of value, numbers that are near to the ones of `a`. -/
def sameAttr (ε : ℝ) (px : Bool) (a b : Attr) : Prop :=
  b.1 = a.1 ∧ bare b.2 = bare a.2 ∧ List.Forall₂ (near ε px) (numbers a.2) (numbers b.2)

/-- The document `after` is `before` with every number where it was, up to `ε`. -/
def sameDoc (ε : ℝ) (px : Bool) (before after : List Elem) : Prop :=
  List.Forall₂ (List.Forall₂ (sameAttr ε px)) before after

/-- A value that is no list, and of which every number may be rounded: not the lengths of `rx`, `ry`, `refX`, `refY`,
`markerWidth` and `markerHeight`. -/
inductive Single : Content → Prop
  | spacing (l) : Single (.spacing l)
  | kerning (l) : Single (.kerning l)
  | lengthPercentage (d) : Single (.lengthPercentage d)
  | length (l) : Single (.length l)
  | angle (u n) : Single (.angle u n)
  | frequency (k n) : Single (.frequency k n)
  | opacity (n) : Single (.opacity n)
  | repeatCount (n) : Single (.repeatCount n)
  | rotate (n) : Single (.rotate n)
  | number (n) : Single (.number n)
  | numberPercentage (v) : Single (.numberPercentage v)
  | lengthOrNumber (n) : Single (.lengthOrNumber (.number n))
  | refX (n) : Single (.refX (.number n))
  | refY (n) : Single (.refY (.number n))
  | percentage (p) : Single (.percentage p)
  | radius (p) : Single (.radius (.pct p))
  | numberOptionalNumber (n m) : Single (.numberOptionalNumber n m)
  | viewBox (x y w h) : Single (.viewBox x y w h)

/-- A value as the document has it for a presentation attribute: not `inherit`, but a value of the kind. -/
inductive Wraps : Content → Content → Prop
  | base (v) : Wraps v v
  | step (v w) : Wraps v w → Wraps (.inheritable v) w

end

end Verif.Values
