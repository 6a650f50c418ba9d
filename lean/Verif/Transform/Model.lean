import Mathlib.Analysis.SpecialFunctions.Trigonometric.Arctan
import Mathlib.Analysis.SpecialFunctions.Trigonometric.Inverse

/-!
# Model: transform lists and their shortening

`crates/oxvg_collections/src/attribute/transform.rs` and `crates/oxvg_optimiser/src/jobs/convert_transform.rs`.

Numbers are real and arithmetic is exact: rounding of `f32` and its values that are no numbers are left out. The
printed width of a number and the digits counted in it are parameters, as is the matrix of a transform given as CSS.
`none` stands for a panic, unless stated otherwise.
-/

namespace Verif.Transform

open Real

noncomputable section

/-- lightningcss, `Matrix`. -/
@[ext] structure M where
  a : ℝ
  b : ℝ
  c : ℝ
  d : ℝ
  e : ℝ
  f : ℝ

/-- transform.rs:24-39, `SVGTransform`. -/
inductive T (Css : Type) where
  | matrix (m : M)
  | translate (x y : ℝ)
  | scale (x y : ℝ)
  | rotate (a x y : ℝ)
  | skewX (a : ℝ)
  | skewY (a : ℝ)
  | css (c : Css)

/-- What is left open: the matrix of a transform in CSS notation (`Transform::to_matrix`, `none` if it has none or is
not of two dimensions), how many characters a number is printed with, and how many digits, and digits after the point,
`format!("{arg}")` has. -/
structure Env (Css : Type) where
  cssMatrix : Css → Option M
  width : ℝ → Nat
  digits : ℝ → Nat
  decimals : ℝ → Nat

/-- transform.rs:47-56, `Precision`. -/
structure Precision where
  float : Int
  deg : Int
  transform : Int

variable {Css : Type}

/-- `f32::round`: to the nearest integer, halves away from zero. -/
def roundAway (x : ℝ) : ℝ := if 0 ≤ x then ⌊x + 1 / 2⌋ else -⌊-x + 1 / 2⌋

/-- transform.rs:668-671, `to_fixed`. -/
def toFixed (x : ℝ) (p : Nat) : ℝ := roundAway (x * 10 ^ p) / 10 ^ p

/-- transform.rs:653-666, `smart_round`. -/
def smartRound (p : Nat) (x : ℝ) : ℝ :=
  if toFixed x p = x then x
  else if toFixed |toFixed x (p - 1) - x| (p + 1) ≥ toFixed ((1 / 10) ^ p) p then toFixed x p
  else toFixed x (p - 1)

/-- transform.rs:644-651, `round_arg`. -/
def roundArg (p : Int) (x : ℝ) : ℝ := if 1 ≤ p ∧ p < 20 then smartRound p.toNat x else roundAway x

/-- transform.rs:60-93, `round`. -/
def T.round (p : Precision) : T Css → T Css
  | .translate x y => .translate (roundArg p.float x) (roundArg p.float y)
  | .rotate a x y => .rotate (roundArg p.deg a) (roundArg p.float x) (roundArg p.float y)
  | .skewX a => .skewX (roundArg p.deg a)
  | .skewY a => .skewY (roundArg p.deg a)
  | .scale x y => .scale (roundArg p.transform x) (roundArg p.transform y)
  | .matrix m => .matrix ⟨roundArg p.transform m.a, roundArg p.transform m.b, roundArg p.transform m.c,
      roundArg p.transform m.d, roundArg p.float m.e, roundArg p.float m.f⟩
  | .css c => .css c

/-- `f32::to_radians`. -/
def rad (a : ℝ) : ℝ := a * π / 180

/-- `f32::to_degrees`. -/
def deg (r : ℝ) : ℝ := r * 180 / π

/-- `f32::hypot`. -/
def hypot (x y : ℝ) : ℝ := √(x ^ 2 + y ^ 2)

/-- transform.rs:150-190, `qrab`; here `none` is as in the code. -/
def qrab (m : M) : Option (List (T Css)) :=
  let delta := m.a * m.d - m.b * m.c
  let radius := hypot m.a m.b
  if delta = 0 then none
  else if radius = 0 then none
  else
    let cos := m.a / radius
    let sx := radius
    let sy := delta / sx
    let ac_bd := m.a * m.c + m.b * m.d
    some ((if m.e ≠ 0 ∨ m.f ≠ 0 then [.translate m.e m.f] else []) ++
      (if cos ≠ 1 then [.rotate (deg (if m.b < 0 then arccos cos * -1 else arccos cos)) 0 0] else []) ++
      (if sx ≠ 1 ∨ sy ≠ 1 then [.scale sx sy] else []) ++
      (if ac_bd ≠ 0 then [.skewX (deg (arctan (ac_bd / (m.a * m.a + m.b * m.b))))] else []))

/-- transform.rs:192-229, `qrcd`; here `none` is as in the code. -/
def qrcd (m : M) : Option (List (T Css)) :=
  let delta := m.a * m.d - m.b * m.c
  let s := hypot m.c m.d
  if delta = 0 then none
  else if s = 0 then none
  else
    let rad := π / 2 - (if m.d < 0 then -1 else 1) * arccos (-m.c / s)
    let sx := delta / s
    let sy := s
    let ac_bd := m.a * m.c + m.b * m.d
    some ((if m.e ≠ 0 ∨ m.f ≠ 0 then [.translate m.e m.f] else []) ++ [.rotate (deg rad) 0 0] ++
      (if sx ≠ 1 ∨ sy ≠ 1 then [.scale sx sy] else []) ++
      (if ac_bd ≠ 0 then [.skewY (deg (arctan (ac_bd / (m.c * m.c + m.d * m.d))))] else []))

/-- transform.rs:136-148, `get_compositions`. -/
def compositions (m : M) : List (List (T Css)) := (qrcd m).toList ++ (qrab m).toList

/-- transform.rs:231-237, `is_identity`. -/
def T.isIdentity : T Css → Prop
  | .rotate n _ _ => n = 0
  | .skewX n => n = 0
  | .skewY n => n = 0
  | .scale x y => x = 1 ∧ y = 1
  | .translate x y => x = 1 ∧ y = 1
  | .matrix _ => False
  | .css _ => False

instance (t : T Css) : Decidable t.isIdentity := Classical.propDecidable _

/-- transform.rs:239-253, `merge_translate_and_rotate`. -/
def merge : T Css → T Css → Option (T Css)
  | .translate tx ty, .rotate a x y =>
    if x = 0 ∧ y = 0 then
      let d := 1 - cos (rad a)
      let e := sin (rad a)
      let cy := (d * ty + e * tx) / (d * d + e * e)
      let cx := (tx - e * cy) / d
      some (.rotate a cx cy)
    else none
  | _, _ => none

/-- transform.rs:514-521, what is done with a rotation that is followed by `next`: what is pushed and whether `next`
is skipped. -/
def halfTurn : Option (T Css × T Css) → T Css × Bool
  | some (.scale x y, _) => (.scale (-x) (-y), true)
  | _ => (.scale (-1) (-1), false)

/-- transform.rs:527-529, the transform after a translation with which it is merged. -/
def mergeable : Option (T Css × T Css) → Option (T Css)
  | some (.rotate n x y, raw) => if n ≠ 180 ∧ n ≠ -180 ∧ n ≠ 0 ∧ x = 0 ∧ y = 0 then some raw else none
  | _ => none

/-- transform.rs:513-543, what is pushed for an item, and whether the next one is skipped. -/
def push (item raw : T Css) (next : Option (T Css × T Css)) : Option (T Css × Bool) :=
  match item with
  | .rotate n x y => if x = 0 ∧ y = 0 ∧ |n| = 180 then some (halfTurn next) else some (item, false)
  | .translate _ _ => match mergeable next with
    | some r => (merge raw r).map fun t => (t, true)
    | none => some (item, false)
  | .matrix _ => none
  | _ => some (item, false)

/-- transform.rs:500-544, the loop of `optimize` over rounded and unrounded items. -/
def optimizeLoop : Bool → List (T Css × T Css) → Option (List (T Css))
  | _, [] => some []
  | true, _ :: rest => optimizeLoop false rest
  | false, i :: rest =>
    if i.1.isIdentity then optimizeLoop false rest
    else match push i.1 i.2 rest.head? with
      | none => none
      | some p => (optimizeLoop p.2 rest).map (p.1 :: ·)

/-- transform.rs:545-550, the end of `optimize`. -/
def orUnit (l : List (T Css)) : List (T Css) := if l.isEmpty then [.scale 1 1] else l

/-- transform.rs:497-551, `optimize`; the lists have the same length. -/
def optimize (rounded raw : List (T Css)) : Option (List (T Css)) := (optimizeLoop false (rounded.zip raw)).map orUnit

/-- transform.rs:355-418, the length of what `write_value` writes. (It is not used for transforms in CSS notation.) -/
def T.len (w : ℝ → Nat) : T Css → Nat
  | .matrix m => 7 + w m.a + 1 + w m.b + 1 + w m.c + 1 + w m.d + 1 + w m.e + 1 + w m.f + 1
  | .translate x y => 10 + w x + (if y ≠ 0 then 1 + w y else 0) + 1
  | .scale x y => 6 + w x + (if x ≠ y then 1 + w y else 0) + 1
  | .rotate a x y => 7 + w a + (if x ≠ 0 ∨ y ≠ 0 then 1 + w x + 1 + w y else 0) + 1
  | .skewX a => 6 + w a + 1
  | .skewY a => 6 + w a + 1
  | .css _ => 0

def lens (w : ℝ → Nat) (l : List (T Css)) : Nat := (l.map (T.len w)).sum

/-- transform.rs:114-129, the loop over decompositions. -/
def shortest (env : Env Css) (p : Precision) : List (List (T Css)) → List (T Css) → Nat → Option (List (T Css))
  | [], best, _ => some best
  | d :: ds, best, len => match optimize (d.map (T.round p)) d with
    | none => none
    | some o =>
      let o := o.map (T.round p)
      if lens env.width o ≤ len then shortest env p ds o (lens env.width o) else shortest env p ds best len

/-- transform.rs:101-134, `matrix_to_transform`. -/
def matrixToTransform (env : Env Css) (p : Precision) : T Css → Option (List (T Css))
  | .matrix m =>
    let start := T.round p (.matrix m)
    shortest env p (compositions m) [start] (start.len env.width)
  | t => some [t]

/-- lightningcss, `Matrix3d::multiply`, in two dimensions: points are rows, so `s` is applied before `o`. -/
def M.multiply (s o : M) : M :=
  ⟨s.a * o.a + s.b * o.c, s.a * o.b + s.b * o.d, s.c * o.a + s.d * o.c, s.c * o.b + s.d * o.d,
    s.e * o.a + s.f * o.c + o.e, s.e * o.b + s.f * o.d + o.f⟩

/-- transform.rs:420-452, `From<SVGTransform> for Transform`, and lightningcss, `Transform::to_matrix`. -/
def T.toMatrix (env : Env Css) : T Css → Option M
  | .matrix m => some m
  | .translate x y => some ⟨1, 0, 0, 1, x, y⟩
  | .scale x y => some ⟨x, 0, 0, y, 0, 0⟩
  | .rotate a x y =>
    if x = 0 ∧ y = 0 then some ⟨cos (rad a), sin (rad a), -sin (rad a), cos (rad a), 0, 0⟩
    else some ⟨cos (rad a), sin (rad a), -sin (rad a), cos (rad a), (1 - cos (rad a)) * x + sin (rad a) * y,
      (1 - cos (rad a)) * y - sin (rad a) * x⟩
  | .skewX a => some ⟨1, 0, tan (rad a), 1, 0, 0⟩
  | .skewY a => some ⟨1, tan (rad a), 0, 1, 0, 0⟩
  | .css c => env.cssMatrix c

/-- transform.rs:553-566, the loop of `to_matrix`; here `none` is as in the code. -/
def toMatrixFrom (env : Env Css) (m : M) : List (T Css) → Option M
  | [] => some m
  | t :: l => match t.toMatrix env with
    | none => none
    | some n => toMatrixFrom env (n.multiply m) l

/-- transform.rs:553-571, `to_matrix_2d`. -/
def toMatrix (env : Env Css) (l : List (T Css)) : Option M := toMatrixFrom env ⟨1, 0, 0, 1, 0, 0⟩ l

/-- convert_transform.rs:40-66, `ConvertTransform`. -/
structure Config where
  convertToShorts : Bool
  degPrecision : Option Int
  floatPrecision : Int
  transformPrecision : Int
  matrixToTransform : Bool
  shortRotate : Bool
  removeUseless : Bool
  collapseIntoOne : Bool

/-- convert_transform.rs:119-126, the numbers of the matrices. -/
def matrixData (l : List (T Css)) : List ℝ := l.flatMap fun
  | .matrix m => [m.a, m.b, m.c, m.d, m.e, m.f]
  | _ => []

/-- convert_transform.rs:118-169, `define_precision`. -/
def Config.definePrecision (cfg : Config) (env : Env Css) (l : List (T Css)) : Int × Int :=
  let data := matrixData l
  let numberOfDigits : Int := data.foldl (fun n x => max n (env.digits x : Int)) 0
  let numberOfDecimals : Int := data.foldl (fun n x => max n (env.decimals x : Int)) 0
  let isMatrixData := !data.isEmpty
  let transformPrecision :=
    if isMatrixData ∧ numberOfDecimals < cfg.transformPrecision then numberOfDecimals else cfg.transformPrecision
  let numberOfDigits := if isMatrixData then numberOfDigits else cfg.transformPrecision
  let degPrecision := match cfg.degPrecision with
    | some v => v
    | none => max 0 (min cfg.floatPrecision (numberOfDigits - 2))
  (degPrecision, transformPrecision)

/-- convert_transform.rs:229-234, the precision used. -/
def Config.precision (cfg : Config) (env : Env Css) (l : List (T Css)) : Precision :=
  ⟨cfg.floatPrecision, (cfg.definePrecision env l).1, (cfg.definePrecision env l).2⟩

/-- convert_transform.rs:262-294, the loop that joins rotations with the translations around them. -/
def joinRotates : List (T Css) → List (T Css)
  | [] => []
  | .translate x y :: .rotate a cx cy :: .translate u v :: rest =>
    if cx = 0 ∧ cy = 0 ∧ x = -u ∧ y = -v then .rotate a x y :: joinRotates rest
    else .translate x y :: joinRotates (.rotate a cx cy :: .translate u v :: rest)
  | t :: rest => t :: joinRotates rest

/-- `Iterator::flat_map` with a function that can panic. -/
def flatOption {A B : Type} (f : A → Option (List B)) : List A → Option (List B)
  | [] => some []
  | a :: l => match f a, flatOption f l with
    | some x, some y => some (x ++ y)
    | _, _ => none

/-- convert_transform.rs:235-258, the transforms before rotations are joined. -/
def Config.shorts (cfg : Config) (env : Env Css) (p : Precision) (l : List (T Css)) : Option (List (T Css)) :=
  let l := if cfg.convertToShorts then l else l.map (T.round p)
  if cfg.matrixToTransform then (flatOption (Verif.Transform.matrixToTransform env p) l).map (·.map (T.round p))
  else some (l.map (T.round p))

/-- convert_transform.rs:228-299, `convert_to_shorts`. -/
def Config.convert (cfg : Config) (env : Env Css) (l : List (T Css)) : Option (List (T Css)) :=
  (cfg.shorts env (cfg.precision env l) l).map fun s => if cfg.shortRotate then joinRotates s else s

/-- convert_transform.rs:208-223, the transforms that are removed. -/
def T.useless : T Css → Prop
  | .translate x y => x = 0 ∧ y = 0
  | .rotate a _ _ => a = 0
  | .skewX a => a = 0
  | .skewY a => a = 0
  | .scale x y => x = 1 ∧ y = 1
  | .matrix m => m.a = 1 ∧ m.b = 0 ∧ m.c = 0 ∧ m.d = 1 ∧ m.e = 0 ∧ m.f = 0
  | .css _ => False

instance (t : T Css) : Decidable t.useless := Classical.propDecidable _

/-- convert_transform.rs:203-226, `remove_useless`. -/
def Config.dropUseless (cfg : Config) (l : List (T Css)) : List (T Css) :=
  if cfg.removeUseless then l.filter (fun t => ¬ t.useless) else l

/-- convert_transform.rs:187-194, collapsing into one matrix. -/
def Config.collapse (cfg : Config) (env : Env Css) (l : List (T Css)) : List (T Css) :=
  if cfg.collapseIntoOne ∧ 1 < l.length then
    match toMatrix env l with
    | some m => [.matrix m]
    | none => l
  else l

/-- convert_transform.rs:187-201, `transform`. -/
def Config.run (cfg : Config) (env : Env Css) (l : List (T Css)) : Option (List (T Css)) :=
  (cfg.convert env (cfg.collapse env l)).map cfg.dropUseless

end

end Verif.Transform
