import Mathlib.Algebra.Order.Field.Basic
import Mathlib.Algebra.Order.Field.Rat
import Mathlib.Algebra.Ring.Prod
import Verif.Common.Sort

/-!
# Model: do two paths intersect

`crates/oxvg_path/src/gjk_intersection.rs`, with what it uses of `geometry/point.rs`.

Numbers are those of an ordered field, so arithmetic is exact: the rounding of `f64`, infinities, zeros with a sign and values that are no numbers
are left out. `none` as a result is a panic, or a loop that does not end.
-/

namespace Verif.Gjk

/-- geometry/point.rs 10, `Point`. -/
abbrev Pt (K : Type) := K × K

variable {K : Type} [Field K] [LinearOrder K]

/-- geometry/point.rs 514-516, `dot`. -/
def dot (a b : Pt K) : K := a.1 * b.1 + a.2 * b.2

/-- geometry/point.rs 581-584, `cross`, which is `cross_prod` of geo-types. -/
def cross (o a b : Pt K) : K := (a.1 - o.1) * (b.2 - o.2) - (a.2 - o.2) * (b.1 - o.1)

/-- geometry/point.rs 648-655, `orth`. -/
def orth (s start : Pt K) : Pt K := if dot (-s.2, s.1) (-start) < 0 then -(-s.2, s.1) else (-s.2, s.1)

/-! ## Convex hulls -/

/-- gjk_intersection.rs 156-163: the order by which points are sorted. -/
def le (a b : Pt K) : Bool := decide (if a.1 = b.1 then a.2 ≤ b.2 else a.1 ≤ b.1)

/-- gjk_intersection.rs 170-174 and 187-191: points that are popped from the vector, whose last element is the head of the list. -/
def pops (p : Pt K) : List (Pt K) → List (Pt K)
  | a :: b :: l => if cross b a p ≤ 0 then pops p (b :: l) else a :: b :: l
  | l => l

/-- The variables `lower`, the coordinate of the point at `min_y`, and `bottom`; or `upper`, the coordinate at `max_y`, and `top`. -/
structure Chain (K : Type) where
  stack : List (Pt K)
  best : K
  idx : Nat

/-- gjk_intersection.rs 170-179; 187-196 if `up`: the body of the loop. -/
def push (up : Bool) (c : Chain K) (p : Pt K) : Chain K :=
  let l := pops p c.stack
  if (if up then c.best < p.2 else p.2 < c.best) then ⟨p :: l, p.2, l.length⟩ else ⟨p :: l, c.best, c.idx⟩

/-- gjk_intersection.rs 165-180; 182-197 if `up`: the loop. The first point is not less than itself, and nothing is popped for it. -/
def chain (up : Bool) : List (Pt K) → Option (Chain K)
  | [] => none
  | p :: ps => some (ps.foldl (push up) ⟨[p], p.2, 0⟩)

/-- gjk_intersection.rs 7-13, `IndexBounds`. `min_x` of a convex hull is 0. -/
structure Bounds (K : Type) where
  source : List (Pt K)
  minY : Nat
  maxX : Nat
  maxY : Nat

/-- gjk_intersection.rs 155-217, `convex_hull`, with 88-114, `new`, whose indices it does not use. -/
def convexHull (ps : List (Pt K)) : Option (Bounds K) :=
  let s := sortBy le ps
  match chain false s, chain true s.reverse with
  | some lo, some hi =>
    let lower := lo.stack.tail.reverse
    let all := lower ++ hi.stack.tail.reverse
    some ⟨all, lo.idx, lower.length, if all.isEmpty then 0 else (lower.length + hi.idx) % all.length⟩
  | _, _ => none

/-- gjk_intersection.rs 138-146, the loop; `m` is `max`, `none` for -∞. It takes one turn more than there are points at most. -/
def climb (src : List (Pt K)) (d : Pt K) : Nat → Nat → Option K → Option Nat
  | 0, _, _ => none
  | n + 1, i, m => match src[i]? with
    | none => none
    | some p => match m with
      | none => climb src d n ((i + 1) % src.length) (some (dot p d))
      | some m => if dot p d ≤ m then some i else climb src d n ((i + 1) % src.length) (some (dot p d))

/-- gjk_intersection.rs 126-152, `support_point`. -/
def support (b : Bounds K) (d : Pt K) : Option (Pt K) :=
  let start := if 0 ≤ d.2 then if d.1 < 0 then b.maxY else b.maxX else if d.1 < 0 then 0 else b.minY
  match climb b.source d (b.source.length + 1) start none with
  | none => none
  | some i => b.source[(if i = 0 then b.source.length else i) - 1]?

/-- gjk_intersection.rs 121-123, `get_support`. -/
def getSupport (a b : Bounds K) (d : Pt K) : Option (Pt K) :=
  match support a d, support b (-d) with
  | some p, some q => some (p - q)
  | _, _ => none

/-! ## Gilbert, Johnson and Keerthi -/

/-- gjk_intersection.rs 284-336, `process_simplex`: `some none` for `true`, otherwise the new simplex and direction. -/
def process : List (Pt K) → Option (Option (List (Pt K) × Pt K))
  | [b, a] =>
    let ao := -a
    let ab := b - a
    if 0 < dot ao ab then some (some ([b, a], orth ab a)) else some (some ([a], ao))
  | [c, b, a] =>
    let ab := b - a
    let ac := c - a
    let ao := -a
    let acb := orth ab ac
    let abc := orth ac ab
    if 0 < dot acb ao then
      if 0 < dot ab ao then some (some ([b, a], acb)) else some (some ([a], ao))
    else if 0 < dot abc ao then
      if 0 < dot ac ao then some (some ([c, a], abc)) else some (some ([a], ao))
    else some none
  | _ => none

/-- gjk_intersection.rs 71-81, the loop. -/
def loop (sup : Pt K → Option (Pt K)) : Nat → List (Pt K) → Pt K → Option Bool
  | 0, _, _ => some true
  | n + 1, s, d => match sup d with
    | none => none
    | some a =>
      if dot d a ≤ 0 then some false
      else match process (s ++ [a]) with
        | none => none
        | some none => some true
        | some (some (s', d')) => loop sup n s' d'

/-- gjk_intersection.rs 68-81. -/
def collide (a b : Bounds K) : Option Bool :=
  match getSupport a b (1, 0) with
  | none => none
  | some p => loop (getSupport a b) 10000 [p] (-p)

/-! ## Paths -/

/-- paths/segment.rs 14-23, `Data`, with any representation `A` of arcs. -/
inductive Data (K A : Type) where
  | lineTo (p : Pt K)
  | curveTo (a b p : Pt K)
  | arcTo (a : A)

/-- paths/segment.rs 36-42, `Segment`. -/
structure Seg (K A : Type) where
  start : Pt K
  data : List (Data K A)
  closed : Bool

variable {A : Type}

/-- gjk_intersection.rs 245-248: the points for a command; those of an arc are a parameter. -/
def Data.nest (arc : A → List (Pt K)) : Data K A → List (Pt K)
  | .lineTo p => [p]
  | .curveTo a b p => [a, b, p]
  | .arcTo a => arc a

/-- gjk_intersection.rs 244-280, `hull_nest`. -/
def nest (arc : A → List (Pt K)) (s : Seg K A) : List (Pt K) := s.start :: s.data.flatMap (Data.nest arc)

/-- gjk_intersection.rs 226-236, the body of the inner loop of `build_bbox`: the minimum of a number and NaN is the number. -/
def grow (b : Option (Pt K × Pt K)) (p : Pt K) : Option (Pt K × Pt K) :=
  some (match b with
    | none => (p, p)
    | some (lo, hi) => ((min lo.1 p.1, min lo.2 p.2), (max hi.1 p.1, max hi.2 p.2)))

/-- gjk_intersection.rs 220-239, `build_bbox`; `none` is a box of values that are no numbers. -/
def box (ps : List (Pt K)) : Option (Pt K × Pt K) := ps.foldl grow none

/-- gjk_intersection.rs 41-44 and 47-50: comparisons with values that are no numbers are false. -/
def clear (b f : Option (Pt K × Pt K)) : Bool :=
  match b, f with
  | some b, some f => decide (b.2.1 ≤ f.1.1) || decide (f.2.1 ≤ b.1.1) || decide (b.2.2 ≤ f.1.2) || decide (f.2.2 ≤ b.1.2)
  | _, _ => false

/-- `Iterator::any` of something that may panic. -/
def anyM {α : Type} (f : α → Option Bool) : List α → Option Bool
  | [] => some false
  | a :: l => match f a with
    | none => none
    | some true => some true
    | some false => anyM f l

/-- All hulls of a path; gjk_intersection.rs 116-118, `new_iter`, which is lazy: a panic would come later. -/
def hulls : List (List (Pt K)) → Option (List (Bounds K))
  | [] => some []
  | ps :: l => match convexHull ps, hulls l with
    | some b, some bs => some (b :: bs)
    | _, _ => none

/-- gjk_intersection.rs 24-37: the points of the segments that have data. -/
def nests (arc : A → List (Pt K)) (p : List (Seg K A)) : List (List (Pt K)) := (p.filter fun s => !s.data.isEmpty).map (nest arc)

/-- gjk_intersection.rs 23-84, `intersects`. -/
def intersects (arc : A → List (Pt K)) (p q : List (Seg K A)) : Option Bool :=
  let ps := nests arc p
  let qs := nests arc q
  if clear (box ps.flatten) (box qs.flatten) || ps.all fun b => qs.all fun f => clear (box b) (box f) then some false
  else
    match hulls (if ps.length < qs.length then qs else ps), hulls (if ps.length < qs.length then ps else qs) with
    | some ls, some rs => anyM (fun a => anyM (collide a) rs) ls
    | _, _ => none

end Verif.Gjk
