import Verif.Curves.Coords
import Verif.Arcs.Coords

/-!
# Model: combining paths by boolean operations

`crates/oxvg_path/src/algorithm/bool_ops.rs` and `bool_ops/i_overlay_integration.rs`: paths are made polygons, which the crate `i_overlay` combines, and
the rings of the outcome are made lines, curves and arcs again; `crates/oxvg_actions/src/actions/manipulate/path.rs`: the action on selected elements.

Numbers are real, so arithmetic is exact: the rounding of `f64` is left out. The crates `i_overlay` (the operations on polygons), `rstar` (which
entries to look at, in any order) and `geo` are external: the operations are parameters, and the order is that of the list of entries.
-/

namespace Verif.Overlay

open Verif.Gjk

/-- paths/segment.rs, `Data`. The start of a curve is where the part before ends. -/
inductive Data where
  | line (p : Pt ℝ)
  | curve (a b p : Pt ℝ)
  | arc (a : ArcR)

/-- paths/segment.rs, `Segment`. -/
structure Seg where
  start : Pt ℝ
  data : List Data
  closed : Bool

/-- i_overlay_integration.rs 12-18, `Source`; the box is computed from the contour where needed. `key` is the address of the data, which 238 compares. -/
structure Source where
  key : ℕ
  data : Data
  start : Pt ℝ
  contour : List (Pt ℝ)

/-- i_overlay_integration.rs 94-107: the coordinates of a part after its start. The iterators end, after at most 129 items (`coords_of`). -/
noncomputable def coords (start : Pt ℝ) : Data → List (Pt ℝ)
  | .line p => [p]
  | .curve a b p =>
    let c : Curves.Cubic ℝ := ⟨start, a, b, p⟩
    ((Curves.items c (Curves.step c (1 / 10 ^ 6)) 130 0).getD []).drop 1
  | .arc a => ((Arcs.items a (Arcs.step a (1 / 10 ^ 3) (1 / 10 ^ 6)) 130 0).getD []).drop 1

/-- i_overlay_integration.rs 96, 100 and 104: the cursor after a part. -/
noncomputable def endOf : Data → Pt ℝ
  | .line p => p
  | .curve _ _ p => p
  | .arc a => ArcTo.pointAt a 1

/-- i_overlay_integration.rs 90-120: the coordinates and entries of the parts. `key` is the next unused address. -/
noncomputable def flattenFrom (key : ℕ) (cursor : Pt ℝ) : List Data → List (Pt ℝ) × List Source
  | [] => ([], [])
  | d :: ds =>
    let cs := coords cursor d
    let (ps, rs) := flattenFrom (key + 1) (endOf d) ds
    (cs ++ ps, ⟨key, d, cursor, cursor :: cs⟩ :: rs)

/-- i_overlay_integration.rs 78-123, `flatten_segment`. -/
noncomputable def flatten (key : ℕ) (s : Seg) : List (Pt ℝ) × List Source :=
  if s.data.isEmpty then ([], [])
  else
    let (ps, rs) := flattenFrom key s.start s.data
    (s.start :: ps, rs)

/-- i_overlay_integration.rs 333-346, `project_on_polyline`, before the square root; `none` stands for `f64::MAX`. The distance of a point from a line
(geometry/line.rs 207-210) is that of the crate `geo`. -/
noncomputable def project (p : Pt ℝ) : List (Pt ℝ) → Option ℝ
  | a :: b :: l =>
    let d := Curves.chordDist2 p a b
    match project p (b :: l) with
    | none => some d
    | some e => some (if e < d then e else d)
  | _ => none

open Classical in
/-- i_overlay_integration.rs 322: a distance, if it is within the tolerance. -/
noncomputable def within (p : Pt ℝ) (l : List (Pt ℝ)) : Option ℝ :=
  (project p l).bind fun d => if √d < 1 / 10 ^ 3 then some √d else none

/-- i_overlay_integration.rs 314, geometry/rectangle.rs 36-52 and 72-74: the box of the contour meets that of the two points. The query of the tree (307-312)
asks for no more than that, with a larger box. -/
def meets (l : List (Pt ℝ)) (a b : Pt ℝ) : Prop :=
  (∃ p ∈ l, p.1 ≤ max a.1 b.1) ∧ (∃ p ∈ l, min a.1 b.1 ≤ p.1) ∧ (∃ p ∈ l, p.2 ≤ max a.2 b.2) ∧ ∃ p ∈ l, min a.2 b.2 ≤ p.2

/-- geometry/point.rs, `midpoint`. -/
noncomputable def midpoint (a b : Pt ℝ) : Pt ℝ := ((a.1 + b.1) / 2, (a.2 + b.2) / 2)

open Classical in
/-- i_overlay_integration.rs 313-323: the sum of the distances of an edge, if an entry matches. -/
noncomputable def total (a b : Pt ℝ) (s : Source) : Option ℝ :=
  if meets s.contour a b then
    (within a s.contour).bind fun x => (within b s.contour).bind fun y => (within (midpoint a b) s.contour).map fun z => x + y + z
  else none

open Classical in
/-- i_overlay_integration.rs 324-327: the better one of two. -/
noncomputable def improve (a b : Pt ℝ) (best : Option (Source × ℝ)) (s : Source) : Option (Source × ℝ) :=
  match total a b s, best with
  | none, _ => best
  | some d, none => some (s, d)
  | some d, some (s', d') => if d < d' then some (s, d) else some (s', d')

/-- i_overlay_integration.rs 296-331, `find_matching_segment`; `tree` lists the entries in the order of the tree. -/
noncomputable def find (tree : List Source) (a b : Pt ℝ) : Option Source := (tree.foldl (improve a b) none).map Prod.fst

/-- i_overlay_integration.rs 206-215, `Action`, with the vertices of the ring in place of their numbers: the first one, those between, and the last one. -/
inductive Action where
  | original (s : Source) (v : Pt ℝ) (mid : List (Pt ℝ)) (w : Pt ℝ)
  | line (w : Pt ℝ)

/-- i_overlay_integration.rs 232-250: an edge; the last action comes first. -/
def push (acts : List Action) (a b : Pt ℝ) : Option Source → List Action
  | none => .line b :: acts
  | some s =>
    match acts with
    | .original s' v mid w :: rest => if s.key = s'.key then .original s' v (mid ++ [w]) b :: rest else .original s a [] b :: acts
    | _ => .original s a [] b :: acts

/-- i_overlay_integration.rs 229-251: the actions of the edges from a vertex on; the last one comes first. -/
noncomputable def gather (look : Pt ℝ → Pt ℝ → Option Source) (acts : List Action) (a : Pt ℝ) : List (Pt ℝ) → List Action
  | [] => acts
  | b :: l => gather look (push acts a b (look a b)) b l

/-- i_overlay_integration.rs 267-274: the part of a curve; `none` is the panic of `unwrap`. -/
noncomputable def curvePart (c : Curves.Cubic ℝ) (v w : Pt ℝ) : Option (Curves.Cubic ℝ) :=
  (Curves.tAt c v (1 / 10 ^ 6)).bind fun t1 => (Curves.tAt c w (1 / 10 ^ 6)).map fun t2 =>
    if t1 ≤ t2 then Curves.clampT c t1 t2 else Curves.clampT (Curves.reverse c) (1 - t1) (1 - t2)

/-- i_overlay_integration.rs 161-165 and 168-172: the part of an arc between two places. -/
noncomputable def arcBase (arc : ArcR) (t1 t2 : ℝ) : ArcR :=
  if t1 ≤ t2 then ArcTo.clamp arc t1 t2 else ArcTo.clamp (ArcTo.reverse arc) (1 - t1) (1 - t2)

/-- i_overlay_integration.rs 173-182: the other way around. -/
noncomputable def arcWrapped (arc : ArcR) (t1 t2 : ℝ) : ArcR :=
  { arc with start := arc.start + t1 * arc.sweep
             sweep := if t1 ≤ t2 then (t2 - t1 - 1) * arc.sweep else (t2 - t1 + 1) * arc.sweep }

open Classical in
/-- i_overlay_integration.rs 154-203, `clamp_arc_for_edge`. -/
noncomputable def arcPart (arc : ArcR) (a b : Pt ℝ) (near : Option (Pt ℝ)) : ArcR :=
  let t1 := (Arcs.tAt arc a (1 / 10 ^ 3)).getD 0
  let t2 := (Arcs.tAt arc b (1 / 10 ^ 3)).getD 1
  let base := arcBase arc t1 t2
  if |(|arc.sweep| - 2 * Real.pi)| < 1 / 10 ^ 2 then
    let wrapped := arcWrapped arc t1 t2
    match near with
    | some x =>
      let t := (Arcs.tAt arc x (1 / 10 ^ 3)).getD t1
      if min t1 t2 < t ∧ t < max t1 t2 then base else wrapped
    | none =>
      let m := midpoint a b
      if Fit.dist2 (ArcTo.pointAt base (1 / 2)) m ≤ Fit.dist2 (ArcTo.pointAt wrapped (1 / 2)) m then base else wrapped
  else base

/-- i_overlay_integration.rs 253-291: the data of an action; `none` is a panic. -/
noncomputable def emit : Action → Option Data
  | .line w => some (.line w)
  | .original s v mid w =>
    match s.data with
    | .line _ => some (.line w)
    | .curve a b p => (curvePart ⟨s.start, a, b, p⟩ v w).map fun c => .curve c.a c.b c.p
    | .arc arc =>
      -- of the vertices numbered `start ..= end`, the one numbered `start.midpoint(end)`
      let near := if mid.isEmpty then none else (v :: mid ++ [w])[(mid.length + 1) / 2]?
      some (.arc (arcPart arc v w near))

/-- i_overlay_integration.rs 205-294, `segment_from_ring`; `none` is a panic. -/
noncomputable def rebuild (look : Pt ℝ → Pt ℝ → Option Source) : List (Pt ℝ) → Option Seg
  | [] => some ⟨0, [], false⟩
  | v :: l => ((gather look [] v l).reverse.mapM emit).map fun ds => ⟨v, ds, true⟩

/-! ## The operations -/

/-- `i_overlay::core::overlay_rule::OverlayRule`, those that are used. -/
inductive Op where
  | intersect | union | difference | xor

/-- paths/bool.rs: a path with its rule for filling. -/
structure BoolPath where
  inner : List Seg
  evenodd : Bool

/-- bool_ops.rs 99-112: the polygons of the paths, and the entries of all of them. -/
noncomputable def contours (key : ℕ) : List Seg → List (List (Pt ℝ)) × List Source
  | [] => ([], [])
  | s :: l =>
    let (ps, rs) := flatten key s
    let (pss, rss) := contours (key + rs.length) l
    (ps :: pss, rs ++ rss)

/-- Polygons: shapes of rings. -/
abbrev Shapes := List (List (List (Pt ℝ)))

/-- What `i_overlay` is used for: `simplify_shape`, with the rule for filling (true for even-odd), and `overlay`, with the rule nonzero. -/
structure Engine where
  simplify : List (List (Pt ℝ)) → Bool → Shapes
  overlay : Shapes → Shapes → Op → Shapes

/-- bool_ops.rs 100-112: the shapes of the paths, with the entries. -/
noncomputable def subjects (E : Engine) (key : ℕ) : List BoolPath → List Shapes × List Source
  | [] => ([], [])
  | p :: l =>
    let (cs, rs) := contours key p.inner
    let (ss, rss) := subjects E (key + rs.length) l
    (E.simplify cs p.evenodd :: ss, rs ++ rss)

/-- bool_ops.rs 114-119: the shapes of the outcome. -/
def combine (E : Engine) (op : Op) : List Shapes → Option Shapes
  | [] => none
  | s :: l => some (l.foldl (E.overlay · · op) s)

/-- bool_ops.rs 95-121, `boolean_op`, with 125-152 of the integration; `order` is the order in which the tree lists the entries. -/
noncomputable def booleanOp (E : Engine) (order : List Source → List Source) (op : Op) (paths : List BoolPath) : Option (List Seg) :=
  match combine E op (subjects E 0 paths).1 with
  | none => some []
  | some shapes => shapes.flatten.mapM (rebuild (find (order (subjects E 0 paths).2)))

/-! ## The action -/

/-- manipulate/path.rs 102-132: what is written at last for the selected paths, and the rule that the result is taken to have; `comb` is `boolean_op` of two
paths. -/
def cumulate (comb : BoolPath → BoolPath → List Seg) : List BoolPath → Option BoolPath
  | [] => none
  | p :: l => some (l.foldl (fun acc q => ⟨comb acc q, true⟩) p)

/-- manipulate/path.rs 85-149, `boolean_op`, on the selected elements, each with its number and path: the number of the element that is kept, with its new
data; its `fill-rule` becomes even-odd. The others are removed. -/
def action (comb : BoolPath → BoolPath → List Seg) (sel : List (ℕ × BoolPath)) : Option (ℕ × BoolPath) :=
  match sel.getLast?, cumulate comb (sel.map Prod.snd) with
  | some e, some p => some (e.1, { p with evenodd := true })
  | _, _ => none

/-- manipulate/path.rs 128-131: the elements that are removed. -/
def removed (sel : List (ℕ × BoolPath)) : List ℕ := sel.dropLast.map Prod.fst

end Verif.Overlay
