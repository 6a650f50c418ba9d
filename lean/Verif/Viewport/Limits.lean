import Verif.Viewport.Dims

/-!
# C52: where the picture changes
-/

namespace Verif.Viewport

open Verif.Tree Verif.Names Verif.Empty
open Verif.Collapse (AName plainName)

/-- An SVG element. -/
def svgName (s : String) : EName := ⟨.std .svg, lit s⟩

/-- An attribute whose value is a length in pixels. -/
def px (s : String) (v : ℚ) : Attr := ⟨plainName s, .len (.abs v .px)⟩

/-- A view box that begins in the origin. -/
def box (w h : ℚ) : Attr := ⟨plainName "viewBox", .box ⟨0, 0, w, h⟩⟩

/-- Any other attribute. -/
def raw (s v : String) : Attr := ⟨plainName s, .raw (lit v)⟩

/-- The frame of a canvas of 100 by 100 pixels. -/
def whole : Frame := ⟨id, (100, 100), []⟩

/-- No stylesheets, no transforms; a `use` without a size; and a painted element with this bounding box. -/
def plainEnv : Env where
  rel v _ := v
  compute _ full := full
  css _ _ := (none, none)
  turn _ _ := id
  inner _ _ f := some f
  use := (whole, none, none)
  paint := (whole, ⟨0, 0, 20, 20⟩, [])

/-- Where the point (1, 1) of the content of the nodes of a picture is on the canvas. -/
def ones (l : List Entry) : List (Option Pt) := l.map fun e => e.within.map fun f => f.map (1, 1)

/-- A document: an `svg` element of 100 by 100 pixels without a view box around something. -/
def around (k : Node Attr) : List (Node Attr) := [.elem (svgName "svg") [px "width" 100, px "height" 100] [k]]

/-- A symbol with a view box that fits. -/
def symbolDoc : List (Node Attr) := around (.elem (svgName "symbol") [px "width" 10, px "height" 10, box 10 10] [])

theorem distinct_of {doc : List (Node Attr)}
    (h : ∀ l ∈ lines doc, ∀ n as ks, l.head? = some (.elem n as ks) → (as.map (·.name)).Nodup) : Distinct doc := by
  rintro n as ks ⟨anc, ha⟩
  exact h _ ha n as ks rfl

theorem distinct_around {n : EName} {as : List Attr} (h : (as.map (·.name)).Nodup) : Distinct (around (.elem n as [])) := by
  refine distinct_of ?_
  intro l hl m bs ks hh
  simp only [lines, around, linesAll, Node.lines, List.append_nil, List.mem_cons, List.not_mem_nil, or_false] at hl
  rcases hl with rfl | rfl
  · simp only [List.head?_cons, Option.some.injEq, Node.elem.injEq] at hh
    rw [← hh.2.1]
    decide
  · simp only [List.head?_cons, Option.some.injEq, Node.elem.injEq] at hh
    rw [← hh.2.1]
    exact h

/-- **C52 (violated: symbols)**: "This job should never visually change the document". The content of a symbol of 10 by 10 pixels that is
used with the size 20 by 20 shrinks to half its size. -/
theorem symbol_violated : ∃ (E : Env) (canvas : Pt) (doc : List (Node Attr)), Distinct doc ∧ (∀ n as, E.css n as = (none, none)) ∧
    ones (E.picture canvas doc) = [some (1, 1), some (2, 2)] ∧
    ones (E.picture canvas (removeViewBox true doc)) = [some (1, 1), some (1, 1)] :=
  ⟨{ plainEnv with use := (whole, some (.abs 20 .px), some (.abs 20 .px)) }, (100, 100), symbolDoc, distinct_around (by decide),
    fun _ _ => rfl, by decide +kernel, by decide +kernel⟩

/-- A pattern whose tile is the bounding box of what is painted. -/
def patternDoc : List (Node Attr) := around (.elem (svgName "pattern") [px "width" 1, px "height" 1, box 1 1] [])

/-- **C52 (violated: patterns)**: `patternUnits` is `objectBoundingBox` where it is not given, so that a pattern of the size 1 by 1 covers what
is painted, here 20 by 20 pixels. Its content shrinks. -/
theorem pattern_violated : ∃ (E : Env) (canvas : Pt) (doc : List (Node Attr)), Distinct doc ∧ (∀ n as, E.css n as = (none, none)) ∧
    E.use.2 = (none, none) ∧ ones (E.picture canvas doc) = [some (1, 1), some (20, 20)] ∧
    ones (E.picture canvas (removeViewBox true doc)) = [some (1, 1), some (1, 1)] :=
  ⟨plainEnv, (100, 100), patternDoc, distinct_around (by decide), fun _ _ => rfl, rfl, by decide +kernel, by decide +kernel⟩

/-- A pattern in the space of what is painted, whose tile does not begin in the origin. -/
def offsetDoc : List (Node Attr) := around (.elem (svgName "pattern")
  [raw "patternUnits" "userSpaceOnUse", px "x" 3, px "y" 4, px "width" 10, px "height" 10, box 10 10] [])

/-- **C52 (violated: tiles)**: the view box of a pattern begins in the corner of the tile; without a view box the content begins in the
origin of user space. -/
theorem offset_violated : ∃ (E : Env) (canvas : Pt) (doc : List (Node Attr)), Distinct doc ∧ (∀ n as, E.css n as = (none, none)) ∧
    E.use.2 = (none, none) ∧ ones (E.picture canvas doc) = [some (1, 1), some (4, 5)] ∧
    ones (E.picture canvas (removeViewBox true doc)) = [some (1, 1), some (1, 1)] :=
  ⟨plainEnv, (100, 100), offsetDoc, distinct_around (by decide), fun _ _ => rfl, rfl, by decide +kernel, by decide +kernel⟩

/-- A pattern in the space of what is painted. -/
def templateDoc : List (Node Attr) := around (.elem (svgName "pattern")
  [raw "patternUnits" "userSpaceOnUse", px "width" 10, px "height" 10, box 10 10, raw "href" "#other"] [])

/-- **C52 (violated: templates)**: a pattern without a view box takes the one of the pattern it refers to. -/
theorem template_violated : ∃ (E : Env) (canvas : Pt) (doc : List (Node Attr)), Distinct doc ∧ (∀ n as, E.css n as = (none, none)) ∧
    E.use.2 = (none, none) ∧ ones (E.picture canvas doc) = [some (1, 1), some (1, 1)] ∧
    ones (E.picture canvas (removeViewBox true doc)) = [some (1, 1), some (2, 2)] :=
  ⟨{ plainEnv with paint := (whole, ⟨0, 0, 20, 20⟩, [box 5 5]) }, (100, 100), templateDoc, distinct_around (by decide), fun _ _ => rfl, rfl,
    by decide +kernel, by decide +kernel⟩

/-- A document whose view box fits. -/
def rootDoc : List (Node Attr) := [.elem (svgName "svg") [px "width" 10, px "height" 10, box 10 10, raw "style" "width:100%;height:100%"] []]

/-- **C52 (violated: styles)**: `width` and `height` in a style override the attributes. -/
theorem style_violated : ∃ (E : Env) (canvas : Pt) (doc : List (Node Attr)), Distinct doc ∧
    ones (E.picture canvas doc) = [some (10, 10)] ∧ ones (E.picture canvas (removeViewBox true doc)) = [some (1, 1)] :=
  ⟨{ plainEnv with css := fun _ _ => (some (.percent 1), some (.percent 1)) }, (100, 100), rootDoc,
    distinct_of (by
      intro l hl m bs ks hh
      simp only [lines, rootDoc, linesAll, Node.lines, List.append_nil, List.mem_cons, List.not_mem_nil, or_false] at hl
      subst hl
      simp only [List.head?_cons, Option.some.injEq, Node.elem.injEq] at hh
      rw [← hh.2.1]
      decide), by decide +kernel, by decide +kernel⟩

/-- An `svg` element of 10 by 10 pixels inside one of 100 by 100. -/
def nestedDoc : List (Node Attr) := around (.elem (svgName "svg") [px "width" 10, px "height" 10, box 10 10] [])

/-- **C52 (violated: nested elements)**: "This job may affect the appearance of the document if the width/height does not match the
view-box". It also does if they match: an `svg` element inside another one grows to the size of the outer one. -/
theorem nested_violated : ∃ (E : Env) (doc : List (Node Attr)), Distinct doc ∧ (∀ n as, E.css n as = (none, none)) ∧
    (∀ p ∈ doc, ∀ n as ks, Occurs p.kids (.elem n as ks) → Fits as) ∧
    ones (E.picture (100, 100) doc) = [some (1, 1), some (1, 1)] ∧
    ones (E.picture (100, 100) (removeDimensions true doc)) = [some (1, 1), some (10, 10)] := by
  refine ⟨plainEnv, nestedDoc, distinct_around (by decide), fun _ _ => rfl, ?_, by decide +kernel, by decide +kernel⟩
  intro p hp n as ks ho
  simp only [nestedDoc, around, List.mem_singleton] at hp
  subst hp
  simp only [Node.kids, occurs_cons, not_occurs_nil, or_false, Node.elem.injEq] at ho
  obtain ⟨rfl, rfl, rfl⟩ := ho
  exact ⟨10, 10, 10, .px, 10, .px, by decide, by decide, by decide, by decide +kernel, by decide +kernel⟩

/-- A document whose view box is in error. -/
def ignoredDoc : List (Node Attr) := [.elem (svgName "svg") [px "width" 10, px "height" 10, raw "viewBox" "none"] []]

/-- **C52 (violated: view boxes in error)**: the dimensions are also removed if the value of `viewBox` is not a view box, so that the document
neither has a size nor a view box. The canvas is then the viewport. -/
theorem ignored_violated : ∃ (E : Env) (doc : List (Node Attr)), Distinct doc ∧ (∀ n as, E.css n as = (none, none)) ∧
    (content (E.picture (100, 100) doc)).map (·.base) = some (10, 10) ∧
    (content (E.picture (100, 100) (removeDimensions true doc))).map (·.base) = some (100, 100) :=
  ⟨plainEnv, ignoredDoc, distinct_of (by
      intro l hl m bs ks hh
      simp only [lines, ignoredDoc, linesAll, Node.lines, List.append_nil, List.mem_cons, List.not_mem_nil, or_false] at hl
      subst hl
      simp only [List.head?_cons, Option.some.injEq, Node.elem.injEq] at hh
      rw [← hh.2.1]
      decide), fun _ _ => rfl, by decide +kernel, by decide +kernel⟩

/-! ## Examples -/

/-- A document of one inch. -/
example : removeViewBox true [.elem (svgName "svg") [⟨plainName "width", .len (.abs 1 .inch)⟩, px "height" 48, box 96 48] []] =
    [.elem (svgName "svg") [⟨plainName "width", .len (.abs 1 .inch)⟩, px "height" 48] []] := by
  have h : viewBoxHook true (svgName "svg") [⟨plainName "width", .len (.abs 1 .inch)⟩, px "height" 48, box 96 48] =
    [⟨plainName "width", .len (.abs 1 .inch)⟩, px "height" 48] := by decide +kernel
  simp only [removeViewBox, editAll, edit, h, if_true]

/-- The conditions of `view_box_partial` hold for a document with a symbol, used without a size, and a settled pattern. -/
example (canvas : Pt) : plainEnv.picture canvas (removeViewBox true (around (.elem (svgName "symbol")
      [px "width" 10, px "height" 10, box 10 10] []))) =
    plainEnv.picture canvas (around (.elem (svgName "symbol") [px "width" 10, px "height" 10, box 10 10] [])) := by
  refine view_box_partial plainEnv canvas true _ (distinct_around (by decide)) (fun _ _ _ _ _ _ => rfl) (fun _ _ _ _ _ _ => ⟨rfl, rfl⟩) ?_
  intro n as ks ho hn
  simp only [around, occurs_cons, Node.kids, not_occurs_nil, or_false, Node.elem.injEq] at ho
  rcases ho with ⟨rfl, -⟩ | ⟨rfl, -⟩ <;> exact absurd hn.2 (by decide)

/-- A settled pattern. -/
example : Settled plainEnv [raw "patternUnits" "userSpaceOnUse", px "width" 10, px "height" 10, box 10 10] := by
  refine ⟨by decide, by decide, by decide, by decide⟩

/-- A document of 10 by 10 pixels on a canvas of 100 by 50. -/
example : ones (plainEnv.picture (100, 50) (removeDimensions true [.elem (svgName "svg") [px "width" 10, px "height" 10] []])) =
    [some (30, 5)] := by decide +kernel

/-- A document with a size in percent keeps it. -/
example : removeDimensions true [.elem (svgName "svg") [⟨plainName "width", .len (.percent 1)⟩, px "height" 10] []] =
    [.elem (svgName "svg") [⟨plainName "width", .len (.percent 1)⟩, px "height" 10] []] := by
  have h : dimensionsHook true (svgName "svg") [⟨plainName "width", .len (.percent 1)⟩, px "height" 10] =
    [⟨plainName "width", .len (.percent 1)⟩, px "height" 10] := by decide +kernel
  simp only [removeDimensions, editAll, edit, h, if_true]

end Verif.Viewport
