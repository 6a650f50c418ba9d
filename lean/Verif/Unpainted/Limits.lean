import Verif.Unpainted.Props
import Verif.Unknowns.Limits

/-!
# C55: where removing strokes and fills changes the picture, and examples
-/

namespace Verif.Unpainted

open Verif.Tree Verif.Names
open Verif.Unknowns (Key Val Attr AId E El Item el at' ofName svg word content inlineBlock property)
open Verif.Retain (Wellformed idOf)

/-- The options of the job. -/
def usual : Options := ⟨true, true, false⟩
def noScript : Val → Bool := fun _ => false

/-- In `<path style="stroke:red" stroke-width="0"/>` nothing is stroked; without `stroke-width` the stroke is drawn. -/
theorem style_violated :
    let st : Attr := .style ⟨[(.Stroke, word "red")], []⟩
    job usual noScript [el "svg" [] [el "path" [st, at' .StrokeWidth (.parts [.num 0])] []]] =
      some [el "svg" [] [el "path" [st] []]] ∧
    strokeOf [ofName "path" [st, at' .StrokeWidth (.parts [.num 0])], svg] = none ∧
    strokeOf [ofName "path" [st], svg] ≠ none := by
  refine ⟨by rfl, ?_, ?_⟩
  · rw [strokeOf_none]
    exact .inr (.inr (.inl (by rfl)))
  · rw [ne_eq, strokeOf_none]
    rintro (h | h | h)
    · exact absurd h (by decide +kernel)
    · exact absurd h (by decide +kernel)
    · exact absurd (of_zero _ h) (by decide +kernel)

/-- The same for `<path style="fill:red" fill-opacity="0"/>`. -/
theorem fill_style_violated :
    let st : Attr := .style ⟨[(.Fill, word "red")], []⟩
    job usual noScript [el "svg" [] [el "path" [st, at' .FillOpacity (.parts [.num 0])] []]] =
      some [el "svg" [] [el "path" [st, at' .Fill (word "none")] []]] ∧
    fillOf [ofName "path" [st, at' .FillOpacity (.parts [.num 0])], svg] = none ∧
    fillOf [ofName "path" [st, at' .Fill (word "none")], svg] ≠ none := by
  refine ⟨by rfl, ?_, ?_⟩
  · rw [fillOf_none]
    exact .inr (by rfl)
  · rw [ne_eq, fillOf_none]
    rintro (h | h)
    · exact absurd h (by decide +kernel)
    · exact absurd h (by decide +kernel)

theorem markersOf_some (c : List E) (v : Val) (h : value .MarkerStart c = v) (hv : v ≠ word "none") :
    markersOf c = some ([Key.MarkerStart, .MarkerMid, .MarkerEnd, .StrokeWidth].map (value · c)) := by
  unfold markersOf
  rw [if_neg]
  rintro ⟨h1, _⟩
  exact hv (h.symm.trans h1)

/-- Only `marker-end` is looked for. The unit of a marker is the width of the stroke, drawn or not. -/
theorem marker_violated :
    let m := at' .MarkerStart (word "url(#m)")
    job usual noScript [el "svg" [] [el "path" [m, at' .StrokeWidth (.parts [.num 5])] []]] =
      some [el "svg" [] [el "path" [m] []]] ∧
    markersOf [ofName "path" [m, at' .StrokeWidth (.parts [.num 5])], svg] ≠ markersOf [ofName "path" [m], svg] := by
  refine ⟨by rfl, ?_⟩
  rw [markersOf_some _ (word "url(#m)") (by rfl) (by decide), markersOf_some _ (word "url(#m)") (by rfl) (by decide)]
  decide +kernel

/-- With a width of zero the `marker-end` is not looked for, and the marker gets a size. -/
theorem marker_width_violated :
    let m := [at' .MarkerStart (word "url(#m)"), at' .MarkerEnd (word "url(#m)")]
    job usual noScript [el "svg" [] [el "path" (m ++ [at' .StrokeWidth (.parts [.num 0])]) []]] =
      some [el "svg" [] [el "path" m []]] ∧
    markersOf [ofName "path" (m ++ [at' .StrokeWidth (.parts [.num 0])]), svg] ≠ markersOf [ofName "path" m, svg] := by
  refine ⟨by rfl, ?_⟩
  rw [markersOf_some _ (word "url(#m)") (by rfl) (by decide), markersOf_some _ (word "url(#m)") (by rfl) (by decide)]
  decide +kernel

/-- `marker` in the `style` of an ancestor stands for `marker-end` as well, but is not seen as such. -/
theorem marker_shorthand_violated :
    let g : List Attr := [.style ⟨[(.Marker, word "url(#m)")], []⟩]
    job usual noScript [el "g" g [el "path" [at' .StrokeWidth (.parts [.num 5])] []]] =
      some [el "g" g [el "path" [] []]] ∧
    markersOf [ofName "path" [at' .StrokeWidth (.parts [.num 5])], ofName "g" g] ≠ markersOf [ofName "path" [], ofName "g" g] := by
  refine ⟨by rfl, ?_⟩
  rw [markersOf_some _ (word "url(#m)") (by rfl) (by decide), markersOf_some _ (word "url(#m)") (by rfl) (by decide)]
  decide +kernel

/-- What is within a shape inherits from it: in `<path stroke-width="5"><mask><circle stroke="red"/></mask></path>` the circle gets
a thinner stroke. -/
theorem nested_violated :
    let red := [at' .Stroke (word "red")]
    job usual noScript [el "path" [at' .StrokeWidth (.parts [.num 5])] [el "mask" [] [el "circle" red []]]] =
      some [el "path" [] [el "mask" [] [el "circle" red []]]] ∧
    value .StrokeWidth [ofName "circle" red, ofName "mask" [], ofName "path" [at' .StrokeWidth (.parts [.num 5])]] =
      .parts [.num 5] ∧
    value .StrokeWidth [ofName "circle" red, ofName "mask" [], ofName "path" []] = .parts [.px 1] :=
  ⟨by rfl, by rfl, by rfl⟩

/-- An animation starts from a stroke that is not drawn: with `<animate attributeName="stroke-width" to="5"/>` the stroke of
`<path stroke="red" stroke-width="0">` grows, and without `stroke` there is none. -/
theorem animation_violated :
    let grow := el "animate" [at' .AttributeName (word "stroke-width"), at' .To (.parts [.num 5])] []
    let path := [at' .Stroke (word "red"), at' .StrokeWidth (.parts [.num 0])]
    job usual noScript [el "svg" [] [el "path" path [grow]]] = some [el "svg" [] [el "path" [] [grow]]] ∧
    value .Stroke [ofName "path" path, svg] = word "red" ∧ value .Stroke [ofName "path" [], svg] = word "none" :=
  ⟨by rfl, by rfl, by rfl⟩

/-- With `removeNone`, a path goes away that is stroked but not filled, and one that is filled but not stroked. -/
theorem none_violated :
    let line := [at' .Fill (word "none"), at' .Stroke (word "red")]
    let area := [at' .Fill (word "red"), at' .Stroke (word "none")]
    job ⟨true, true, true⟩ noScript [el "svg" [] [el "path" line [], el "path" area []]] = some [el "svg" [] []] ∧
    strokeOf [ofName "path" line, svg] ≠ none ∧ fillOf [ofName "path" area, svg] ≠ none := by
  refine ⟨by rfl, ?_, ?_⟩
  · rw [ne_eq, strokeOf_none]
    rintro (h | h | h)
    · exact absurd h (by decide +kernel)
    · exact absurd h (by decide +kernel)
    · exact absurd (of_zero _ h) (by decide +kernel)
  · rw [ne_eq, fillOf_none]
    rintro (h | h)
    · exact absurd h (by decide +kernel)
    · exact absurd h (by decide +kernel)

/-! ## Examples -/

/-- A document with a stroke that is inherited and not drawn, a fill that is not drawn, and an element with an id. -/
def sample : List (Node Attr) :=
  [el "g" [at' .Stroke (word "red")]
    [el "path" [at' .D (word "M0"), at' .StrokeWidth (.parts [.num 0]), at' .StrokeLinecap (word "round")] [],
     el "rect" [at' .FillOpacity (.parts [.num 0]), at' .FillRule (word "evenodd"), at' .Transform (.parts [.num 1])] [],
     el "path" [at' .Id (word "a"), at' .StrokeWidth (.parts [.num 0])] []]]

def sampleOut : List (Node Attr) :=
  [el "g" [at' .Stroke (word "red")]
    [el "path" [at' .D (word "M0"), at' .Stroke (word "none")] [],
     el "rect" [at' .Transform (.parts [.num 1]), at' .Fill (word "none")] [],
     el "path" [at' .Id (word "a"), at' .StrokeWidth (.parts [.num 0])] []]]

/-- The job changes this document (`succeeds`). -/
example : job usual noScript sample = some sampleOut := by rfl

theorem sample_wellformed : Wellformed sample := by
  intro e cs h
  simp [sample, content, Unknowns.itemsAll, Unknowns.items, el] at h
  rcases h with ⟨rfl, rfl⟩ | ⟨rfl, rfl⟩ | ⟨rfl, rfl⟩ | ⟨rfl, rfl⟩ <;> decide

/-- The stroke and the fill that are not drawn (`picture_partial`, `others_kept`). -/
example :=
  picture_partial usual rfl noScript sample sampleOut sample_wellformed (by rfl)

/-- The premises of `picture_partial` for the path, and what is drawn of it. -/
example :
    let g := ofName "g" [at' .Stroke (word "red")]
    let path := ofName "path" [at' .D (word "M0"), at' .StrokeWidth (.parts [.num 0]), at' .StrokeLinecap (word "round")]
    (∀ x ∈ [g], ¬ Shape x) ∧ Shape path ∧ (∀ k ∈ fillKeys ++ strokeKeys, Silent k path) ∧ strokeOf [path, g] = none ∧
    fillOf [path, g] ≠ none := by
  refine ⟨?_, ⟨"path", by decide, by decide⟩, ?_, ?_, ?_⟩
  · rintro x hx ⟨s, hs, h⟩
    simp only [List.mem_singleton] at hx
    subst hx
    simp only [List.mem_cons, List.not_mem_nil, or_false] at hs
    rcases hs with rfl | rfl | rfl | rfl | rfl | rfl | rfl <;> exact absurd h (by decide)
  · intro k _ b hb
    simp [ofName, at'] at hb
  · rw [strokeOf_none]
    exact .inr (.inr (.inl (by rfl)))
  · rw [ne_eq, fillOf_none]
    rintro (h | h)
    · exact absurd h (by decide +kernel)
    · exact absurd h (by decide +kernel)

/-- With `removeNone` the path and the rectangle go (`none_partial`). -/
example : (job ⟨true, true, true⟩ noScript sample).map (fun d => (content d).length) = some 2 := by rfl

/-- A document with a script stays as it is (`skips`). -/
example : ∃ n as ks, Occurs [el "svg" [] [el "script" [] [], el "path" [at' .StrokeWidth (.parts [.num 0])] []]] (.elem n as ks) ∧
    Live noScript n as ks :=
  ⟨⟨.std .svg, lit "script"⟩, [], [], ⟨[_], by simp [lines, linesAll, Node.lines, el]; rfl⟩, .inr (.inl (by decide))⟩

/-- The sample has no script and no style sheet (`useless_gone`). -/
example : ∀ n as ks, Occurs sample (.elem n as ks) → ¬ Live noScript n as ks := by
  intro n as ks h hl
  have : (hasScript noScript sample || hasSheet sample) = true := (live_iff _ _).mpr ⟨n, as, ks, h, hl⟩
  exact absurd this (by decide)

end Verif.Unpainted
