import Verif.Hidden.Props
import Verif.Unknowns.Limits
import Verif.Tree.Same

/-!
# C56: where removing hidden elements changes the picture, and examples
-/

namespace Verif.Hidden

open Verif.Tree Verif.Names
open Verif.Unknowns (Key Val Attr AId E Item el at' ofName svg word content)
open Verif.Cascade (Mode)

deriving instance DecidableEq for Cascade.Block, Unknowns.Attr, Except

/-- The default options. -/
def usual : Options := ⟨true, true, true, true, true, true, true, true, true, true, true, true, true, true, true⟩

/-- The text of a word. -/
def textOf : Val → List Char
  | .parts [.word s] => s.toList
  | _ => []

/-- The id in `#id` and `url(#id)`. -/
def fragment (l : List Char) : List (List Char) :=
  match l.dropWhile (· ≠ '#') with
  | [] => []
  | _ :: r => [r.takeWhile (· ≠ ')')]

/-- A path is written as a list of its commands. -/
def reading : Reading where
  text := textOf
  commands := fun | .parts l => l.length | _ => 0
  refs := fun | .plain _ v => fragment (textOf v) | _ => []
  white := fun c => c = ' '
  javascript := fun _ => false

/-- The values of properties without style sheets. -/
def given : Css := fun c k => Unpainted.value k c

def line : Attr := at' .D (.parts [.word "M0 0", .word "L1 1"])
def dot : Attr := at' .D (.parts [.word "M0 0"])
def named (s : String) : Attr := at' .Id (word s)
def gone' : Attr := at' .Display (word "none")
def clear' : Attr := at' .Opacity (.parts [.num 0])

/-- Hash sets in the order of the document. -/
def inOrder : List Nat → Nat := fun _ => 0

/-- `Errors: Never`: `<use href=""/>` panics. -/
theorem panic_violated :
    job usual reading plainStyles inOrder [el "svg" [] [el "use" [at' .Href (word "")] []]] = .error .panic := by decide +kernel

/-- So does `<use href="é.svg#a"/>`. -/
theorem bytes_violated :
    job usual reading plainStyles inOrder [el "svg" [] [el "use" [at' .Href (word "é.svg#a")] []]] = .error .panic := by decide +kernel

/-- Styles with a rule for rectangles, `@media print { rect { display: none } }`. -/
def printed : List (Node Attr) → Styles := fun _ => fun
  | [] => none
  | e :: _ => some fun k => if e.1.is "rect" ∧ k = .Display then some (word "none", .dynamic) else none

/-- The condition is not asked for: the rectangle is gone on the screen as well. -/
theorem media_violated :
    job usual reading printed inOrder [el "svg" [] [el "rect" [] []]] = .ok [el "svg" [] []] := by decide +kernel

/-- `visible` is looked for in attributes only: `<g visibility="hidden"><rect style="visibility:visible"/></g>` is removed. -/
theorem visible_violated :
    let r := [Attr.style ⟨[(.Visibility, word "visible")], []⟩]
    let g := [at' .Visibility (word "hidden")]
    job usual reading plainStyles inOrder [el "svg" [] [el "g" g [el "rect" r []]]] = .ok [el "svg" [] []] ∧
    given [ofName "rect" r, ofName "g" g, svg] .Visibility = word "visible" := ⟨by decide +kernel, by decide +kernel⟩

/-- What paints, clips or masks need not be rendered itself: the gradient in
`<g opacity="0"><linearGradient id="a"/></g><rect fill="url(#a)"/>` is removed. -/
theorem gradient_violated :
    let r := el "rect" [at' .Fill (word "url(#a)")] []
    job usual reading plainStyles inOrder [el "svg" [] [el "g" [clear'] [el "linearGradient" [named "a"] []], r]] =
      .ok [el "svg" [] [r]] := by decide +kernel

/-- The same with `<defs display="none">`, where the property means nothing. -/
theorem defs_violated :
    let r := el "rect" [at' .Fill (word "url(#a)")] []
    job usual reading plainStyles inOrder [el "svg" [] [el "defs" [gone'] [el "linearGradient" [named "a"] []], r]] =
      .ok [el "svg" [] [r]] := by decide +kernel

/-- Only a `use` counts as a reference to what is hidden: the path under a text is removed. -/
theorem text_path_violated :
    let t := el "text" [] [el "textPath" [at' .Href (word "#a")] [.text "a".toList]]
    job usual reading plainStyles inOrder [el "svg" [] [el "path" [named "a", line, at' .Visibility (word "hidden")] [], t]] =
      .ok [el "svg" [] [t]] := by decide +kernel

/-- A `use` in a clipping path, mask or symbol does not count either. -/
theorem clip_violated :
    let c := el "clipPath" [named "c"] [el "use" [at' .Href (word "#a")] []]
    let r := el "rect" [at' .ClipPath (word "url(#c)")] []
    job usual reading plainStyles inOrder [el "svg" [] [el "g" [gone'] [el "path" [named "a", line] []], c, r]] =
      .ok [el "svg" [] [c, r]] := by decide +kernel

/-- What is used is not within the group of the original: in `<g opacity="0"><path id="a" …/></g><use href="#a"/>` it is seen. -/
theorem used_violated :
    let u := el "use" [at' .Href (word "#a")] []
    job usual reading plainStyles inOrder [el "svg" [] [el "g" [clear'] [el "path" [named "a", line] []], u]] =
      .ok [el "svg" [] [u]] := by decide +kernel

/-- A pattern without a width can be a template of another. -/
theorem template_violated :
    let q := el "pattern" [named "q", at' .Href (word "#p"), at' .WidthPattern (.parts [.num 1])] []
    let r := el "rect" [at' .Fill (word "url(#q)")] []
    job usual reading plainStyles inOrder [el "svg" []
      [el "pattern" [named "p", at' .WidthPattern (.parts [.num 0])] [el "circle" [] []], q, r]] = .ok [el "svg" [] [q, r]] := by decide +kernel

/-- A path of one point gets its markers where it is used: this `use`, with a marker, is removed. -/
theorem marker_violated :
    let m := el "marker" [named "m"] [el "circle" [] []]
    let u := [at' .Href (word "#a"), at' .MarkerStart (word "url(#m)")]
    job usual reading plainStyles inOrder [el "svg" [] [m, el "defs" [] [el "path" [named "a", dot] []], el "use" u []]] =
      .ok [el "svg" [] [m]] := by decide +kernel

/-- A style sheet counts wherever it is, but goes with the group it is in. -/
theorem sheet_violated :
    job usual reading plainStyles inOrder
      [el "svg" [] [el "g" [clear'] [el "style" [] [.css "rect{fill:red}".toList]], el "rect" [] []]] =
      .ok [el "svg" [] [el "rect" [] []]] := by decide +kernel

/-- A `switch` takes its first child, be it displayed or not. Without that, another one appears. -/
theorem switch_violated :
    job usual reading plainStyles inOrder [el "svg" [] [el "switch" [] [el "g" [gone'] [], el "rect" [] []]]] =
      .ok [el "svg" [] [el "switch" [] [el "rect" [] []]]] := by decide +kernel

/-- The result depends on the order of a hash set: of `<defs><defs/></defs>` one stays, or none. -/
theorem order_violated :
    job usual reading plainStyles List.length [el "svg" [] [el "defs" [] [el "defs" [] []]]] = .ok [el "svg" [] [el "defs" [] []]] ∧
    job usual reading plainStyles (fun p => 9 - p.length) [el "svg" [] [el "defs" [] [el "defs" [] []]]] = .ok [el "svg" [] []] :=
  ⟨by decide +kernel, by decide +kernel⟩

/-! ## Examples -/

def gradient : Node Attr := el "linearGradient" [named "a"] []
def path' : Node Attr := el "path" [named "b", line] []
def painted : Node Attr := el "rect" [at' .Fill (word "url(#a)")] []
def user : Node Attr := el "use" [at' .Href (word "#b")] []

/-- `<svg><defs>…</defs><linearGradient id="z"/><g display="none"><rect/></g><rect fill="url(#a)"/><use href="#b"/>…</svg>`. -/
def before : List (Node Attr) := [el "svg" [] [el "defs" [] [gradient, path'], el "linearGradient" [named "z"] [],
  el "g" [gone'] [el "rect" [] []], painted, user, el "circle" [at' .RGeometry (.parts [.num 0])] [], el "g" [clear'] [el "rect" [] []]]]

def after : List (Node Attr) := [el "svg" [] [el "defs" [] [gradient, path'], painted, user]]

theorem before_after : job usual reading plainStyles inOrder before = .ok after := by decide +kernel

theorem before_in (c : List E) (h : In before c) : c = [svg] ∨ c = [ofName "defs" [], svg] ∨
    c = [ofName "linearGradient" [named "a"], ofName "defs" [], svg] ∨ c = [ofName "path" [named "b", line], ofName "defs" [], svg] ∨
    c = [ofName "linearGradient" [named "z"], svg] ∨ c = [ofName "g" [gone'], svg] ∨ c = [ofName "rect" [], ofName "g" [gone'], svg] ∨
    c = [ofName "rect" [at' .Fill (word "url(#a)")], svg] ∨ c = [ofName "use" [at' .Href (word "#b")], svg] ∨
    c = [ofName "circle" [at' .RGeometry (.parts [.num 0])], svg] ∨ c = [ofName "g" [clear'], svg] ∨
    c = [ofName "rect" [], ofName "g" [clear'], svg] := by
  simpa [In, content, before, gradient, path', painted, user, Unknowns.itemsAll, Unknowns.items, Unknowns.el, svg, ofName] using h

/-- An element with one of these names is nothing that may be missing. -/
theorem sound_step (e : E) (cs : List E) (doc : List (Node Attr)) (h1 : given (e :: cs) .Display ≠ word "none")
    (h2 : given (e :: cs) .Opacity ≠ .parts [.num 0])
    (h3 : ∀ s ∈ ["circle", "ellipse", "rect", "image", "path", "polyline", "polygon", "pattern", "use"], e.1.is s = false)
    (h4 : Sound given reading doc cs) : Sound given reading doc (e :: cs) := by
  intro x xs hx
  rcases List.suffix_cons_iff.mp hx with hx | hx
  · obtain ⟨rfl, rfl⟩ := List.cons.inj hx
    refine ⟨?_, ?_, ?_, ?_, ?_⟩
    · rintro (h | h)
      · exact h1 h
      · exact h2 h
    · simp [Flat, h3]
    · simp [Dot, h3]
    · simp [Void, h3]
    · simp [Vain, Uses, h3]
  · exact h4 x xs hx

theorem sound_nil (doc : List (Node Attr)) : Sound given reading doc [] := by
  intro e cs h
  simp at h

theorem sound_defs (doc : List (Node Attr)) : Sound given reading doc [ofName "defs" [], svg] :=
  sound_step _ _ _ (by decide +kernel) (by decide +kernel) (by decide +kernel)
    (sound_step _ _ _ (by decide +kernel) (by decide +kernel) (by decide +kernel) (sound_nil doc))

theorem before_dots (t d : E) (cs : List E) (v : Val) (h : In before (t :: d :: cs)) (hd : d.1.is "defs" = true)
    (ht : t.1.is "path" = true) (hv : attr .D t.2 = some v) : reading.commands v ≠ 1 := by
  rcases before_in _ h with h | h | h | h | h | h | h | h | h | h | h | h <;>
    simp only [List.cons.injEq, reduceCtorEq, and_false] at h <;>
    obtain ⟨rfl, rfl, rfl⟩ := h <;>
    first
      | (exact absurd hd (by decide +kernel))
      | (exact absurd ht (by decide +kernel))
      | skip
  simp [attr, ofName, named, line, at'] at hv
  subst hv
  decide +kernel

theorem before_sight (e : E) (es : List E) (h : In before (e :: es)) (he : e.1.is "defs" = true) :
    Sound given reading before (e :: es) ∧ given (e :: es) .Visibility = word "visible" := by
  rcases before_in _ h with h | h | h | h | h | h | h | h | h | h | h | h <;>
    obtain ⟨rfl, rfl⟩ := List.cons.inj h <;>
    first
      | (exact absurd he (by decide +kernel))
      | exact ⟨sound_defs before, by rfl⟩

open Classical in
/-- The hypotheses of `picture_kept_partial` hold for this document, whatever options are chosen. -/
example (o : Options) (order : List Nat → Nat) (doc' : List (Node Attr)) (h : job o reading plainStyles order before = .ok doc') :
    (content doc').filter (Shown given reading before) = (content before).filter (Shown given reading before) := by
  refine picture_kept_partial ?_ ?_ ?_ before_sight before_dots h
  · intro c s hc
    simp [content, before, gradient, path', painted, user, Unknowns.itemsAll, Unknowns.items, Unknowns.el] at hc
  · intro e cs hc b
    rcases before_in _ hc with h | h | h | h | h | h | h | h | h | h | h | h <;>
      obtain ⟨rfl, rfl⟩ := List.cons.inj h <;>
      simp [svg, ofName, named, line, at', gone', clear']
  · intro e cs hc
    rcases before_in _ hc with h | h | h | h | h | h | h | h | h | h | h | h <;>
      obtain ⟨rfl, rfl⟩ := List.cons.inj h <;>
      decide +kernel

/-- The rectangle with the gradient is seen. -/
example : Shown given reading before (.elem [ofName "rect" [at' .Fill (word "url(#a)")], svg]) := by
  refine ⟨?_, by rfl⟩
  intro e cs h
  simp only [List.suffix_cons_iff, List.suffix_nil, List.cons.injEq, reduceCtorEq, or_false] at h
  rcases h with ⟨rfl, rfl⟩ | ⟨rfl, rfl⟩
  · refine ⟨?_, ?_, ?_, ?_, ?_⟩
    · rintro (h | h) <;> exact absurd h (by decide +kernel)
    · rintro (h | h | h | h | h | h)
      · exact absurd h.1 (by decide +kernel)
      · exact absurd h.1 (by decide +kernel)
      · rcases h.2 with ⟨v, h, _⟩ | ⟨v, h, _⟩ <;> exact absurd h (by simp [attr, ofName, at'])
      · exact absurd h.1 (by decide +kernel)
      · exact absurd h.1 (by decide +kernel)
      · rcases h.1 with h | h <;> exact absurd h (by decide +kernel)
    · exact fun h => absurd h.1 (by decide +kernel)
    · rintro ⟨s, hs, h⟩
      simp only [List.mem_cons, List.not_mem_nil, or_false] at hs
      rcases hs with rfl | rfl | rfl | rfl | rfl | rfl | rfl | rfl | rfl | rfl <;> exact absurd h (by decide +kernel)
    · rintro ⟨_, _, _, _, h, _⟩
      exact absurd h.1 (by decide +kernel)
  · refine ⟨?_, ?_, ?_, ?_, ?_⟩
    · rintro (h | h) <;> exact absurd h (by decide +kernel)
    · rintro (h | h | h | h | h | h)
      · exact absurd h.1 (by decide +kernel)
      · exact absurd h.1 (by decide +kernel)
      · exact absurd h.1 (by decide +kernel)
      · exact absurd h.1 (by decide +kernel)
      · exact absurd h.1 (by decide +kernel)
      · rcases h.1 with h | h <;> exact absurd h (by decide +kernel)
    · exact fun h => absurd h.1 (by decide +kernel)
    · rintro ⟨s, hs, h⟩
      simp only [List.mem_cons, List.not_mem_nil, or_false] at hs
      rcases hs with rfl | rfl | rfl | rfl | rfl | rfl | rfl | rfl | rfl | rfl <;> exact absurd h (by decide +kernel)
    · rintro ⟨_, _, _, _, h, _⟩
      exact absurd h.1 (by decide +kernel)

/-- `nothing_new` for this document. -/
example : (content after).Sublist (content before) := nothing_new before_after

/-- `succeeds_partial`: the only link is `#b`. -/
example (o : Options) (order : List Nat → Nat) : ∃ doc', job o reading (fun _ _ => some fun _ => none) order before = .ok doc' := by
  refine succeeds_partial o reading _ order before (fun _ _ => by simp) ?_
  intro e cs k v hc hu hk hv
  rcases before_in _ hc with h | h | h | h | h | h | h | h | h | h | h | h <;>
    obtain ⟨rfl, rfl⟩ := List.cons.inj h <;>
    first
      | (exact absurd hu (by decide +kernel))
      | skip
  simp only [ofName, at', List.mem_cons, Attr.plain.injEq, List.not_mem_nil, or_false] at hv
  obtain ⟨_, rfl⟩ := hv
  exact ⟨'#', ['b'], by decide +kernel, by decide +kernel⟩

/-- `targets_kept_partial`: the rectangle refers to the gradient, which is in the result. -/
example : In after [ofName "linearGradient" [named "a"], ofName "defs" [], svg] := by
  simp [In, content, after, gradient, path', painted, user, Unknowns.itemsAll, Unknowns.items, Unknowns.el, svg, ofName]

/-- `transparent_gone`: the last group is not in the result. -/
example (cs : List E) : ¬ In after (ofName "g" [clear'] :: cs) := by
  simp [In, content, after, gradient, path', painted, user, Unknowns.itemsAll, Unknowns.items, Unknowns.el, ofName, lit]

/-- `flat_gone`: the circle is asked for. -/
example : Asked usual reading before (ofName "circle" [at' .RGeometry (.parts [.num 0])]) [svg] := by
  refine .inl ⟨by decide +kernel, rfl, .inl rfl, ?_⟩
  intro i hi
  simp only [content, before, gradient, path', painted, user, Unknowns.itemsAll, Unknowns.items, Unknowns.el] at hi
  simp only [Bool.false_eq_true, if_false, List.mem_cons, List.not_mem_nil, or_false, List.append_nil,
    List.cons_append, List.nil_append] at hi
  rcases hi with rfl | rfl | rfl | rfl | rfl | rfl | rfl | rfl | rfl | rfl | rfl | rfl <;>
    simp [ofName, svg, at', lit, named, gone', clear']

/-- `unreferenced_gone`: nothing refers to the second gradient. -/
example : Unreferenced reading before [ofName "linearGradient" [named "z"], svg] := by
  intro e cs hc hs i hi r rs a hr ha hid
  have : e :: cs = [ofName "linearGradient" [named "z"], svg] := by
    rcases before_in _ hc with h | h | h | h | h | h | h | h | h | h | h | h <;> rw [h] at hs ⊢ <;>
      first
        | rfl
        | (have := hs.length_le; simp at this; done)
        | (simp only [List.suffix_cons_iff, List.suffix_nil, List.cons.injEq, reduceCtorEq, or_false, and_false, false_or,
             and_true] at hs
           simp [ofName, named, at', lit] at hs)
  obtain ⟨rfl, rfl⟩ := List.cons.inj this
  rw [show idsOf reading (ofName "linearGradient" [named "z"]).2 = [['z']] by decide +kernel, List.mem_singleton] at hi
  subst hi
  rcases before_in _ hr with h | h | h | h | h | h | h | h | h | h | h | h <;>
    obtain ⟨rfl, rfl⟩ := List.cons.inj h <;>
    simp only [svg, ofName, named, line, gone', clear', List.mem_cons, List.not_mem_nil, or_false] at ha <;>
    first
      | (subst ha; first | exact absurd rfl (hid _) | decide +kernel)
      | (rcases ha with rfl | rfl <;> first | exact absurd rfl (hid _) | decide +kernel)

/-- `off_kept`: the rectangle that is seen is placed. -/
example : Placed (.elem [ofName "rect" [], svg]) := by
  intro e he
  simp only [chainOf, List.mem_cons, List.not_mem_nil, or_false] at he
  rcases he with rfl | rfl <;>
  · rintro ⟨s, hs, h⟩
    simp only [List.mem_cons, List.not_mem_nil, or_false] at hs
    rcases hs with rfl | rfl | rfl | rfl | rfl | rfl | rfl | rfl | rfl | rfl <;> exact absurd h (by decide +kernel)

/-- `order_partial`: this document has one `defs`. -/
example (o : Options) (a b : List Nat → Nat) : job o reading plainStyles a before = job o reading plainStyles b before := by
  refine order_partial b ?_
  intro e p cs h he
  rcases before_in _ h with h | h | h | h | h | h | h | h | h | h | h | h <;>
    simp only [List.cons.injEq, reduceCtorEq, and_false] at h <;>
    obtain ⟨rfl, rfl, rfl⟩ := h <;> first | decide +kernel | exact absurd he (by decide +kernel)

end Verif.Hidden
