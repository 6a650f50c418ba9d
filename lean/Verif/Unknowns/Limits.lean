import Verif.Unknowns.Props

/-!
# C53: where removing changes how a document looks
-/

namespace Verif.Unknowns

open Verif.Tree Verif.Names
open Verif.Cascade (Block Rule Level Computed Mode)

/-- The default options. -/
def usual : Options := ⟨true, true, true, true, true, true, true, false⟩

/-- An element without a prefix. -/
def el (s : String) (as : List Attr) (ks : List (Node Attr)) : Node Attr := .elem ⟨.std .svg, lit s⟩ as ks
def at' (k : Key) (v : Val) : Attr := .plain (.known k) v

/-- Selectors that are names of elements. -/
def byName (ss : List String) : List E → Option Bool
  | [] => some false
  | e :: _ => some (ss.all fun s => e.1.is s)

/-- The job without style sheets. -/
def plainRun : Run String Unit := ⟨usual, byName, [], id⟩

/-- The same with one rule, for a name of an element. -/
def ruleRun (s : String) (k : Key) (v : Val) : Run String Unit := ⟨usual, byName, [.style [(s, 1)] ⟨[(k, v)], []⟩], id⟩

def svg : E := (⟨.std .svg, lit "svg"⟩, [])
def ofName (s : String) (as : List Attr) : E := (⟨.std .svg, lit s⟩, as)

/-- The id of an element that is used is not looked for: an element that is used has the ancestors of the `use` as well, and in
`<g id="a"><rect stroke-width="1"/></g><g stroke-width="5"><use href="#a"/></g>` the rectangle gets thicker where it is used. -/
theorem use_violated (fonts : Val → List (Key × Val)) (holds : Unit → Bool) :
    let g := [at' .Id (word "a")]
    let rect := [at' .StrokeWidth (.parts [.px 1])]
    let wide := [at' .StrokeWidth (.parts [.px 5])]
    let use := [at' .Href (word "#a")]
    job plainRun [el "svg" [] [el "g" g [el "rect" rect []], el "g" wide [el "use" use []]]] =
      some [el "svg" [] [el "g" g [el "rect" [] []], el "g" wide [el "use" use []]]] ∧
    styleOf plainRun fonts holds [ofName "rect" rect, ofName "g" g, ofName "use" use, ofName "g" wide, svg] .StrokeWidth =
      .parts [.px 1] ∧
    styleOf plainRun fonts holds [ofName "rect" [], ofName "g" g, ofName "use" use, ofName "g" wide, svg] .StrokeWidth =
      .parts [.px 5] :=
  ⟨by rfl, by rfl, by rfl⟩

/-- The size of a font in pixels: what is given in `em` is relative to the parent. -/
def fontPixels : List E → Rat
  | [] => 16
  | e :: cs => match (e.2.filterMap property).find? (·.1 == .FontSize) with
    | some (_, .parts [.px q]) => q
    | some (_, .parts [.dim q "em"]) => q * fontPixels cs
    | _ => fontPixels cs

/-- The same value is not the same size when it is relative: with `font-size="2em"` inside of `font-size="2em"`, the text gets half
as large. -/
theorem relative_violated :
    let two := [at' .FontSize (.parts [.dim 2 "em"])]
    job plainRun [el "svg" [] [el "g" two [el "text" two [.text "a".toList]]]] =
      some [el "svg" [] [el "g" two [el "text" [] [.text "a".toList]]]] ∧
    fontPixels [ofName "text" two, ofName "g" two, svg] = 64 ∧ fontPixels [ofName "text" [], ofName "g" two, svg] = 32 :=
  ⟨by rfl, by decide +kernel, by decide +kernel⟩

/-- Shorthands are not looked into: `<g style="marker:url(#m)"><path marker-start="none"/></g>` gets markers. -/
theorem shorthand_violated (fonts : Val → List (Key × Val)) (holds : Unit → Bool) :
    let g := [Attr.style ⟨[(.Marker, word "url(#m)")], []⟩]
    let path := [at' .MarkerStart (word "none")]
    job plainRun [el "svg" [] [el "g" g [el "path" path []]]] = some [el "svg" [] [el "g" g [el "path" [] []]]] ∧
    styleOf plainRun fonts holds [ofName "path" path, ofName "g" g, svg] .MarkerStart = word "none" ∧
    styleOf plainRun fonts holds [ofName "path" [], ofName "g" g, svg] .MarkerStart = word "url(#m)" :=
  ⟨by rfl, by rfl, by rfl⟩

/-- An attribute of the parent is taken to win over a rule: with `g { fill-rule: nonzero }`, the path in
`<g fill-rule="evenodd"><path fill-rule="evenodd"/></g>` is filled otherwise. -/
theorem rule_violated (fonts : Val → List (Key × Val)) (holds : Unit → Bool) :
    let r := ruleRun "g" .FillRule (word "nonzero")
    let odd := [at' .FillRule (word "evenodd")]
    job r [el "svg" [] [el "g" odd [el "path" odd []]]] = some [el "svg" [] [el "g" odd [el "path" [] []]]] ∧
    styleOf r fonts holds [ofName "path" odd, ofName "g" odd, svg] .FillRule = word "evenodd" ∧
    styleOf r fonts holds [ofName "path" [], ofName "g" odd, svg] .FillRule = word "nonzero" :=
  ⟨by rfl, by rfl, by rfl⟩

/-- Whether the first element has a `fill-rule`. -/
def hasFillRule (_ : List Unit) : List E → Option Bool
  | [] => some false
  | e :: _ => some (e.2.any fun | .plain (.known .FillRule) _ => true | _ => false)

/-- Attributes are removed that selectors ask for: with `[fill-rule] { opacity: 0 }`, a path appears. -/
theorem selector_violated (fonts : Val → List (Key × Val)) (holds : Unit → Bool) :
    let r : Run Unit Unit := ⟨usual, hasFillRule, [.style [((), 1)] ⟨[(.Opacity, .parts [.num 0])], []⟩], id⟩
    let path := [at' .FillRule (word "nonzero")]
    job r [el "svg" [] [el "path" path []]] = some [el "svg" [] [el "path" [] []]] ∧
    styleOf r fonts holds [ofName "path" path, svg] .Opacity = .parts [.num 0] ∧
    styleOf r fonts holds [ofName "path" [], svg] .Opacity = .parts [.num 1] :=
  ⟨by rfl, by rfl, by rfl⟩

/-- `kerning` is inherited, but is not marked so: in `<g kerning="5"><text kerning="auto">` it is lost. -/
theorem kerning_violated (fonts : Val → List (Key × Val)) (holds : Unit → Bool) :
    let g := [at' .Kerning (.parts [.px 5])]
    let text := [at' .Kerning (word "auto")]
    job plainRun [el "svg" [] [el "g" g [el "text" text []]]] = some [el "svg" [] [el "g" g [el "text" [] []]]] ∧
    styleOf plainRun fonts holds [ofName "text" text, ofName "g" g, svg] .Kerning = word "auto" ∧
    styleOf plainRun fonts holds [ofName "text" [], ofName "g" g, svg] .Kerning = .parts [.px 5] :=
  ⟨by rfl, by rfl, by rfl⟩

/-- The default for `transform-origin` is written as 50 where percentages are fractions, and is not the initial value for
elements of SVG either. -/
theorem origin_violated (fonts : Val → List (Key × Val)) (holds : Unit → Bool) :
    let path := [at' .TransformOrigin (.parts [.pct 50, .pct 50])]
    job plainRun [el "svg" [] [el "path" path []]] = some [el "svg" [] [el "path" [] []]] ∧
    styleOf plainRun fonts holds [ofName "path" path, svg] .TransformOrigin = .parts [.pct 50, .pct 50] ∧
    styleOf plainRun fonts holds [ofName "path" [], svg] .TransformOrigin = .parts [.px 0, .px 0] :=
  ⟨by rfl, by rfl, by rfl⟩

/-- What the result of a convolution is divided by: the divisor, or the sum of the kernel. -/
def dividedBy (as : List Attr) : Rat :=
  match as.findSome? fun | .plain (.known .Divisor) (.parts [.num q]) => some q | _ => none with
  | some q => q
  | none => match as.findSome? fun | .plain (.known .KernelMatrix) (.parts l) => some l | _ => none with
    | some l => (l.filterMap fun | .num q => some q | _ => none).sum
    | none => 1

/-- `divisor="1"` is removed, though the default is the sum of the kernel: the image gets darker. -/
theorem divisor_violated :
    let kernel := at' .KernelMatrix (.parts (List.replicate 9 (.num 1)))
    let fe := [kernel, at' .Divisor (.parts [.num 1])]
    job plainRun [el "svg" [] [el "filter" [] [el "feConvolveMatrix" fe []]]] =
      some [el "svg" [] [el "filter" [] [el "feConvolveMatrix" [kernel] []]]] ∧
    dividedBy fe = 1 ∧ dividedBy [kernel] = 9 :=
  ⟨by rfl, by decide +kernel, by decide +kernel⟩

/-- `width="10000%"` is removed and `width="100%"` is not: defaults are written as 100 where percentages are fractions. -/
theorem percent_violated :
    job plainRun [el "svg" [at' .WidthSvg (.parts [.pct 100])] []] = some [el "svg" [] []] ∧
    job plainRun [el "svg" [at' .WidthSvg (.parts [.pct 1])] []] = some [el "svg" [at' .WidthSvg (.parts [.pct 1])] []] ∧
    absent .WidthSvg = some (.parts [.pct 1]) :=
  ⟨by rfl, by rfl, by rfl⟩

/-- None of these defaults is what leaving the attribute out means. -/
theorem defaults_violated : ∀ k ∈ [Key.Divisor, .CXRadialGradient, .CYRadialGradient, .RRadialGradient, .X2LinearGradient,
    .Y1LinearGradient, .WidthSvg, .HeightSvg, .XFilter, .YFilter, .WidthFilter, .HeightFilter, .XMask, .YMask, .WidthMask,
    .HeightMask], ∃ v, k.standard = some v ∧ absent k ≠ some v := by
  have h : ∀ k ∈ [Key.Divisor, .CXRadialGradient, .CYRadialGradient, .RRadialGradient, .X2LinearGradient,
      .Y1LinearGradient, .WidthSvg, .HeightSvg, .XFilter, .YFilter, .WidthFilter, .HeightFilter, .XMask, .YMask, .WidthMask,
      .HeightMask], k.standard ≠ none ∧ absent k ≠ k.standard := by decide +kernel
  intro k hk
  obtain ⟨h1, h2⟩ := h k hk
  obtain ⟨v, hv⟩ := Option.ne_none_iff_exists'.mp h1
  exact ⟨v, hv, by rw [← hv]; exact h2⟩

/-- Properties that are in no row of the table are removed from all elements without a prefix, whatever their value: `mask-type`
on a mask, which then works with luminance, and `white-space` on text. -/
theorem property_violated (v w : Val) :
    let typed := [at' .Id (word "m"), .plain (.other (.std .svg) (lit "mask-type")) v]
    let spaced : List Attr := [.plain (.other (.std .svg) (lit "white-space")) w]
    job plainRun [el "svg" [] [el "mask" typed [], el "text" spaced [.text "a  b".toList]]] =
      some [el "svg" [] [el "mask" [at' .Id (word "m")] [], el "text" [] [.text "a  b".toList]]] := by
  rfl

/-- Text in a link is removed: `<text><a><tspan>a</tspan></a></text>`. -/
theorem link_violated :
    job plainRun [el "svg" [] [el "text" [] [el "a" [] [el "tspan" [] [.text "a".toList]]]]] =
      some [el "svg" [] [el "text" [] [el "a" [] []]]] := by
  rfl

/-- Contrary to what is documented, the job fails when a style sheet has a selector that cannot be read, such as `:hover`, for all
documents with an element in the root element. -/
theorem errors_violated {Sel C : Type} (r : Run Sel C) (s : Sel) (sp : Nat) (ss : List (Sel × Nat)) (b : Block Key Val)
    (pre post : List (Rule Key Val Sel C)) (hr : r.rules = pre ++ .style ((s, sp) :: ss) b :: post)
    (hs : ∀ c, r.test [s] c = none) (as bs : List Attr) (ks ls ms : List (Node Attr)) :
    job r [el "svg" as (ls ++ el "rect" bs ks :: ms)] = none := by
  have hrect : ∀ as', visit r false [(⟨.std .svg, lit "svg"⟩, as')] (el "rect" bs ks) = none := by
    intro as'
    have h3 : removes r.options [(⟨.std .svg, lit "svg"⟩, as')] ⟨.std .svg, lit "rect"⟩ = false := by
      have e1 : elementOf ⟨.std .svg, lit "rect"⟩ = some .Rect := by decide +kernel
      have e2 : elementOf ⟨.std .svg, lit "svg"⟩ = some .Svg := by decide +kernel
      have e3 : permitsChild (some .Svg) (some .Rect) = true := by decide +kernel
      simp [removes, e1, e2, e3]
    have h1 : (false || EName.is ⟨.std .svg, lit "rect"⟩ "foreignObject") = false := by decide +kernel
    have h2 : (!Prefix.isEmpty (.std .svg)) = false := by decide +kernel
    have h4 : inheritedOf r [(⟨.std .svg, lit "svg"⟩, as')] = none := by
      rw [inheritedOf, hr, Cascade.unreadable_violated _ _ _ _ _ _ _ _ (hs _)]
      rfl
    unfold el
    rw [visit, h1, h2, h3, h4]
    rfl
  have hall : ∀ (as' : List Attr) (l : List (Node Attr)),
      visitAll r false [(⟨.std .svg, lit "svg"⟩, as')] (l ++ el "rect" bs ks :: ms) = none := by
    intro as' l
    induction l with
    | nil => rw [List.nil_append, visitAll, hrect]
    | cons n l ih =>
      rw [List.cons_append, visitAll, ih]
      split
      · next h => simp at h
      · rfl
  have h1 : (false || EName.is ⟨.std .svg, lit "svg"⟩ "foreignObject") = false := by decide +kernel
  have h2 : (!Prefix.isEmpty (.std .svg)) = false := by decide +kernel
  have h3 : removes r.options [] ⟨.std .svg, lit "svg"⟩ = false := by
    have e2 : elementOf ⟨.std .svg, lit "svg"⟩ = some .Svg := by decide +kernel
    simp [removes, e2]
  have : visit r false [] (el "svg" as (ls ++ el "rect" bs ks :: ms)) = none := by
    unfold el
    rw [visit, h1, h2, h3]
    simp only [Bool.false_eq_true, if_false, inheritedOf]
    have := hall (pruned r.options ⟨.std .svg, lit "svg"⟩ .empty as) ls
    unfold el at this
    rw [this]
    rfl
  rw [job, visitAll, this]

/-! ## Examples -/

/-- A group and a rectangle, with attributes that are and are not needed. -/
def sample : List (Node Attr) :=
  [el "svg" [] [el "g" [at' .Fill (word "red"), at' .Opacity (.parts [.num 1])]
    [el "rect" [at' .Fill (word "red"), at' .Stroke (word "blue"), at' .FX (word "a"), at' .StrokeWidth (.parts [.px 1])] [],
     el "tspan" [] [.text "a".toList],
     el "rect" [at' .Id (word "r"), at' .Fill (word "red")] []]]]

def sampleOut : List (Node Attr) :=
  [el "svg" [] [el "g" [at' .Fill (word "red")]
    [el "rect" [at' .Stroke (word "blue")] [], el "rect" [at' .Id (word "r"), at' .Fill (word "red")] []]]]

theorem sample_out : job plainRun sample = some sampleOut := by rfl

/-- The job does something on the sample, and what it leaves is as `outline_kept` says. -/
example : List.Forall₂ (Pairs Fewer (cleaner plainRun)) (proper true sample) (content sampleOut) :=
  outline_kept plainRun sample sampleOut sample_out

/-- The elements of the sample. -/
def eG : E := ofName "g" [at' .Fill (word "red"), at' .Opacity (.parts [.num 1])]
def eRect : E := ofName "rect" [at' .Fill (word "red"), at' .Stroke (word "blue"), at' .FX (word "a"), at' .StrokeWidth (.parts [.px 1])]
def eSpan : E := ofName "tspan" []
def eLast : E := ofName "rect" [at' .Id (word "r"), at' .Fill (word "red")]

theorem sample_content : content sample =
    [.elem [svg], .elem [eG, svg], .elem [eRect, eG, svg], .elem [eSpan, eG, svg], .leaf [eSpan, eG, svg] (.text "a".toList),
     .elem [eLast, eG, svg]] := by rfl

theorem sample_elems (c : List E) (h : .elem c ∈ content sample) :
    c = [svg] ∨ c = [eG, svg] ∨ c = [eRect, eG, svg] ∨ c = [eSpan, eG, svg] ∨ c = [eLast, eG, svg] := by
  rw [sample_content] at h
  simpa using h

theorem sample_fair : Fair plainRun sample := by
  have hap : ∀ (holds : Unit → Bool) (c : List E), Cascade.appliedAll plainRun.test holds c plainRun.rules = [] := fun _ _ => rfl
  have hin : ∀ c, .elem c ∈ content sample → (own (fun _ => []) c).inline = none := by
    intro c hc
    rcases sample_elems c hc with rfl | rfl | rfl | rfl | rfl <;> rfl
  refine ⟨?_, by simp [plainRun, blocksOfAll], ?_, ?_, ?_, ?_⟩
  · intro ss c c' h
    cases c with
    | nil => cases c' with
      | nil => rfl
      | cons => simp at h
    | cons e cs => cases c' with
      | nil => simp at h
      | cons e' cs' =>
        simp only [List.map_cons, List.cons.injEq, badge, Prod.mk.injEq] at h
        simp only [plainRun, byName, h.1.1]
  · intro e cs h b hb
    rcases sample_elems _ h with h | h | h | h | h <;>
      (cases h; simp [svg, eG, eRect, eSpan, eLast, ofName, at'] at hb)
  · intro c hc
    refine ⟨by simp [plainRun], trivial, ?_, ?_, ?_, ?_⟩
    · intro k; rw [hap]; simp [Cascade.candidates]
    · intro k; rw [hap]; simp [Cascade.candidates]
    · rw [hin c hc]; simp
    · rcases sample_elems c hc with rfl | rfl | rfl | rfl | rfl <;> decide +kernel
  · intro c hc d hd
    rw [hap]; rfl
  · intro e cs h he
    exfalso
    rcases sample_elems _ h with h | h | h | h | h <;> cases h <;> revert he <;> decide +kernel

/-- Nothing looks different in the sample. -/
example : List.Forall₂ (Pairs (Looks plainRun) (cleaner plainRun)) (proper true sample) (content sampleOut) :=
  styles_partial plainRun sample sampleOut sample_fair sample_out

example : List.Forall₂ (Pairs (fun c c' => ∀ e cs, c = e :: cs → ¬ Alone e cs → ∃ e' cs', c' = e' :: cs' ∧
      ∀ a, a ∈ e'.2 ↔ a ∈ e.2 ∧ ¬ Removed plainRun e cs' a) (cleaner plainRun)) (proper true sample) (content sampleOut) :=
  removed_iff plainRun sample sampleOut sample_fair (by simp [plainRun]) sample_out

/-- The reasons: red is said above, `fx` is not for rectangles. -/
example : Removed plainRun eRect [eG, svg] (at' .Fill (word "red")) := by
  have h : ¬ HasId eRect := by rw [← hasId_iff]; decide +kernel
  exact ⟨rfl, .inr (.inr ⟨rfl, fun h => Key.noConfusion h, .inr (.inr ⟨rfl, h, by rfl⟩)⟩)⟩

example : ¬ Expects ⟨.std .svg, lit "rect"⟩ .FX := by
  rw [← expects_iff]; decide +kernel

/-- `svg`, `g` and rectangles are where SVG 2 allows them. -/
example : Conforms [el "svg" [] [el "g" [] [el "rect" [] []]]] := by
  have hc : content [el "svg" [] [el "g" [] [el "rect" [] []]]] =
      [.elem [svg], .elem [ofName "g" [], svg], .elem [ofName "rect" [], ofName "g" [], svg]] := by rfl
  have e1 : elementOf ⟨.std .svg, lit "rect"⟩ = some .Rect := by decide +kernel
  have e2 : elementOf ⟨.std .svg, lit "svg"⟩ = some .Svg := by decide +kernel
  have e3 : elementOf ⟨.std .svg, lit "g"⟩ = some .G := by decide +kernel
  refine ⟨?_, ?_⟩
  · intro e cs h
    rw [hc] at h
    simp only [List.mem_cons, Item.elem.injEq, List.cons.injEq, List.not_mem_nil, or_false] at h
    rcases h with ⟨rfl, _⟩ | ⟨rfl, _⟩ | ⟨rfl, _⟩
    · exact ⟨_, e2⟩
    · exact ⟨_, e3⟩
    · exact ⟨_, e1⟩
  · intro e p cs h
    rw [hc] at h
    simp only [List.mem_cons, Item.elem.injEq, List.cons.injEq, List.not_mem_nil, or_false, svg] at h
    rcases h with h | ⟨rfl, rfl, _⟩ | ⟨rfl, rfl, _⟩
    · simp at h
    · exact ⟨_, _, e3, e2, by decide +kernel, by simp⟩
    · exact ⟨_, _, e1, e3, by decide +kernel, by simp⟩

example : absent .SpreadMethod = some (word "pad") ∧ Key.standard .SpreadMethod = some (word "pad") := ⟨rfl, rfl⟩

example : ∃ doc', job plainRun sample = some doc' :=
  succeeds_partial plainRun sample (by intro ss c; cases c <;> simp [plainRun, byName])

/-- Switched off, the job keeps what is not needed. -/
example : job { plainRun with options := ⟨false, false, false, false, false, true, true, true⟩ } sample = some sample := by rfl

end Verif.Unknowns
