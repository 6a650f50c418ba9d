import Verif.Merge.Props

/-!
# C57: style elements whose rules are lost or change, and examples
-/

namespace Verif.Merge

open Verif.Tree Verif.Names

/-- An element of the SVG namespace. -/
def el (s : String) (as : List (Attr Nat Nat)) (ks : List (Node Nat Nat Nat)) : Node Nat Nat Nat := .elem ⟨.std .svg, lit s⟩ as ks

def style (as : List (Attr Nat Nat)) (ks : List (Node Nat Nat Nat)) : Node Nat Nat Nat := el "style" as ks

theorem css_none {as : List (Attr Nat Nat)} (h : typeOf as = none) : IsCss as := by
  intro s hs
  rw [h] at hs
  simp at hs

open Classical in
theorem rules_style (recover : List Char → List (Rule Nat Nat)) (as : List (Attr Nat Nat)) (ks : List (Node Nat Nat Nat)) (h : IsCss as) :
    rules recover (style as ks) = sheetOf recover as ks ++ rulesAll recover ks := by
  have hn : EName.is ⟨.std .svg, lit "style"⟩ "style" = true := by decide +kernel
  simp only [style, el, rules, hn, h, and_self, if_true]

open Classical in
theorem rules_el (recover : List Char → List (Rule Nat Nat)) (s : String) (as : List (Attr Nat Nat)) (ks : List (Node Nat Nat Nat))
    (h : EName.is ⟨.std .svg, lit s⟩ "style" = false) : rules recover (el s as ks) = rulesAll recover ks := by
  simp only [el, rules, h, Bool.false_eq_true, false_and, if_false, List.nil_append]

/-- The reader of the parser: what it cannot read completely has no rules. -/
def strict : List Char → List (Rule Nat Nat) := fun _ => []

/-! ## Two sheets -/

/-- `<svg><style>1</style><g><style media="7">2</style></g><style>3</style></svg>`. -/
def two : List (Node Nat Nat Nat) :=
  [el "svg" [] [style [] [.css [.head 0, .other 1]], el "g" [.other 5] [style [.media (some 7)] [.css [.other 2]], .leaf 9],
    style [.typ []] [.css []], style [.typ "text/css".toList] [.css [.other 3]]]]

/-- What becomes of them. -/
theorem two_merged : job true two =
    [el "svg" [] [style [] [.css [.head 0, .other 1, .media 7 [.other 2], .other 3]], el "g" [.other 5] [.leaf 9]]] := by
  rfl

theorem two_nodes (a : List (EName × List (Attr Nat Nat))) (m : EName) (as : List (Attr Nat Nat)) (ks : List (Node Nat Nat Nat))
    (h : (a, .elem m as ks) ∈ nodesAll [] two) (hs : m.is "style" = true) : Plain a as ks := by
  have hsvg : EName.is ⟨.std .svg, lit "svg"⟩ "style" = false := by decide +kernel
  have hg : EName.is ⟨.std .svg, lit "g"⟩ "style" = false := by decide +kernel
  have hf1 : EName.is ⟨.std .svg, lit "svg"⟩ "foreignObject" = false := by decide +kernel
  have hf2 : EName.is ⟨.std .svg, lit "g"⟩ "foreignObject" = false := by decide +kernel
  simp only [two, el, style, nodesAll, nodes, List.append_nil, List.nil_append, List.cons_append, List.mem_cons, Prod.mk.injEq,
    Node.elem.injEq, reduceCtorEq, and_false, or_false, false_or, List.not_mem_nil] at h
  rcases h with ⟨rfl, rfl, rfl, rfl⟩ | ⟨rfl, rfl, rfl, rfl⟩ | ⟨rfl, rfl, rfl, rfl⟩ | ⟨rfl, rfl, rfl, rfl⟩ | ⟨rfl, rfl, rfl, rfl⟩ |
    ⟨rfl, rfl, rfl, rfl⟩
  · rw [hsvg] at hs; simp at hs
  · refine ⟨by simp [typeOf], by simp [hf1], by simp, by simp [mediaOf], by simp⟩
  · rw [hg] at hs; simp at hs
  · refine ⟨by simp [typeOf], by simp [hf1, hf2], by simp, by simp [mediaOf], by simp⟩
  · refine ⟨by simp [typeOf], by simp [hf1], by simp, by simp [mediaOf], by simp⟩
  · refine ⟨by simp [typeOf], by simp [hf1], by simp, by simp [mediaOf], by simp⟩

/-- `rules_kept_partial` applies, and the rules are these. -/
example (recover : List Char → List (Rule Nat Nat)) : rulesAll recover (job true two) = rulesAll recover two := by
  refine rules_kept_partial recover true two (fun a m as ks h hs _ => two_nodes a m as ks h hs) ?_
  intro pre a m as ks post he hs _ hr
  obtain ⟨rs, r, hk, hr⟩ := hr
  have hlen : ∀ x ∈ (nodesAll [] two).drop 2, ∀ m as ks, x.2 = .elem m as ks → ∀ rs, .css rs ∈ ks → ∀ r, Rule.head r ∉ rs := by
    intro x hx m as ks he rs hk r hr
    simp only [two, el, style, nodesAll, nodes, List.append_nil, List.nil_append, List.cons_append, List.drop_succ_cons, List.drop_zero,
      List.mem_cons, List.not_mem_nil, or_false] at hx
    rcases hx with rfl | rfl | rfl | rfl | rfl | rfl | rfl | rfl | rfl <;> simp at he <;> obtain ⟨_, _, rfl⟩ := he <;> simp at hk
    all_goals first | (subst hk; simp at hr) | skip
  have hsvg : EName.is ⟨.std .svg, lit "svg"⟩ "style" = false := by decide +kernel
  match pre, he with
  | [], he =>
    obtain ⟨_, rfl, _⟩ : _ ∧ _ ∧ _ := by simpa [two, el, nodesAll, nodes] using (List.cons.inj he).1
    rw [hsvg] at hs
    simp at hs
  | [p], he =>
    have h1 := (List.cons.inj he).1
    have h2 := (List.cons.inj (List.cons.inj he).2).1
    obtain ⟨_, _, rfl, rfl⟩ : _ ∧ _ ∧ _ ∧ _ := by simpa [two, el, style, nodesAll, nodes] using h2
    refine ⟨rfl, fun b m' as' ks' hb hs' => ?_⟩
    rw [List.mem_singleton, ← h1] at hb
    obtain ⟨_, rfl, _⟩ : _ ∧ _ ∧ _ := by simpa [two, el, nodesAll, nodes] using hb
    rw [hsvg] at hs'
    simp at hs'
  | p :: q :: pre, he =>
    refine absurd hr (hlen (a, .elem m as ks) ?_ m as ks rfl rs hk r)
    rw [he]
    simp

open Classical in
example (recover : List Char → List (Rule Nat Nat)) :
    rulesAll recover (job true two) = [([], 0), ([], 1), ([7], 2), ([], 3)] := by
  have hg : EName.is ⟨.std .svg, lit "g"⟩ "style" = false := by decide +kernel
  have hsvg : EName.is ⟨.std .svg, lit "svg"⟩ "style" = false := by decide +kernel
  rw [two_merged, rulesAll, rules_el _ _ _ _ hsvg]
  simp [rules_style recover [] _ (css_none rfl), rules_el recover "g" _ _ hg, sheetOf, mediaOf, contentOf, counting, withinAll, Rule.within, rulesAll, rules]

example : pruneAll false (job true two) = [el "svg" [] [el "g" [.other 5] [.leaf 9]]] := by rfl
example : stylesAll false (job true two) = [([], [.css [.head 0, .other 1, .media 7 [.other 2], .other 3]])] := by rfl
example : job true (job true two) = job true two := by
  refine again true two ?_
  intro as ks h
  have : stylesAll false two = [([], [.css [.head 0, .other 1]]), ([.media (some 7)], [.css [.other 2]]), ([.typ []], [.css []]),
      ([.typ "text/css".toList], [.css [.other 3]])] := by rfl
  rw [this] at h
  simp only [List.mem_cons, Prod.mk.injEq, List.not_mem_nil, or_false] at h
  rcases h with ⟨rfl, _⟩ | ⟨rfl, _⟩ | ⟨rfl, _⟩ | ⟨rfl, _⟩ <;> simp
example : job true [style [.other 3] [.css [.other 1]]] = [style [.other 3] [.css [.other 1]]] :=
  fixed true _ (.inr ⟨[.other 3], [.other 1], rfl, rfl, by simp⟩)
example : job false two = two := off two

/-! ## Violations -/

/-- **C57 (import, violated)**: `<style>1</style><style>@import 2; 3</style>`: the import is put behind the rules of the first style
element, where it does not count. -/
theorem import_violated : ¬ ∀ (recover : List Char → List (Rule Nat Nat)) (doc : List (Node Nat Nat Nat)),
    rulesAll recover (job true doc) = rulesAll recover doc := by
  intro h
  have h := h strict [style [] [.css [.other 1]], style [] [.css [.head 2, .other 3]]]
  have hj : job true [style [] [.css [.other 1]], style [] [.css [.head 2, .other 3]]] =
    [style [] [.css [.other 1, .head 2, .other 3]]] := by rfl
  rw [hj] at h
  simp [rulesAll, rules_style strict [] _ (css_none rfl), sheetOf, mediaOf, contentOf, counting, withinAll, Rule.within, rules] at h

/-- **C57 (import under a media query, violated)**: `<style media="7">@import 2; 3</style>`, alone in the document: the import is put
into a media rule, where it does not count. -/
theorem media_import_violated : rulesAll strict (job true [style [.media (some 7)] [.css [.head 2, .other 3]]]) ≠
    rulesAll strict [style [.media (some 7)] [.css [.head 2, .other 3]]] := by
  have hj : job true [style [.media (some 7)] [.css [.head 2, .other 3]]] = [style [] [.css [.media 7 [.head 2, .other 3]]]] := by rfl
  rw [hj]
  simp [rulesAll, rules_style strict [] _ (css_none rfl), rules_style strict [.media (some 7)] _ (css_none rfl), sheetOf, mediaOf,
    contentOf, counting, withinAll, Rule.within, rules]

/-- **C57 (errors, violated)**: a style element the parser does not read, because of an error in one of its rules, is removed as if it were empty, with all rules that browsers read in spite of the error. -/
theorem syntax_violated (recover : List Char → List (Rule Nat Nat)) (s : List Char) (h : rulesAll recover [style [] [.text s]] ≠ []) :
    job true [style [] [.text s]] = [] ∧ rulesAll recover (job true [style [] [.text s]]) ≠ rulesAll recover [style [] [.text s]] := by
  have hj : job true [style [] [.text s]] = [] := by rfl
  refine ⟨hj, ?_⟩
  rw [hj]
  exact fun hc => h hc.symm

example : rulesAll (fun _ => [.other 1]) [style [] [.text "a{} ] b{}".toList]] ≠ [] := by
  simp [rulesAll, rules_style _ [] _ (css_none rfl), sheetOf, mediaOf, contentOf, counting, withinAll, Rule.within]

/-- **C57 (type, violated)**: the type may be given in upper case. Such a style element is not merged, so that the rules of the one
behind it move in front of its rules. -/
theorem type_violated : rulesAll strict
      (job true [style [] [.css [.other 1]], style [.typ "TEXT/CSS".toList] [.css [.other 2]], style [] [.css [.other 3]]]) ≠
    rulesAll strict [style [] [.css [.other 1]], style [.typ "TEXT/CSS".toList] [.css [.other 2]], style [] [.css [.other 3]]] := by
  have hj : job true [style [] [.css [.other 1]], style [.typ "TEXT/CSS".toList] [.css [.other 2]], style [] [.css [.other 3]]] =
    [style [] [.css [.other 1, .other 3]], style [.typ "TEXT/CSS".toList] [.css [.other 2]]] := by rfl
  have hc : IsCss [(.typ "TEXT/CSS".toList : Attr Nat Nat)] := by
    intro s hs
    simp only [typeOf, List.findSome?_cons, Option.some.injEq] at hs
    rw [← hs]
    exact .inr (by decide +kernel)
  rw [hj]
  simp only [rulesAll, rules_style strict [] _ (css_none rfl), rules_style strict _ _ hc]
  simp [rulesAll, sheetOf, mediaOf, contentOf, counting, withinAll, Rule.within, rules]

/-- **C57 (foreign objects, violated)**: style elements within `foreignObject`s stay where they are, while those behind them move in
front of them. -/
theorem foreign_violated : rulesAll strict
      (job true [style [] [.css [.other 1]], el "foreignObject" [] [style [] [.css [.other 2]]], style [] [.css [.other 3]]]) ≠
    rulesAll strict [style [] [.css [.other 1]], el "foreignObject" [] [style [] [.css [.other 2]]], style [] [.css [.other 3]]] := by
  have hj : job true [style [] [.css [.other 1]], el "foreignObject" [] [style [] [.css [.other 2]]], style [] [.css [.other 3]]] =
    [style [] [.css [.other 1, .other 3]], el "foreignObject" [] [style [] [.css [.other 2]]]] := by rfl
  have hf : EName.is ⟨.std .svg, lit "foreignObject"⟩ "style" = false := by decide +kernel
  rw [hj]
  simp [rulesAll, rules_style strict [] _ (css_none rfl), rules_el strict "foreignObject" _ _ hf, sheetOf, mediaOf, contentOf, counting,
    withinAll, Rule.within, rules]

/-- **C57 (media query, violated)**: a media query the parser does not read is removed, so that rules that never apply always do. -/
theorem media_violated : rulesAll strict (job true [style [.media none] [.css [.other 1]]]) ≠
    rulesAll strict [style [.media none] [.css [.other 1]]] := by
  have hj : job true [style [.media none] [.css [.other 1]]] = [style [] [.css [.other 1]]] := by rfl
  rw [hj]
  simp [rulesAll, rules_style strict [] _ (css_none rfl), rules_style strict [.media none] _ (css_none rfl), sheetOf, mediaOf, contentOf,
    counting, withinAll, Rule.within, rules]

/-- **C57 (nested, violated)**: a style element within an empty one, in `<style><g><style>1</style></g></style><style>2</style>`, is
removed with it, but takes the rules of all style elements that follow. -/
theorem nested_violated : job true [style [] [el "g" [] [style [] [.css [.other 1]]]], style [] [.css [.other 2]]] = [] ∧
    rulesAll strict [style [] [el "g" [] [style [] [.css [.other 1]]]], style [] [.css [.other 2]]] = [([], 1), ([], 2)] := by
  have hg : EName.is ⟨.std .svg, lit "g"⟩ "style" = false := by decide +kernel
  refine ⟨by rfl, ?_⟩
  simp [rulesAll, rules_style strict [] _ (css_none rfl), rules_el strict "g" _ _ hg, sheetOf, mediaOf, contentOf, counting, withinAll,
    Rule.within, rules]
  simp [el, counting, withinAll]

/-- **C57 (nested media, violated)**: a style element directly within another, in `<style><style media="7">1</style></style>`, loses its
media query. -/
theorem nested_media_violated : job true [style [] [style [.media (some 7)] [.css [.other 1]]]] = [style [] [.css [.other 1]]] ∧
    rulesAll strict [style [] [style [.media (some 7)] [.css [.other 1]]]] = [([7], 1)] := by
  have hn : EName.is ⟨.std .svg, lit "style"⟩ "style" = true := by decide +kernel
  have hs : supported (Q := Nat) (B := Nat) [] = true := by decide +kernel
  have hf : EName.is ⟨.std .svg, lit "style"⟩ "foreignObject" = false := by decide +kernel
  refine ⟨by simp [job, style, el, visitAll, visit, rulesOf, hn, hs, hf, dropMedia, wrapped, mediaOf], ?_⟩
  simp [rulesAll, sheetOf, mediaOf, contentOf, counting, withinAll, Rule.within, rules, style, el]
  exact ⟨hn, css_none rfl⟩

end Verif.Merge
