import Verif.Xlink.Foreign

/-!
# Examples, and where the property fails
-/

namespace Verif.Xlink

open Verif.Tree
open Verif.Names (Str lit StdNs)

def svgName (l : String) : EName := ⟨.std .svg, lit l⟩
def xl : Str := lit "xlink"
def uri : Str := StdNs.uri .xlink

/-- `<svg xmlns:xlink="…"><a xlink:href="b.svg" xlink:show="new" xlink:title="b" xlink:type="simple"/></svg>`. -/
def sample : List (Node Attr) := [.elem (svgName "svg") [.decl xl uri]
  [.elem (svgName "a") [.xlink .href xl (lit "b.svg"), .xlink .shows xl (lit "new"), .xlink .title xl (lit "b"), .xlink .type xl (lit "simple")] []]]

example : run false sample = some [.elem (svgName "svg") []
    [.elem (svgName "a") [.target (lit "_blank"), .href (lit "b.svg")] [.elem (svgName "title") [] [.text ['b']]]]] := by rfl

theorem wf_of {as : List Attr} (h₁ : ∀ k ∈ [XK.actuate, .arcrole, .role, .type, .shows, .title, .href], (as.filter (isX k)).length ≤ 1)
    (h₂ : ∀ a ∈ as, isKnown a = false) : Wf as :=
  ⟨fun k => h₁ k (by cases k <;> decide), fun v hm => by have := h₂ _ hm; simp [isKnown] at this, fun v hm => by have := h₂ _ hm; simp [isKnown] at this⟩

theorem sample_wf : EveryAll (fun _ as _ => Wf as) sample := by
  simp only [sample, EveryAll, Every, and_true]
  exact ⟨wf_of (by decide) (by decide), wf_of (by decide) (by decide)⟩

/-- The properties apply to the sample: the link and its place stay, and no prefix dangles. -/
example : ∃ doc', run false sample = some doc' ∧ MatchAll (Kept false) sample doc' ∧ BoundAll [] doc' := by
  have hs := (run_total_iff (legacy := false) sample_wf).2 (by
    simp only [sample, EveryAll, Every, and_true]
    exact ⟨fun h => by have := h.1; revert this; decide, fun h => by have := h.1; revert this; decide⟩)
  obtain ⟨d, hd⟩ := Option.isSome_iff_exists.1 hs
  refine ⟨d, hd, run_kept_partial sample_wf hd, (dangling_iff sample_wf hd).2 ?_⟩
  simp only [sample, EveryAll, Every, and_true]
  refine ⟨fun k => ?_, fun k => ?_⟩
  · cases k <;> simp [Stays, xlinkOf]
  · cases k <;> simp [Stays, xlinkOf, hrefOf, targetOf, isLegacy, svgName] <;> decide

/-- **C65 (other attributes, violated).** Without `includeLegacy` the job removes `data-n` and `xmlns:m` from a document that has nothing to do with XLink, and the
element `m:x` is left with an undeclared prefix. -/
theorem foreign_violated : ∃ doc doc' : List (Node Attr), EveryAll (fun _ as _ => ∀ a ∈ as, isXDecl a = false ∧ ∀ k, isX k a = false) doc ∧
    run false doc = some doc' ∧ ¬MatchAll (fun _ as _ as' _ => as' = as) doc doc' :=
  ⟨[.elem (svgName "svg") [.decl (lit "m") (lit "urn:m"), .unknown none (lit "data-n") (lit "1")]
      [.elem ⟨.unknown (some (lit "m")) (.unknown (lit "urn:m")), lit "x"⟩ [] []]],
    [.elem (svgName "svg") [] [.elem ⟨.unknown (some (lit "m")) (.unknown (lit "urn:m")), lit "x"⟩ [] []]],
    by
      simp only [EveryAll, Every, and_true, List.not_mem_nil, false_implies, implies_true]
      intro a ha
      simp only [List.mem_cons, List.not_mem_nil, or_false] at ha
      rcases ha with rfl | rfl
      · exact ⟨by decide, fun _ => rfl⟩
      · exact ⟨rfl, fun _ => rfl⟩,
    rfl, by
      simp only [MatchAll, Match]
      rintro ⟨m, ms, h₁, ⟨as', new, rest, h₂, h₃, _⟩, _⟩
      simp only [List.cons.injEq] at h₁
      rw [← h₁.1] at h₂
      simp only [Node.elem.injEq] at h₂
      rw [h₃] at h₂
      exact absurd h₂.2.1 (by simp)⟩

/-- **C65 (accidents, violated).** Whether an unknown attribute stays depends on unrelated parts of the document: `data-n` of the first group goes, that of the
second, equal one stays, since a legacy element after the first group left a mark that the second one takes. -/
theorem chance_violated : ∃ g : Node Attr, ∃ f : Node Attr, ∃ g₁ g₂ f' : Node Attr, ∃ as : List Attr,
    run false [.elem (svgName "svg") as [g, f, g]] = some [.elem (svgName "svg") [] [g₁, f', g₂]] ∧ g₂ = g ∧ ¬Match (fun _ as _ as' _ => as' = as) g g₁ :=
  ⟨.elem (svgName "g") [.unknown none (lit "data-n") (lit "1")] [], .elem (svgName "tref") [.xlink .href xl (lit "#t"), .decl xl uri] [],
    .elem (svgName "g") [] [], .elem (svgName "g") [.unknown none (lit "data-n") (lit "1")] [], .elem (svgName "tref") [.xlink .href xl (lit "#t")] [],
    [.decl xl uri], rfl, rfl, by
      simp only [Match]
      rintro ⟨as', new, rest, h₂, h₃, _⟩
      rw [h₃] at h₂
      simp at h₂⟩

/-- **C65 (dangling prefixes, violated).** `<svg xmlns:xlink="…"><a xlink:href="b.svg" xlink:show="replace"/></svg>` becomes
`<svg><a xlink:show="replace" href="b.svg"/></svg>`, where the prefix is not declared. -/
theorem dangling_violated : ∃ doc doc' : List (Node Attr), BoundAll [] doc ∧ run true doc = some doc' ∧ ¬BoundAll [] doc' :=
  ⟨[.elem (svgName "svg") [.decl xl uri] [.elem (svgName "a") [.xlink .href xl (lit "b.svg"), .xlink .shows xl (lit "replace")] []]],
    [.elem (svgName "svg") [] [.elem (svgName "a") [.xlink .shows xl (lit "replace"), .href (lit "b.svg")] []]],
    by
      simp only [BoundAll, Bound, and_true]
      refine ⟨fun k p v h => by simp at h, fun k p v h => ?_⟩
      simp only [List.mem_cons, Attr.xlink.injEq, List.not_mem_nil, or_false] at h
      refine ⟨[.decl xl uri], by simp, ?_⟩
      rcases h with ⟨_, rfl, _⟩ | ⟨_, rfl, _⟩ <;> exact List.mem_cons_self ..,
    rfl, by
      simp only [BoundAll, Bound, and_true]
      rintro ⟨_, h⟩
      obtain ⟨bs, hb, hd⟩ := h .shows xl (lit "replace") (List.mem_cons_self ..)
      simp only [List.mem_cons, List.not_mem_nil, or_false] at hb
      rcases hb with rfl | rfl <;> simp at hd⟩

/-- **C65 (legacy elements, violated).** Without the option the links of legacy elements are left for old readers, but the declaration they need is removed. -/
theorem legacy_violated : ∃ doc doc' : List (Node Attr), BoundAll [] doc ∧ run false doc = some doc' ∧ ¬BoundAll [] doc' :=
  ⟨[.elem (svgName "svg") [.decl xl uri] [.elem (svgName "tref") [.xlink .href xl (lit "#t")] []]],
    [.elem (svgName "svg") [] [.elem (svgName "tref") [.xlink .href xl (lit "#t")] []]],
    by
      simp only [BoundAll, Bound, and_true]
      refine ⟨fun k p v h => by simp at h, fun k p v h => ?_⟩
      simp only [List.mem_cons, Attr.xlink.injEq, List.not_mem_nil, or_false] at h
      obtain ⟨_, rfl, _⟩ := h
      exact ⟨[.decl xl uri], by simp, List.mem_cons_self ..⟩,
    rfl, by
      simp only [BoundAll, Bound, and_true]
      rintro ⟨_, h⟩
      obtain ⟨bs, hb, hd⟩ := h .href xl (lit "#t") (List.mem_cons_self ..)
      simp only [List.mem_cons, List.not_mem_nil, or_false] at hb
      rcases hb with rfl | rfl <;> simp at hd⟩

mutual
/-- An element of SVG without prefix is where the default namespace is declared to be SVG. -/
def Settled (scope : List (List Attr)) : Node Attr → Prop
  | .elem n as ks => (n.pre = .std .svg → ∃ bs ∈ as :: scope, .known none (lit "xmlns") (StdNs.uri .svg) ∈ bs) ∧ SettledAll (as :: scope) ks
  | _ => True
def SettledAll (scope : List (List Attr)) : List (Node Attr) → Prop
  | [] => True
  | n :: ns => Settled scope n ∧ SettledAll scope ns
end

def aliasName (l : String) : EName := ⟨.aliased (.std .svg) (some (lit "s")), lit l⟩

/-- **C65 (tooltips in documents with a prefix, violated).** In a document whose elements all have the prefix `s`, the new element is written `<title>`: it is in no
namespace, and the tooltip is lost. -/
theorem title_violated : ∃ doc doc' : List (Node Attr), SettledAll [] doc ∧ run true doc = some doc' ∧ ¬SettledAll [] doc' :=
  ⟨[.elem (aliasName "svg") [.decl xl uri, .decl (lit "s") (StdNs.uri .svg)] [.elem (aliasName "a") [.xlink .title xl (lit "b")] []]],
    [.elem (aliasName "svg") [.decl (lit "s") (StdNs.uri .svg)] [.elem (aliasName "a") [] [titleElement (lit "b")]]],
    by simp [SettledAll, Settled, aliasName], rfl, by simp [SettledAll, Settled, aliasName, titleElement]⟩

/-- **C65 (panics, violated).** `<a x:show="other one" target="_top"/>` where `x` is XLink. -/
theorem panic_violated : run true [.elem (svgName "svg") [.decl (lit "x") uri]
    [.elem (svgName "a") [.xlink .shows (lit "x") (lit "other one"), .target (lit "_top")] []]] = none := rfl

/-- An unknown attribute called `href` is overwritten, which is why `foreign_kept` asks for there to be none. -/
example : run true [.elem ⟨.std .html, lit "p"⟩ [.unknown none (lit "href") (lit "a"), .xlink .href xl (lit "b")] []] =
    some [.elem ⟨.std .html, lit "p"⟩ [.href (lit "b")] []] := rfl

end Verif.Xlink
