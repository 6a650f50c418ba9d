import Verif.Sink.Exact

/-! # C90: where namespaces change or the parser panics, and examples -/

namespace Verif.Sink

open Verif.Names

/-- **C90 (violated)** After a root with `xmlns` and nothing else, an element with an attribute of the prefix `xml` in front of one with
another prefix makes the parser panic. -/
theorem panic_violated {r c x a : Name} {ks more : List Elem} (hr : r.pre = none ∧ meaning r = svgUri) (hc : c.pre = none ∧ meaning c = svgUri)
    (hx : x.pre = some (lit "xml") ∧ x.uri = xmlUri) (ha : a.pre ≠ none ∧ a.uri ≠ []) (ha' : a.pre ≠ some (lit "xml")) :
    parse (.mk r [] (.mk c [x, a] ks :: more)) = none := by
  obtain ⟨rv, ru⟩ := prefix_spec r
  obtain ⟨cv, cu⟩ := prefix_spec c
  obtain ⟨xv, xu⟩ := prefix_spec x
  obtain ⟨av, au⟩ := prefix_spec a
  have hsv : svgUri ≠ [] := by decide
  have hxu : xmlUri ≠ [] := by decide
  have mx : meaning x = xmlUri := by simp [meaning, hx.1, hx.2]
  have ma : meaning a = a.uri := by simp [meaning, ha.1]
  rw [hr.1] at rv; rw [hr.2] at ru; rw [hc.1] at cv; rw [hc.2] at cu; rw [hx.1] at xv; rw [mx] at xu; rw [ma] at au
  have f1 : findNew [] r.prefix = some ([(none, svgUri)], .decl none svgUri) := by
    rw [findNew_eq (by rw [ru]; exact hsv), rv, ru]; exact if_neg (by simp [Map.get])
  have f2 : findNew [(none, svgUri)] (.std .svg) = none := by decide
  have s0 : addRoot r.prefix (ownAttrs []) = some ⟨[(none, svgUri)], [.decl none svgUri]⟩ := by
    simp [addRoot, f1, addAttrs, ownAttrs, Attr.prefix, missing, f2, insertAll]
  have f3 : findNew [(none, svgUri)] c.prefix = none := by
    rw [findNew_eq (by rw [cu]; exact hsv), cv, cu]; exact if_pos (by decide)
  have f4 : findNew [(none, svgUri)] x.prefix = some ([(some (lit "xml"), xmlUri), (none, svgUri)], .decl (some (lit "xml")) xmlUri) := by
    rw [findNew_eq (by rw [xu]; exact hxu), xv, xu]; exact if_neg (by decide)
  obtain ⟨q, hq⟩ := Option.ne_none_iff_exists'.1 ha.1
  have hqx : q ≠ lit "xml" := fun e => ha' (by rw [hq, e])
  have f5 : findNew [(some (lit "xml"), xmlUri), (none, svgUri)] a.prefix =
      some ([(some q, a.uri), (some (lit "xml"), xmlUri), (none, svgUri)], .decl (some q) a.uri) := by
    rw [findNew_eq (by rw [au]; exact ha.2), av, au, hq]
    exact if_neg (by simp [Map.get, Ne.symm hqx])
  have hadd : addChild ⟨[(none, svgUri)], [.decl none svgUri]⟩ c.prefix (ownAttrs [x, a]) = none := by
    simp [addChild, f3, addAttrs, ownAttrs, Attr.prefix, missing, f4, f5, insertAll, Attr.loc, hasXmlns, hqx, insertAt]
  simp only [parse, s0, children, child, hadd]

/-- **C90 (violated)** An element without a prefix in another namespace puts a second `xmlns` on the root, if the parser returns at all. -/
theorem foreign_violated {e : Elem} (hb : Bound e) {n : Name} (hn : n ∈ elemNames e) (hp : n.pre = none) (hu : n.uri ≠ svgUri ∧ n.uri ≠ []) :
    ∀ o, parse e = some o → ¬ Kept top e o :=
  fun o ho hk => (((namespaces_kept_iff hb).1 ⟨o, ho, hk⟩).2.1 n hn hp).elim hu.1 hu.2

/-- **C90 (violated)** A root with a prefix gets the attribute `xmlns:xmlns`. -/
theorem prefixed_violated {n : Name} {as : List Name} {ks : List Elem} (hb : Bound (.mk n as ks)) (hp : n.pre ≠ none) {p l os outs}
    (h : parse (.mk n as ks) = some (.mk p l os outs)) : ∃ u, Attr.decl (some (lit "xmlns")) u ∈ os := by
  simp only [parse] at h
  cases e1 : addRoot n.prefix (ownAttrs as) with
  | none => simp [e1] at h
  | some s =>
    rw [e1] at h
    simp only at h
    cases e2 : children s ks with
    | none => simp [e2] at h
    | some y =>
      obtain ⟨s2, outs⟩ := y
      rw [e2] at h
      cases h
      exact (children_mono ks s _ outs e2).1 _ (addRoot_prefixed (hb.1 n (by simp [elemNames])) (fun a ha => (hb.2 a (by simp [attrNames, ha])).1) hp e1)

/-! ## Examples -/

def el (loc : String) (as : List Name) (ks : List Elem) : Elem := .mk ⟨none, svgUri, lit loc⟩ as ks
def own (loc : String) : Name := ⟨none, [], lit loc⟩
def xlink (loc : String) : Name := ⟨some (lit "xlink"), lit "http://www.w3.org/1999/xlink", lit loc⟩
def html (loc : String) (ks : List Elem) : Elem := .mk ⟨none, lit "http://www.w3.org/1999/xhtml", lit loc⟩ [] ks

def rootAttrs : Option Out → Option (List Attr)
  | some (.mk _ _ as _) => some as
  | none => none

/-- `<svg xmlns=… width=…><use xlink:href=…/><use xlink:href=…/></svg>`: the root declares `xlink`, once. -/
example : rootAttrs (parse (el "svg" [own "width"] [el "use" [xlink "href"] [], el "use" [xlink "href"] []])) =
    some [.decl none svgUri, .decl (some (lit "xlink")) (lit "http://www.w3.org/1999/xlink"), .own (.std .svg) (lit "width")] := by decide +kernel

/-- … and it keeps its namespaces. -/
example : ∃ o, parse (el "svg" [own "width"] [el "use" [xlink "href"] []]) = some o ∧ Kept top (el "svg" [own "width"] [el "use" [xlink "href"] []]) o := by
  refine (namespaces_kept_iff ?_).2 ?_
  · constructor <;> simp [elemNames, elemNamesAll, attrNames, attrNamesAll, el, own, xlink, Fair] <;> decide
  · simp [elemNames, elemNamesAll, attrNames, attrNamesAll, el, own, xlink, Elem.name]

/-- `<svg xmlns=…><foreignObject><div xmlns="http://www.w3.org/1999/xhtml"/></foreignObject></svg>`: two attributes `xmlns` on the root. -/
example : rootAttrs (parse (el "svg" [] [el "foreignObject" [] [html "div" []]])) = some [.decl none svgUri, .decl none svgUri] := by decide +kernel

/-- `<svg:svg xmlns:svg=…/>`: `xmlns:xmlns` on the root. -/
example : rootAttrs (parse (.mk ⟨some (lit "svg"), svgUri, lit "svg"⟩ [] [])) =
    some [.decl (some (lit "xmlns")) xmlnsUri, .decl (some (lit "svg")) svgUri] := by decide +kernel

/-- `<svg xmlns=…><p:a xmlns:p="u"/><p:a xmlns:p="v"/></svg>`: both elements are in the second namespace. -/
example : rootAttrs (parse (el "svg" [] [.mk ⟨some (lit "p"), lit "u", lit "a"⟩ [] [], .mk ⟨some (lit "p"), lit "v", lit "a"⟩ [] []])) =
    some [.decl none svgUri, .decl (some (lit "p")) (lit "v")] := by decide +kernel

/-- `<svg xmlns=…><text xml:space="preserve" xlink:title=…/></svg>`: the parser panics. -/
example : (parse (el "svg" [] [el "text" [⟨some (lit "xml"), xmlUri, lit "space"⟩, xlink "title"] []])).isNone := by decide +kernel

/-- … but not if the root has another attribute. -/
example : (parse (el "svg" [own "width"] [el "text" [⟨some (lit "xml"), xmlUri, lit "space"⟩, xlink "title"] []])).isSome := by decide +kernel

end Verif.Sink
