import Verif.Jsx.Props

/-!
# Where the JSX of a document falls short
-/

namespace Verif.Jsx

/-- An element stands somewhere in another node. -/
inductive Inside (d : Doc) : Doc → Prop
  | here : Inside d d
  | kid {pre loc attrs kids k} : k ∈ kids → Inside d k → Inside d (.element pre loc attrs kids)

private theorem faithfulAll_mem {ks : List Doc} (h : FaithfulAll ks) {k : Doc} (hk : k ∈ ks) :
    Faithful k := by
  induction ks with
  | nil => cases hk
  | cons d ds ih =>
    rcases List.mem_cons.mp hk with rfl | hk
    · exact h.1
    · exact ih h.2 hk

/-- All nodes of a document that arrives arrive. -/
theorem faithful_inside {d e : Doc} (hi : Inside d e) (h : Faithful e) : Faithful d := by
  induction hi with
  | here => exact h
  | kid hk _ ih => exact ih (faithfulAll_mem h.2.2 hk)

/-- The JSX of an element does not stand for the element. -/
def Fails (e : Doc) : Prop := ¬ ∃ v, read (emit (toJsx e)) = some v ∧ Shows e v

private theorem fails {d : Doc} {pre : Option String} {loc : String} {attrs : List (Name × Val)}
    {kids : List Doc} (hi : Inside d (.element pre loc attrs kids)) (h : ¬ Faithful d) :
    Fails (.element pre loc attrs kids) := fun hv =>
  h (faithful_inside hi ((toJsx_shows_iff pre loc attrs kids).mp hv))

/-- **C85 (violated, style sheets)**: with a style sheet that has a rule, at any place, the JSX
does not stand for the document: the braces of the rule are written as they are. -/
theorem stylesheet_violated (css : List Char) (hc : '{' ∈ css) (pre : Option String) (loc : String)
    (attrs : List (Name × Val)) (kids : List Doc)
    (hi : Inside (.style css) (.element pre loc attrs kids)) :
    Fails (.element pre loc attrs kids) :=
  fails hi fun h => by simpa [literal] using h '{' hc

/-- **C85 (violated, texts)**: with a text that has a brace, an angle bracket or an ampersand
inside, at any place. -/
theorem text_violated (a b : List Char) (x y c : Char) (hx : white x = false) (hy : white y = false)
    (hc : c = '{' ∨ c = '}' ∨ c = '<' ∨ c = '>' ∨ c = '&') (pre : Option String) (loc : String)
    (attrs : List (Name × Val)) (kids : List Doc)
    (hi : Inside (.text (some (x :: (a ++ c :: b) ++ [y]))) (.element pre loc attrs kids)) :
    Fails (.element pre loc attrs kids) := by
  refine fails hi fun h => ?_
  have ht : trim (x :: (a ++ c :: b) ++ [y]) = x :: (a ++ c :: b) ++ [y] := by
    simp [trim, hx, hy]
  have := h _ rfl c (by rw [ht]; simp)
  rcases hc with rfl | rfl | rfl | rfl | rfl <;> simp [literal] at this

/-- **C85 (violated, prefixes)**: with an element that has a prefix, at any place; also if it is
the whole document. -/
theorem prefixed_violated (p l : String) (as : List (Name × Val)) (ks : List Doc)
    (pre : Option String) (loc : String) (attrs : List (Name × Val)) (kids : List Doc)
    (hi : Inside (.element (some p) l as ks) (.element pre loc attrs kids)) :
    Fails (.element pre loc attrs kids) :=
  fails hi fun h => by simpa using h.1

/-- **C85 (violated, importance)**: with an important declaration in a style attribute. -/
theorem important_violated (n : Name) (normal important : List (String × String))
    (hi : important ≠ []) (p : Option String) (l : String) (as : List (Name × Val))
    (ha : (n, .style normal important) ∈ as) (hl : l ≠ "svg") (ks : List Doc) (pre : Option String)
    (loc : String) (attrs : List (Name × Val)) (kids : List Doc)
    (hin : Inside (.element p l as ks) (.element pre loc attrs kids)) :
    Fails (.element pre loc attrs kids) :=
  fails hin fun h => hi ((h.2.1 _ ha fun h => hl h.1).2 _ _ rfl)

/-- **C85 (violated, instructions)**: with a processing instruction inside of an element, whose
content becomes text. -/
theorem instruction_violated (x : Char) (s : List Char) (hx : white x = false) (pre : Option String)
    (loc : String) (attrs : List (Name × Val)) (kids : List Doc)
    (hi : Inside (.pi (some (x :: s))) (.element pre loc attrs kids)) :
    Fails (.element pre loc attrs kids) := by
  refine fails hi fun h => ?_
  have h := h _ rfl
  obtain ⟨a, b, hs, ha, hb, -, -⟩ := trim_spec (x :: s)
  rw [h] at hs
  have : white x = true := by
    have hm : x ∈ a ++ [] ++ b := by rw [← hs]; simp
    simp only [List.append_nil, List.mem_append] at hm
    rcases hm with h | h
    · exact ha x h
    · exact hb x h
  rw [hx] at this
  cases this

/-- **C85 (violated, unknown attributes)**: with an attribute that is not known and has
punctuation in its name, such as `data-name`. -/
theorem unknown_violated (n : Name) (v : Val) (hk : n.isKnown = false) (hs : n.std = none)
    (hp : n.loc.toList.all Char.isAlphanum = false) (hh : ∀ r ∈ html, r.1 ≠ n.loc)
    (p : Option String) (l : String) (as : List (Name × Val)) (ha : (n, v) ∈ as) (hl : l ≠ "svg")
    (ks : List Doc) (pre : Option String) (loc : String) (attrs : List (Name × Val))
    (kids : List Doc) (hin : Inside (.element p l as ks) (.element pre loc attrs kids)) :
    Fails (.element pre loc attrs kids) := by
  refine fails hin fun h => ?_
  obtain ⟨⟨q, hq⟩, -⟩ := h.2.1 _ ha fun h => hl h.1
  obtain ⟨e, he⟩ := (dropped_iff n).mpr (Or.inr ⟨Or.inr ⟨hp, hh⟩, by simp [hk], by simp [hs]⟩)
  simp only at hq
  rw [he] at hq
  cases hq

/-- The characters of what is read. -/
def V.text : V → List Char
  | .ch c => [c]
  | .el _ _ ks => texts ks
  | .fr ks => texts ks
  | .ex _ => []
where
  /-- The same for children. -/
  texts : List V → List Char
    | [] => []
    | v :: vs => v.text ++ texts vs

/-- **C85 (violated, blanks)**: a blank between two words is lost if the second is in an element
of its own: `<text>a <tspan>b</tspan></text>` reads `ab`. -/
theorem blank_violated (x y : Char) (hx : white x = false) (hy : white y = false)
    (lx : literal x) (ly : literal y) :
    (read (emit (toJsx (.element none "text" []
        [.text (some [x, ' ']), .element none "tspan" [] [.text (some [y])]])))).map V.text.texts =
      some [x, y] := by
  have h1 : trim [x, ' '] = [x] := by simp [trim, white, hx] at *; simp [hx, white]
  have h2 : trim [y] = [y] := by simp [trim, hy]
  simp [toJsx, toJsxs, h1, h2, attrsJsx, withoutXmlns, emit, emits, read, steps, step, lx, ly,
    V.text, V.text.texts]

/-- **C85 (violated, one name for two)**: an unknown attribute can take the name of a known one. -/
theorem class_violated (v w : Val) :
    attrsJsx [(⟨none, none, "class", true⟩, v), (⟨none, none, "className", false⟩, w)] =
      [.attr "className" (some (attrValue v)), .attr "className" (some (attrValue w))] := by
  have h1 : attrName ⟨none, none, "class", true⟩ = .ok "className" := by rfl
  have h2 : attrName ⟨none, none, "className", false⟩ = .ok "className" := by rfl
  simp [attrsJsx, h1, h2]

/-- A document that arrives, with an attribute that is renamed, a comment and white space. -/
def sample : Doc :=
  .element none "svg" [(⟨none, none, "xmlns", true⟩, .other "http://www.w3.org/2000/svg"),
      (⟨none, none, "viewBox", true⟩, .other "0 0 1 1")]
    [.text (some ['\n', ' ']), .comment,
      .element none "text" [(⟨none, none, "stroke-width", true⟩, .num (2, 1))]
        [.text (some ['\n', 'h', 'i', ' '])]]

example : attrName ⟨none, none, "viewBox", true⟩ = .ok "viewBox" := by rfl
example : attrName ⟨none, none, "stroke-width", true⟩ = .ok "strokeWidth" := by rfl
example : attrName ⟨some "xlink", some "xlink", "href", true⟩ = .ok "xlinkHref" := by rfl
example : attrName ⟨some "x", some "xlink", "href", true⟩ = .error .unknownPrefix := by rfl
example : attrName ⟨none, none, "data-name", false⟩ = .error .invalidName := by rfl
example : Known ⟨none, none, "fill-opacity", true⟩ :=
  ⟨rfl, rfl, Or.inl ⟨"fillOpacity", by decide +kernel⟩⟩
example : Known ⟨none, none, "fill", true⟩ := ⟨rfl, rfl, Or.inr ⟨rfl, by decide +kernel⟩⟩

example : Faithful sample := by
  refine ⟨rfl, ?_, ?_, trivial, ⟨rfl, ?_, ?_, trivial⟩, trivial⟩
  · intro a ha hn
    simp only [List.mem_cons, List.not_mem_nil, or_false] at ha
    rcases ha with rfl | rfl
    · exact absurd ⟨rfl, rfl, rfl⟩ hn
    · exact ⟨⟨"viewBox", by rfl⟩, fun n i h => by cases h⟩
  · rintro s ⟨⟩
    decide +kernel
  · intro a ha _
    simp only [List.mem_cons, List.not_mem_nil, or_false] at ha
    subst ha
    exact ⟨⟨"strokeWidth", by rfl⟩, fun n i h => by cases h⟩
  · rintro s ⟨⟩
    decide +kernel

example : Inside (.style ".a{fill:red}".toList)
    (.element none "svg" [] [.element none "style" [] [.style ".a{fill:red}".toList]]) :=
  .kid (List.mem_singleton.mpr rfl) (.kid (List.mem_singleton.mpr rfl) .here)

example : ∀ r ∈ html, r.1 ≠ "data-name" := by decide +kernel

end Verif.Jsx
