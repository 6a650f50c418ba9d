import Verif.Retain.Props
import Verif.Unknowns.Limits

/-!
# C54: where removing these attributes changes something, and examples
-/

namespace Verif.Retain

open Verif.Tree Verif.Names
open Verif.Unknowns (Key Val Attr AId E El Item Run property inheritedProperties otherProperties inlineBlock own styleOf content
  elementOf el at' ofName svg plainRun ruleRun word byName usual)

/-- An empty value. -/
def nothing : Val := .parts []

/-- `lang=""` says that the language is not known; without it, it is that of the parent. -/
theorem empty_language_violated :
    let fr := [at' .Lang (word "fr")]
    let text := [at' .Lang nothing]
    removeEmptyAttrs true [el "svg" fr [el "text" text []]] = [el "svg" fr [el "text" [] []]] ∧
    language [ofName "text" text, ofName "svg" fr] = some nothing ∧
    language [ofName "text" [], ofName "svg" fr] = some (word "fr") :=
  ⟨by rfl, by rfl, by rfl⟩

/-- `xmlns=""` says that the element is in no namespace; without it, it is drawn. -/
theorem empty_namespace_violated :
    let ns := [at' .XMLNS (word "http://www.w3.org/2000/svg")]
    let rect := [at' .XMLNS nothing]
    removeEmptyAttrs true [el "svg" ns [el "rect" rect []]] = [el "svg" ns [el "rect" [] []]] ∧
    defaultNamespace [ofName "rect" rect, ofName "svg" ns] = some nothing ∧
    defaultNamespace [ofName "rect" [], ofName "svg" ns] = some (word "http://www.w3.org/2000/svg") :=
  ⟨by rfl, by rfl, by rfl⟩

/-- `<set attributeName="class" to=""/>` takes the classes away; without `to` it does nothing. -/
theorem empty_set_violated :
    let name := at' .AttributeName (word "class")
    removeEmptyAttrs true [el "svg" [] [el "set" [name, at' .To nothing] []]] = [el "svg" [] [el "set" [name] []]] ∧
    course (ofName "set" [name, at' .To nothing]) = .given none (some nothing) none ∧
    course (ofName "set" [name]) = .given none none none :=
  ⟨by rfl, by rfl, by rfl⟩

/-- With `values=""` an animation does nothing; without it, it goes from `from` to `to`. -/
theorem empty_values_violated :
    let ends := [at' .From (.parts [.num 0]), at' .To (.parts [.num 9])]
    removeEmptyAttrs true [el "svg" [] [el "animate" (at' .ValuesAnimate nothing :: ends) []]] =
      [el "svg" [] [el "animate" ends []]] ∧
    course (ofName "animate" (at' .ValuesAnimate nothing :: ends)) = .listed nothing ∧
    course (ofName "animate" ends) = .given (some (.parts [.num 0])) (some (.parts [.num 9])) none :=
  ⟨by rfl, by rfl, by rfl⟩

/-- Whether the first element has a `fill`, empty or not. -/
def hasFill (_ : List Unit) : List E → Option Bool
  | [] => some false
  | e :: _ => some (e.2.any fun | .plain (.known .Fill) _ => true | _ => false)

/-- With `[fill] { opacity: 0 }`, a path with `fill=""` appears. -/
theorem empty_selector_violated (fonts : Val → List (Key × Val)) (holds : Unit → Bool) :
    let r : Run Unit Unit := ⟨usual, hasFill, [.style [((), 1)] ⟨[(.Opacity, .parts [.num 0])], []⟩], id⟩
    let path := [at' .FillOpacity (.parts [.num 1]), at' .Fill nothing]
    removeEmptyAttrs true [el "path" path []] = [el "path" [at' .FillOpacity (.parts [.num 1])] []] ∧
    styleOf r fonts holds [ofName "path" path, svg] .Opacity = .parts [.num 0] ∧
    styleOf r fonts holds [ofName "path" [at' .FillOpacity (.parts [.num 1])], svg] .Opacity = .parts [.num 1] :=
  ⟨by rfl, by rfl, by rfl⟩

/-- `transform-origin` is not inherited, but is used by the `transform` of the group itself. -/
theorem group_origin_violated (fonts : Val → List (Key × Val)) (holds : Unit → Bool) :
    let turn := at' .Transform (.parts [.word "rotate", .num 90])
    let origin := at' .TransformOrigin (.parts [.px 5, .px 5])
    removeGroupAttrs true [el "svg" [] [el "g" [turn, origin] [el "path" [] []]]] =
      [el "svg" [] [el "g" [turn] [el "path" [] []]]] ∧
    styleOf plainRun fonts holds [ofName "g" [turn, origin], svg] .TransformOrigin = .parts [.px 5, .px 5] ∧
    styleOf plainRun fonts holds [ofName "g" [turn], svg] .TransformOrigin = .parts [.px 0, .px 0] :=
  ⟨by rfl, by rfl, by rfl⟩

/-- What `inherit` stands for. -/
def resolved (r : Run String Unit) (fonts : Val → List (Key × Val)) (holds : Unit → Bool) (k : Key) : List E → Val
  | [] => Unknowns.initial k
  | e :: cs => match styleOf r fonts holds (e :: cs) k with
    | .inherit => resolved r fonts holds k cs
    | v => v

/-- Values may still be asked for by elements within the group. -/
theorem group_inherit_violated (fonts : Val → List (Key × Val)) (holds : Unit → Bool) :
    let thin := [at' .VectorEffect (word "non-scaling-stroke")]
    let path := [at' .VectorEffect .inherit]
    removeGroupAttrs true [el "g" thin [el "path" path []]] = [el "g" [] [el "path" path []]] ∧
    resolved plainRun fonts holds .VectorEffect [ofName "path" path, ofName "g" thin] = word "non-scaling-stroke" ∧
    resolved plainRun fonts holds .VectorEffect [ofName "path" path, ofName "g" []] = word "none" :=
  ⟨by rfl, by rfl, by rfl⟩

/-- `xml:lang` is removed beside `lang`, though it is what counts. -/
theorem deprecated_language_violated :
    let as := [at' .XmlLang (word "en-US"), at' .Lang (word "en-CA")]
    removeDeprecatedAttrs false [] [el "svg" as []] = [el "svg" [at' .Lang (word "en-CA")] []] ∧
    language [ofName "svg" as] = some (word "en-US") ∧
    language [ofName "svg" [at' .Lang (word "en-CA")]] = some (word "en-CA") :=
  ⟨by rfl, by rfl, by rfl⟩

/-- What is in `:not` is not seen: `:not([version])` is met when the attribute is removed. -/
theorem deprecated_not_violated (rest : Nat → Bool) :
    let c := Comp.without [.present (lit "version")]
    let as := [at' .Version (.parts [.num 1])]
    removeDeprecatedAttrs false [[c]] [el "svg" as []] = [el "svg" [] []] ∧ met rest as c = false ∧ met rest [] c = true :=
  ⟨by rfl, by rfl, by rfl⟩

/-- Names are put in lower case though they are not so in the document: `[viewTarget]` is no longer met. -/
theorem deprecated_case_violated (rest : Nat → Bool) :
    let c := Comp.present (lit "viewTarget")
    let as := [at' .ViewTarget (word "a")]
    removeDeprecatedAttrs true [[c]] [el "view" as []] = [el "view" [] []] ∧ met rest as c = true ∧ met rest [] c = false :=
  ⟨by rfl, by rfl, by rfl⟩

/-- The prefix of a selector is its own: with `@namespace x "http://www.w3.org/XML/1998/namespace"`, `[x|lang=en]` is no
longer met. Neither is `[*|lang=en]` in the same place if `lang` is another. -/
theorem deprecated_prefix_violated (rest : Nat → Bool) :
    let en := fun v => v == word "en"
    let as := [at' .XmlLang (word "en"), at' .Lang (word "fr")]
    let c := Comp.other (.bound (lit "x") (lit "http://www.w3.org/XML/1998/namespace")) (lit "lang") en
    let d := Comp.other .any (lit "lang") en
    removeDeprecatedAttrs false [[c], [d]] [el "text" as []] = [el "text" [at' .Lang (word "fr")] []] ∧
    met rest as c = true ∧ met rest [at' .Lang (word "fr")] c = false ∧
    met rest as d = true ∧ met rest [at' .Lang (word "fr")] d = false := by
  exact ⟨by rfl, by rfl, by rfl, by rfl, by rfl⟩

/-! ## Examples -/

example : removeEmptyAttrs true [el "svg" [] [el "rect" [at' .Fill nothing, .style ⟨[], []⟩, at' .SystemLanguage nothing,
      at' .WidthRect (.parts [.px 5])] [.text "a".toList]]] =
    [el "svg" [] [el "rect" [at' .SystemLanguage nothing, at' .WidthRect (.parts [.px 5])] [.text "a".toList]]] := by rfl

example : removeEmptyAttrs false [el "rect" [at' .Fill nothing] []] = [el "rect" [at' .Fill nothing] []] := by rfl

example : Spoken (at' .SystemLanguage nothing) ∧ ¬ Spoken (at' .Fill nothing) ∧ Spoken (at' .Fill (word "red")) := by
  simp [Spoken, at', nothing, Unknowns.word]

example (fonts : Val → List (Key × Val)) (holds : Unit → Bool) :
    shown plainRun fonts holds [ofName "rect" [at' .Fill nothing], ofName "g" [at' .Fill (word "red")]] .Fill = word "red" := by
  rfl

/-- The hypothesis on selectors holds for those that are names of elements. -/
example (on : Bool) (doc : List (Node Attr)) (hw : Wellformed doc) (fonts : Val → List (Key × Val)) (holds : Unit → Bool)
    (k : Key) : List.Forall₂ (Along fun c c' => shown (ruleRun "g" .Fill (word "red")) fonts holds c' k =
      shown (ruleRun "g" .Fill (word "red")) fonts holds c k) (content doc) (content (removeEmptyAttrs on doc)) := by
  apply empty_styles on doc hw
  intro ss c c' h
  match c, c', h with
  | [], [], _ => rfl
  | e :: _, e' :: _, h =>
    rw [List.map_cons, List.map_cons, List.cons.injEq] at h
    have h1 : (label e).1 = (label e').1 := congrArg Prod.fst h.1
    simp only [label] at h1
    simp only [Unknowns.ruleRun, Unknowns.byName, h1]

example : Wellformed [el "svg" [at' .Fill nothing, .style ⟨[], []⟩] [el "rect" [at' .Fill nothing] []]] := by
  intro e cs h
  simp [content, Unknowns.itemsAll, Unknowns.items, Unknowns.el] at h
  rcases h with ⟨rfl, _⟩ | ⟨rfl, _⟩ <;> decide

example (met : Key → Val → Bool) (h : met .SystemLanguage nothing = false) :
    ¬ passes met (ofName "g" [at' .SystemLanguage nothing]) := by
  intro hp
  have := hp .SystemLanguage (by decide) nothing (by rfl)
  simp [h] at this

example : removeGroupAttrs true [el "g" [at' .VectorEffect (word "a"), at' .Opacity (.parts [.num 1]), at' .Fill (word "red")]
      [el "path" [at' .VectorEffect (word "a")] []]] =
    [el "g" [at' .Opacity (.parts [.num 1]), at' .Fill (word "red")] [el "path" [at' .VectorEffect (word "a")] []]] := by rfl

example : removeDeprecatedAttrs false [] [el "svg" [at' .Version (.parts [.num 1]), at' .EnableBackground (word "new")]
      [el "g" [at' .XmlLang (word "en"), at' .Lang (word "en")] [], el "g" [at' .XmlLang (word "en")] []]] =
    [el "svg" [at' .EnableBackground (word "new")]
      [el "g" [at' .Lang (word "en")] [], el "g" [at' .XmlLang (word "en")] []]] := by rfl

example : removeDeprecatedAttrs true [] [el "svg" [at' .EnableBackground (word "new"), at' .Fill (word "red")] []] =
    [el "svg" [at' .Fill (word "red")] []] := by rfl

example : removeDeprecatedAttrs true [[.rest 0, .present (lit "version")]] [el "svg" [at' .Version (.parts [.num 1])] []] =
    [el "svg" [at' .Version (.parts [.num 1])] []] := by rfl

example : Names [[.rest 0, .present (lit "version")]] .Version :=
  ⟨_, List.mem_singleton_self _, _, List.mem_cons_of_mem _ (List.mem_singleton_self _), .inl ⟨rfl, .inl ⟨_, rfl, by decide⟩⟩⟩

example : ∀ s ∈ [[Comp.rest 0, .present (lit "version"), .valued (lit "viewTarget") fun _ => true]], ∀ c ∈ s, c.Plain := by
  intro s hs c hc
  simp only [List.mem_singleton] at hs
  subst hs
  simp only [List.mem_cons, List.not_mem_nil, or_false] at hc
  rcases hc with rfl | rfl | rfl
  · trivial
  · exact show ∀ c ∈ lit "version", ¬ (65 ≤ c ∧ c ≤ 90) by decide
  · trivial

end Verif.Retain
