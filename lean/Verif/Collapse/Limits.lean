import Verif.Collapse.Kept

/-!
# C48: documents whose picture changes
-/

namespace Verif.Collapse

open Verif.Tree Verif.Names Verif.Empty

/-- A part of SVG for the examples. -/
def svg : Lang String where
  inherited s := ["fill", "stroke", "stroke-width"].contains s
  style s p := if s = "fill:red" ∧ p = "fill" then some "red" else none
  hidden v := v == "none"
  inert n := n == plainName "id" || n == plainName "class" || n == plainName "data-x"

theorem svg_sane : svg.Sane where
  inherited := by simp [svg]
  inert := by simp [svg, plainName]
  apart := by
    rintro ⟨p, l⟩ h ⟨h1, h2⟩
    simp [svg, plainName] at h h1 h2
    rcases h with (⟨-, h⟩ | ⟨-, h⟩) | ⟨-, h⟩ <;> subst h <;> simp at h2

abbrev Doc := List (Node (Attr String String))

def el (name : String) (as : List (Attr String String)) (ks : Doc) : Node (Attr String String) := .elem ⟨.std .svg, lit name⟩ as ks
def xf (l : List String) : Attr String String := ⟨plainName "transform", .xf (some l)⟩
def inh (n v : String) : Attr String String := ⟨plainName n, .inh (some v)⟩
def plain (n v : String) : Attr String String := ⟨plainName n, .plain v⟩

/-- The job, for styles that declare no filters. -/
def job (doc : Doc) : Except Panic Doc := collapseGroups id (fun _ => false) true doc

/-- The first thing drawn within the first thing drawn: the transforms, the value of `fill`, the number of its own attributes. -/
def seen : List (Pic String String) → Option (List String × Option String × Nat)
  | .item _ _ _ _ (.item _ own env t _ :: _) :: _ => some (t, env "fill", own.length)
  | _ => none

/-- The values of the effects around the first thing drawn. -/
def around : List (Pic String String) → List (Val String String)
  | .item _ _ _ _ (.effect _ v _ (.effect _ w _ _ :: _) :: _) :: _ => [v, w]
  | .item _ _ _ _ (.effect _ v _ _ :: _) :: _ => [v]
  | _ => []

/-- **C48 (violated: opacity).** A transparent element in a transparent group loses the transparency of the group, whatever the two
are: `Inheritable` is the type of all presentation attributes, also of those that are not inherited. -/
theorem opacity_violated (a b : String) : ∃ out, job [el "svg" [] [el "g" [inh "opacity" a] [el "path" [inh "opacity" b] []]]] = .ok out ∧
    around (picture svg [el "svg" [] [el "g" [inh "opacity" a] [el "path" [inh "opacity" b] []]]]) = [.inh (some a), .inh (some b)] ∧
    around (picture svg out) = [.inh (some b)] := ⟨_, rfl, rfl, rfl⟩

/-- **C48 (violated: display).** A group that is not displayed shows an element in it that says how it would be displayed. -/
theorem display_violated : ∃ out, job [el "svg" [] [el "g" [inh "display" "none"] [el "path" [inh "display" "inline"] []]]] = .ok out ∧
    seen (picture svg [el "svg" [] [el "g" [inh "display" "none"] [el "path" [inh "display" "inline"] []]]]) = none ∧
    seen (picture svg out) = some ([], none, 0) := ⟨_, rfl, rfl, rfl⟩

/-- **C48 (violated: animations).** If an attribute is animated then those before it have already been given to the child, and remain
in the group: a transform applies twice. -/
theorem animated_violated (t : String) : ∃ out,
    job [el "svg" [] [el "g" [xf [t], inh "fill" "red"] [el "path" [] [el "animate" [plain "attributeName" "fill"] []]]]] = .ok out ∧
    seen (picture svg [el "svg" [] [el "g" [xf [t], inh "fill" "red"] [el "path" [] [el "animate" [plain "attributeName" "fill"] []]]]]) =
      some ([t], some "red", 0) ∧
    seen (picture svg out) = some ([t, t], some "red", 0) := ⟨_, rfl, rfl, rfl⟩

/-- **C48 (violated: panics).** The documentation says never; a group around an animation that has an attribute of the same name
panics, whatever its value. -/
theorem panic_violated (v : String) : ∃ doc : Doc, doc = [el "svg" [] [el "g" [inh "fill" v] [el "animate" [plain "fill" "freeze"] []]]] ∧
    job doc = .error .borrowed := ⟨_, rfl, rfl⟩

/-- **C48 (violated: attributes of the child's kind).** An attribute without a meaning for a group gets one. -/
theorem meaning_violated (v : String) : ∃ out, job [el "svg" [] [el "g" [plain "x" v] [el "text" [] []]]] = .ok out ∧
    seen (picture svg [el "svg" [] [el "g" [plain "x" v] [el "text" [] []]]]) = some ([], none, 0) ∧
    seen (picture svg out) = some ([], none, 1) := ⟨_, rfl, rfl, rfl⟩

/-- **C48 (violated: styles).** The style of a group goes before an attribute of the element it is given to. -/
theorem style_violated : ∃ out, job [el "svg" [] [el "g" [plain "style" "fill:red"] [el "path" [inh "fill" "blue"] []]]] = .ok out ∧
    seen (picture svg [el "svg" [] [el "g" [plain "style" "fill:red"] [el "path" [inh "fill" "blue"] []]]]) = some ([], some "blue", 0) ∧
    seen (picture svg out) = some ([], some "red", 0) := ⟨_, rfl, rfl, rfl⟩

/-- **C48 (violated: systems of coordinates).** The transform of a group around a clip path means nothing; given to the clip path it
does. -/
theorem fresh_violated (t : String) : ∃ out,
    job [el "svg" [] [el "g" [xf [t], plain "class" "k"] [el "clipPath" [plain "id" "c", plain "class" "k"] []]]] = .ok out ∧
    seen (picture svg [el "svg" [] [el "g" [xf [t], plain "class" "k"] [el "clipPath" [plain "id" "c", plain "class" "k"] []]]]) =
      some ([], none, 0) ∧
    seen (picture svg out) = some ([t], none, 0) := ⟨_, rfl, rfl, rfl⟩

/-- Whether an element has an ancestor with a class, as for the selector `.k path`. -/
def within (k : String) (l : Doc) : Bool :=
  match l with
  | .elem n _ _ :: anc => n.is "path" && anc.any fun p => match p with
    | .elem _ as _ => look as (plainName "class") == some (.plain k)
    | _ => false
  | _ => false

/-- **C48 (violated: selectors).** Stylesheets are not looked at: a path within a group of a class is no longer so. -/
theorem selector_violated : ∃ doc out : Doc, (∃ l ∈ lines doc, within "k" l = true) ∧ job doc = .ok out ∧
    ∀ l ∈ lines out, within "k" l = false := by
  refine ⟨[el "svg" [] [el "g" [plain "class" "k"] [el "path" [] []]]], [el "svg" [] [el "path" [plain "class" "k"] []]], ?_, rfl, ?_⟩
  · exact ⟨[el "path" [] [], el "g" [plain "class" "k"] [el "path" [] []], el "svg" [] [el "g" [plain "class" "k"] [el "path" [] []]]],
      by simp [lines, linesAll, Node.lines, el], rfl⟩
  · simp [lines, linesAll, Node.lines, el, within]
    decide

/-- What a `use` of an element with an id draws: the inherited properties do not come from its place. -/
def usedOf (id : String) (doc : Doc) : List (Pic String String) :=
  match (lines doc).find? fun l => match l with
    | .elem _ as _ :: _ => look as (plainName "id") == some (.plain id)
    | _ => false with
  | some (n :: _) => [.item ⟨.std .svg, lit "use"⟩ [] (fun _ => none) [] (pics svg false (fun _ => none) [] n)]
  | _ => []

/-- **C48 (violated: references).** An `id` is given to the child though other attributes stay, so that what refers to it no longer
gets them. -/
theorem use_violated : ∃ out, job [el "svg" [] [el "g" [plain "id" "a", plain "data-x" "1", inh "fill" "red"]
      [el "path" [plain "data-x" "2"] []]]] = .ok out ∧
    seen (usedOf "a" [el "svg" [] [el "g" [plain "id" "a", plain "data-x" "1", inh "fill" "red"] [el "path" [plain "data-x" "2"] []]]]) =
      some ([], some "red", 0) ∧
    seen (usedOf "a" out) = some ([], none, 0) := ⟨_, rfl, rfl, rfl⟩

/-- **C48 (not done at once).** A second run may find more. -/
theorem again_violated : ∃ doc out out' : Doc, job doc = .ok out ∧ job out = .ok out' ∧ out' ≠ out := by
  refine ⟨[el "svg" [] [el "g" [plain "class" "k"] [el "g" [inh "fill" "red"] [el "path" [plain "id" "a", plain "class" "k"] []]]]],
    [el "svg" [] [el "g" [inh "fill" "red", plain "class" "k"] [el "path" [plain "id" "a", plain "class" "k"] []]]],
    [el "svg" [] [el "path" [plain "id" "a", plain "class" "k", inh "fill" "red"] []]], rfl, rfl, ?_⟩
  simp [el, lit]

/-! ## Examples -/

/-- Nested groups with transforms, inherited properties and opacity. -/
def nested : Doc :=
  [el "svg" [] [
    el "g" [xf ["translate(1)"], inh "fill" "red", plain "id" "g1"] [el "g" [inh "stroke" "blue"] [
      el "path" [xf ["scale(2)"], ⟨plainName "fill", .inh none⟩, inh "opacity" ".5"] []]],
    el "g" [] [.text [' '], el "rect" [] [], el "path" [] []],
    el "g" [inh "opacity" ".5"] [el "rect" [] [], el "path" [] []]]]

example : job nested = .ok [el "svg" [] [
    el "path" [xf ["translate(1)", "scale(2)"], inh "fill" "red", inh "opacity" ".5", inh "stroke" "blue", plain "id" "g1"] [],
    .text [' '], el "rect" [] [], el "path" [] [],
    el "g" [inh "opacity" ".5"] [el "rect" [] [], el "path" [] []]]] := rfl

/-- `animated_kept`, `switch_kept`: groups without attributes with an animation and in a switch stay. -/
example : job [el "svg" [] [el "g" [] [el "path" [] [el "set" [] []]], el "switch" [] [el "g" [] [el "path" [] [], el "g" [] [el "a" [] []]]]]] =
    .ok [el "svg" [] [el "g" [] [el "path" [] [el "set" [] []]], el "switch" [] [el "g" [] [el "path" [] [], el "a" [] []]]]] := rfl

/-- `collapse_partial` applies. -/
example : ∃ out, job nested = .ok out ∧ picture svg out = picture svg nested := by
  refine collapse_partial svg_sane id (fun _ => false) true nested ?_
  have ty : ∀ as : List (Attr String String), (as.map (·.name)).Nodup → (∀ a ∈ as, a ∈ [xf ["translate(1)"], inh "fill" "red", plain "id" "g1",
      inh "stroke" "blue", xf ["scale(2)"], ⟨plainName "fill", .inh none⟩, inh "opacity" ".5"]) → Typed svg as := by
    intro as h1 h2
    refine ⟨h1, fun a ha => ?_, fun a ha => ?_, fun a ha => ?_, fun a ha => ?_⟩ <;>
      (have := h2 a ha
       simp only [List.mem_cons, List.not_mem_nil, or_false] at this
       rcases this with rfl | rfl | rfl | rfl | rfl | rfl | rfl <;> simp [xf, inh, plain, plainName, svg, loose])
  have t1 := ty [] (by decide) (by simp)
  have t2 := ty [xf ["translate(1)"], inh "fill" "red", plain "id" "g1"] (by decide) (by simp)
  have t3 := ty [inh "stroke" "blue"] (by decide) (by simp)
  have t4 := ty [xf ["scale(2)"], ⟨plainName "fill", .inh none⟩, inh "opacity" ".5"] (by decide) (by simp)
  have t5 := ty [inh "opacity" ".5"] (by decide) (by simp)
  simp only [nested, el, FitAll, Fit, t1, t2, t3, t4, t5]
  simp [isAnimation, among, EName.is, lit, GroupAttr, loose, isFresh, xf, inh, plain, plainName, svg, textShows, Prefix.unaliased]

end Verif.Collapse
