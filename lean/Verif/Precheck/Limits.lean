import Verif.Precheck.Props
import Verif.Names.Model

/-! # C73: limits, and examples -/

namespace Verif.Precheck

open Verif.Scripts (Space Name AttrSpace Attr Node Has isEvent events)
open Verif.Names (lit)

variable {V : Type}

theorem visit_failFast (o o' : Options) (h : o.precleanChecks = o'.precleanChecks) (doc : List (Node V)) : visitAll o doc = visitAll o' doc := by
  obtain ⟨l, hl⟩ := orderAll_exists doc
  cases hc : o.precleanChecks with
  | false => rw [visitAll_off hc, visitAll_off (h ▸ hc)]
  | true => rw [visitAll_order hc hl, visitAll_order (h ▸ hc) hl]

/-- **C73 (the option does nothing)**: without `failFast` there is to be a log instead of an error; there is the same error, for every document. -/
theorem log_violated (doc : List (Node V)) : run ⟨false, true⟩ doc = run ⟨true, true⟩ doc := by
  unfold run
  rw [visit_failFast ⟨false, true⟩ ⟨true, true⟩ rfl]

/-- **C73 (references in the document are refused)**: every `xlink:href` of a `use` is called external, also `#a`. -/
theorem internal_violated (b : Bool) (u : List Nat) (ks : List (Node V)) :
    run ⟨b, true⟩ [.elem ⟨.svg, "use"⟩ [⟨.xlink, "href", 35 :: u⟩] ks] = .error (.xlink (35 :: u)) := by
  have : check ⟨.svg, "use"⟩ [⟨.xlink, "href", 35 :: u⟩] = some (.xlink (35 :: u)) := rfl
  simp [run, visitAll, visit, this]

/-- **C73 (external references are accepted)**: if they are in `href`. -/
theorem external_violated (b : Bool) (u : List Nat) :
    run ⟨b, true⟩ [.elem ⟨.svg, "use"⟩ [⟨.plain, "href", u⟩] ([] : List (Node V))] = .ok [.elem ⟨.svg, "use"⟩ [⟨.plain, "href", u⟩] []] := by
  have : check ⟨.svg, "use"⟩ [⟨.plain, "href", u⟩] = none := rfl
  simp [run, visitAll, visit, this]

/-- **C73 (animation and scripts that are accepted)**: the element `discard` of SVG 2, links to scripts, scripts of HTML. -/
theorem missed_violated (b : Bool) (u : List Nat) : ∀ k ∈ ([.elem ⟨.svg, "discard"⟩ [⟨.plain, "begin", lit "1s"⟩] [],
      .elem ⟨.svg, "a"⟩ [⟨.plain, "href", lit "javascript:" ++ u⟩] [], .elem ⟨.html, "script"⟩ [] []] : List (Node V)), run ⟨b, true⟩ [k] = .ok [k] := by
  have h1 : check ⟨.svg, "discard"⟩ [⟨.plain, "begin", lit "1s"⟩] = none := rfl
  have h2 : check ⟨.svg, "a"⟩ [⟨.plain, "href", lit "javascript:" ++ u⟩] = none := rfl
  have h3 : check ⟨.html, "script"⟩ [] = none := rfl
  intro k hk
  simp only [List.mem_cons, List.not_mem_nil, or_false] at hk
  rcases hk with rfl | rfl | rfl <;> simp [run, visitAll, visit, h1, h2, h3]

/-! ## Examples -/

private def fine : Node Nat := .elem ⟨.svg, "circle"⟩ [⟨.plain, "requiredFeatures", []⟩, ⟨.plain, "r", lit "5"⟩] []
private def moving : Node Nat := .elem ⟨.svg, "circle"⟩ [] [.text 0, .elem ⟨.svg, "animate"⟩ [⟨.plain, "onbegin", lit "f()"⟩] []]

example : run ⟨true, true⟩ [.elem ⟨.svg, "svg"⟩ [] [fine]] = .ok [.elem ⟨.svg, "svg"⟩ [] [fine]] := by rfl

example : run ⟨true, true⟩ [.elem ⟨.svg, "svg"⟩ [] [fine, moving, .elem ⟨.svg, "script"⟩ [] []]] = .error .animation := by rfl

end Verif.Precheck
