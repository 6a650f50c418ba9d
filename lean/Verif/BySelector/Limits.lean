import Verif.BySelector.Props
import Verif.Select.Limits

/-! # C89: selections that change while attributes are removed, and examples -/

namespace Verif.BySelector

open Verif.Select

/-- An element with a fill in an element with a fill, and so on: `<svg><g id="a" fill="red"><g id="b" fill="red"><g id="c" fill="red"/></g></g></svg>` -/
def chain : Frame := ⟨[], ⟨svgNs, lit "svg"⟩, [], [el "g" [at' "id" "a", at' "fill" "red"]
  [el "g" [at' "id" "b", at' "fill" "red"] [el "g" [at' "id" "c", at' "fill" "red"] []]]], []⟩

/-- The names of the attributes of each element. -/
def show' (d : Frame) : List (List Str) := (everything d).map fun l => l.here.attrs.map qname

def fill : Simple := .attr false (lit "fill") .present .auto

/-- `[fill] > [fill]` -/
def inside : Sels := joined .child fill fill

/-- `:not([fill]) > [fill]` -/
def outer : Sels := joined .child (.neg (only fill)) fill

/-- What is selected if all is selected before anything is removed. -/
def selected (E : Env) (addr : Nat) (ss : Sels) (d : Frame) : List Place :=
  (pick E (some addr) ss (everything d) []).map fun l => l.path.drop 1

/-- **C89 (violated)** `[fill] > [fill]` matches two elements, of which the second keeps its fill: by the time it is tested, its parent has
none. -/
theorem chain_violated : selected (env false) 0 inside chain = [[0, 0], [0, 0, 0]] ∧
    show' (removeOne (env false) 0 inside [lit "fill"] chain) = [[], [lit "id", lit "fill"], [lit "id"], [lit "id", lit "fill"]] := by
  decide +kernel

/-- **C89 (violated)** `:not([fill]) > [fill]` matches one element, and all three lose their fill. -/
theorem cascade_violated : selected (env false) 0 outer chain = [[0]] ∧
    show' (removeOne (env false) 0 outer [lit "fill"] chain) = [[], [lit "id"], [lit "id"], [lit "id"]] := by
  decide +kernel

/-- **C89 (violated)** The same with siblings: of three elements with a fill beside each other, `[fill] + [fill]` takes it from the second
only. -/
theorem siblings_violated : let d : Frame := ⟨[], ⟨svgNs, lit "svg"⟩, [], [el "a" [at' "fill" "red"] [], el "b" [at' "fill" "red"] [], el "c" [at' "fill" "red"] []], []⟩
    selected (env false) 0 (joined .next fill fill) d = [[1], [2]] ∧
    show' (removeOne (env false) 0 (joined .next fill fill) [lit "fill"] d) = [[], [lit "fill"], [], [lit "fill"]] := by
  decide +kernel

/-- `g > [fill]` is steady: the fill of all that are asked for is removed, and of no other. -/
example : SteadySels [lit "fill"] (joined .child (.name (lit "g")) fill) ∧ (joined .child (.name (lit "g")) fill).Plain (env false) ∧
    Single ⟨chain, []⟩ ∧ Throughout (Faithful (env false)) ⟨chain, []⟩ ∧
    show' (removeOne (env false) 0 (joined .child (.name (lit "g")) fill) [lit "fill"] chain) = [[], [lit "id", lit "fill"], [lit "id"], [lit "id"]] := by
  refine ⟨⟨⟨⟨trivial, trivial⟩, trivial, trivial⟩, trivial⟩, ⟨⟨⟨(?_ : lower (lit "g") = lit "g"), trivial⟩, ⟨rfl, ?_, fun _ => ?_⟩, trivial⟩, trivial⟩, ?_, ?_, by decide +kernel⟩
  · decide
  · decide
  · decide
  · intro f hf
    simp only [List.getLast?_singleton, Option.some.injEq] at hf
    subst hf
    simp [chain]
  · intro f hf
    simp only [List.mem_singleton] at hf
    subst hf
    have e1 : ¬ lit "id" = lit "fill" := by decide
    have e5 : ¬ lit "fill" = lit "id" := by decide
    have e2 : ¬ lit "id" = lit "class" := by decide
    have e3 : ¬ lit "fill" = lit "class" := by decide
    have e4 : ¬ lit "a" = lit "#ff0000" ∧ ¬ lit "b" = lit "#ff0000" ∧ ¬ lit "c" = lit "#ff0000" := by decide
    simp [chain, Frame.node, Node.All, AllOf, el, at', Faithful, env, e1, e2, e3, e4, e5]

/-- `[fill] > [fill]` is not, if `fill` is listed; it is, if another attribute is. -/
example : ¬ SteadySels [lit "fill"] inside ∧ SteadySels [lit "id"] inside ∧ ClearSels [lit "id"] inside := by
  have hl : lower (lit "fill") = lit "fill" := by decide
  have hi : lit "fill" ≠ lit "id" := by decide
  simp [inside, joined, fill, SteadySels, Steady, SteadyComp, SteadySimple, ClearSels, Clear, ClearComp, ClearSimple, hl, hi]

/-- Two items, of which the second names an attribute with a prefix, and a selector that cannot be parsed. -/
example : let d : Frame := ⟨[], ⟨svgNs, lit "svg"⟩, [at' "fill" "red"], [el "a" [⟨some (lit "xlink"), lit "href", lit "#r"⟩, at' "href" "#s", at' "fill" "red"] []], []⟩
    let parse : Str → Option Sels := fun s => if s = lit "a" then some (only (.name (lit "a"))) else if s = lit "*" then some (only .any) else none
    (job (env false) 0 parse [(lit "*", [lit "fill"]), (lit "a", [lit "xlink:href"])] d).map show' = some [[], [lit "href"]] ∧
    job (env false) 0 parse [(lit "*", [lit "fill"]), (lit "#", [lit "xlink:href"])] d = none ∧
    (∀ i ∈ [(lit "*", [lit "fill"]), (lit "a", [lit "xlink:href"])], ∀ ss, parse i.1 = some ss → ClearSels (listed [(lit "*", [lit "fill"]), (lit "a", [lit "xlink:href"])]) ss) := by
  refine ⟨by decide +kernel, (job_fails_iff ..).2 ⟨(lit "#", [lit "xlink:href"]), by simp, by decide⟩, ?_⟩
  have h : ¬ lit "*" = lit "a" := by decide
  intro i hi ss e
  simp only [List.mem_cons, List.not_mem_nil, or_false] at hi
  rcases hi with rfl | rfl
  · simp only [if_neg h, if_true, Option.some.injEq] at e
    subst e
    exact ⟨⟨trivial, trivial⟩, trivial⟩
  · simp only [if_true, Option.some.injEq] at e
    subst e
    exact ⟨⟨trivial, trivial⟩, trivial⟩

end Verif.BySelector
