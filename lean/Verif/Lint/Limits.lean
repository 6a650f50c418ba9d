import Verif.Lint.Source

/-! # Cases for the rules about the whole document -/

namespace Verif.Lint

open Verif.Names
open Verif.Namespaces (Src)

/-- Three attributes of SVG: `xmlns`, `id` and `href`, which refers to an id by a URL. -/
def small : Vocab (Fin 3) where
  table := ⟨fun _ => .svg, fun k => match k with | 0 => lit "xmlns" | 1 => lit "id" | 2 => lit "href"⟩
  xmlns := 0
  id := 1
  refs := fun _ => []
  urls := fun a => match a with
    | .typed 2 v => [v]
    | _ => []

/-- `xmlns:k="u"` used by a child of its child, and `xmlns:z="w"` used by nobody. -/
def nested : List (Node (Fin 3)) :=
  [.elem 0 (.std .svg)
    [.typed 0 (lit "http://www.w3.org/2000/svg"), .unparsed (.unknown (.std .xmlns) (lit "k")) (lit "u"),
      .unparsed (.unknown (.std .xmlns) (lit "z")) (lit "w")]
    [.elem 9 (.std .svg) [] [.elem 20 (.unknown (some (lit "k")) (.unknown (lit "u"))) [] []], .other]]

example : reportNs small nested = [(0, (some (lit "z"), lit "w"))] := by decide +kernel

/-- An id that is used, and one that only a style sheet selects. -/
def twoIds : List (Node (Fin 3)) :=
  [.elem 0 (.std .svg) []
    [.elem 5 (.std .svg) [.typed 1 (lit "a")] [], .elem 9 (.std .svg) [.typed 1 (lit "b")] [],
      .elem 20 (.std .svg) [.typed 2 (lit "#a")] []]]

example : reportIds small false [⟨[], [lit "b"]⟩] twoIds = [lit "b"] := by decide +kernel

example : reportIds small false [⟨[lit "#b"], []⟩] twoIds = [] := by decide +kernel

example : reportIds small true [] twoIds = [] := by decide +kernel

/-- `fill-rule="nonzero"` below `fill-rule="evenodd"`: reported, but it changes the value of the element. -/
example : reportsDefault "nonzero" (some "nonzero") = true ∧
    applied true "nonzero" "evenodd" (.elem (some "nonzero") []) ≠ applied true "nonzero" "evenodd" (.elem none []) := by
  decide +kernel

/-- `<k:a xmlns:k="u"/>`: the declaration is reported. -/
example : reportNs small (read small (fun p l => .unparsed (.unknown p l) []) [.elem [(some (lit "k"), lit "u")]
    (some (lit "u"), lit "a") [] false []]) = [(0, (some (lit "k"), lit "u"))] := by decide +kernel

/-- `<a xmlns:k="u" xmlns:z="w"><k:b/></a>`: only the second is reported. -/
example : reportNs small (read small (fun p l => .unparsed (.unknown p l) []) [.elem
    [(some (lit "k"), lit "u"), (some (lit "z"), lit "w")] (none, lit "a") [] false
    [.elem [] (some (lit "u"), lit "b") [] false []]]) = [(0, (some (lit "z"), lit "w"))] := by decide +kernel

/-- `<k:a xmlns="w" b=""/>`: the declaration is not reported; without the attribute it is. -/
example : reportNs small (read small (fun p l => .unparsed (.unknown p l) []) [.elem [(none, lit "w")]
    (some (lit "u"), lit "a") [(none, lit "b")] false []]) = [] ∧
    reportNs small (read small (fun p l => .unparsed (.unknown p l) []) [.elem [(none, lit "w")]
    (some (lit "u"), lit "a") [] false []]) = [(0, (none, lit "w"))] := by decide +kernel

end Verif.Lint
