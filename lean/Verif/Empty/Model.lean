import Verif.Removal.Model

/-!
# Model: jobs that remove empty and unused elements

`crates/oxvg_optimiser/src/jobs/remove_empty_text.rs`, `remove_empty_containers.rs`, `remove_useless_defs.rs`.

Attributes are of any type `A`; tests on them (`id`, `class`, `xlink:href`) are parameters.
-/

namespace Verif.Empty

open Verif.Tree Verif.Names Verif.Removal

variable {A ε : Type}

/-- An SVG element with one of these names. -/
def among (names : List String) (n : EName) : Bool := names.any n.is

/-! ## remove_empty_text.rs -/

/-- remove_empty_text.rs:48-69, `element`. The options are the three switches with their defaults filled in. -/
def textHook (white : Char → Bool) (isHref : A → Bool) (text tspan tref : Bool) : Hook A Err
  | .elem n as ks =>
    .ok (kept (!((text && n.is "text" && isEmpty white ks) || (tspan && n.is "tspan" && isEmpty white ks) ||
      (tref && n.is "tref" && !as.any isHref))) as)
  | n => .ok (some (own n))

/-- remove_empty_text.rs:45-70: the job has no switch. -/
def removeEmptyText (white : Char → Bool) (isHref : A → Bool) (text tspan tref : Bool) (doc : List (Node A)) :
    Except Err (List (Node A)) := start true (textHook white isHref text tspan tref) doc

/-! ## remove_empty_containers.rs -/

/-- crates/oxvg_collections/src/element.rs:380, 612, 1157, 1198, 1398, 1444, 1496, 1571, 1826, 1881, 1906: the elements of
the category `Container`. -/
def containers : List String :=
  ["a", "defs", "g", "glyph", "marker", "mask", "missing-glyph", "pattern", "svg", "switch", "symbol"]

/-- The names and attributes of the ancestors of an element, its parent first. -/
abbrev Chain (A : Type) := List (EName × List A)

/-- remove_empty_containers.rs:52-89, `exit_element`: whether the element is removed. `filtered` stands for
the computed style (78-85): whether a `filter` applies to the element at the head of a chain. -/
def emptyExit (white : Char → Bool) (isId : A → Bool) (filtered : Chain A → Except ε Bool) (anc : Chain A) (n : EName)
    (as : List A) (ks : List (Node A)) : Except ε Bool := do
  if !among containers n || !isEmpty white ks then return false
  if n.is "svg" then return false
  else if n.is "pattern" then
    if !as.isEmpty then return false
  else if n.is "mask" then
    if as.any isId then return false
  else if anc.head?.any (fun p => p.1.is "switch") then return false
  if n.is "g" then
    if ← filtered ((n, as) :: anc) then return false
  return true

mutual
/-- visitor.rs:312-349, `Visitor::visit` for a job with only `exit_element`. -/
def sweep (white : Char → Bool) (isId : A → Bool) (filtered : Chain A → Except ε Bool) (anc : Chain A) :
    Node A → Except ε (List (Node A))
  | .elem n as ks => do
    let ks' ← sweepAll white isId filtered ((n, as) :: anc) ks
    let gone ← emptyExit white isId filtered anc n as ks'
    pure (if gone then [] else [.elem n as ks'])
  | .text s => .ok [.text s]
  | .css s => .ok [.css s]
  | .comment s => .ok [.comment s]
  | .pi t d => .ok [.pi t d]
/-- visitor.rs:355-377, `Visitor::visit_children`. -/
def sweepAll (white : Char → Bool) (isId : A → Bool) (filtered : Chain A → Except ε Bool) (anc : Chain A) :
    List (Node A) → Except ε (List (Node A))
  | [] => .ok []
  | n :: ns => do
    let a ← sweep white isId filtered anc n
    let b ← sweepAll white isId filtered anc ns
    pure (a ++ b)
end

/-- remove_empty_containers.rs:38-50. -/
def removeEmptyContainers (white : Char → Bool) (isId : A → Bool) (filtered : Chain A → Except ε Bool) (on : Bool)
    (doc : List (Node A)) : Except ε (List (Node A)) := if on then sweepAll white isId filtered [] doc else .ok doc

/-! ## remove_useless_defs.rs -/

/-- crates/oxvg_collections/src/element.rs:581, 1030, 1394, 1440, 1482, 1617, 1706, 1791, 1949: the elements with the flag
`NonRendering`. -/
def nonRendering : List String :=
  ["clipPath", "filter", "linearGradient", "marker", "mask", "pattern", "radialGradient", "solidColor", "symbol"]

/-- remove_useless_defs.rs:62-67: the elements that are looked at. The flags of a name with another prefix are empty
(collections/element.rs:273-278, `info`). -/
def isUseless (n : EName) : Bool :=
  n.is "defs" || n.is "solidColor" || (n.pre == .std .svg && among nonRendering n)

mutual
/-- remove_useless_defs.rs:82-93, `collect_useful_nodes`. `isName` is the test for the attributes `id` and `class`. -/
def collect (isName : A → Bool) : List (Node A) → List (Node A)
  | [] => []
  | n :: ns => collect1 isName n ++ collect isName ns
def collect1 (isName : A → Bool) : Node A → List (Node A)
  | .elem n as ks => if n.is "style" || as.any isName then [.elem n as ks] else collect isName ks
  | .text _ => []
  | .css _ => []
  | .comment _ => []
  | .pi _ _ => []
end

mutual
theorem collect_size (isName : A → Bool) (ns : List (Node A)) : sizeOf (collect isName ns) ≤ sizeOf ns := by
  match ns with
  | [] => simp [collect]
  | n :: ns =>
    have h1 := collect1_size isName n
    have h2 := collect_size isName ns
    have h3 : ∀ a b : List (Node A), sizeOf (a ++ b) + 1 = sizeOf a + sizeOf b := by
      intro a b
      induction a with
      | nil => simp; omega
      | cons x xs ih => simp only [List.cons_append, List.cons.sizeOf_spec]; omega
    have := h3 (collect1 isName n) (collect isName ns)
    simp only [collect, List.cons.sizeOf_spec]
    omega
theorem collect1_size (isName : A → Bool) (n : Node A) : sizeOf (collect1 isName n) ≤ sizeOf n + 1 + 1 := by
  match n with
  | .elem n as ks =>
    have := collect_size isName ks
    simp only [collect1]
    split
    · simp; omega
    · simp only [Node.elem.sizeOf_spec]; omega
  | .text _ => simp [collect1]
  | .css _ => simp [collect1]
  | .comment _ => simp [collect1]
  | .pi _ _ => simp [collect1]
end

mutual
/-- remove_useless_defs.rs:53-79, `element`, followed by the visit of the children the element has then. -/
def tidy (isName : A → Bool) : Node A → List (Node A)
  | .elem n as ks =>
    if as.any isName then [.elem n as (tidyAll isName ks)]
    else if !isUseless n then [.elem n as (tidyAll isName ks)]
    else if (collect isName ks).isEmpty then []
    else [.elem n as (tidyAll isName (collect isName ks))]
  | .text s => [.text s]
  | .css s => [.css s]
  | .comment s => [.comment s]
  | .pi t d => [.pi t d]
termination_by n => sizeOf n
decreasing_by
  all_goals first
    | (simp only [Node.elem.sizeOf_spec]; omega)
    | (have := collect_size isName ks; simp only [Node.elem.sizeOf_spec]; omega)
def tidyAll (isName : A → Bool) : List (Node A) → List (Node A)
  | [] => []
  | n :: ns => tidy isName n ++ tidyAll isName ns
termination_by ns => sizeOf ns
end

/-- remove_useless_defs.rs:41-51. -/
def removeUselessDefs (isName : A → Bool) (on : Bool) (doc : List (Node A)) : List (Node A) :=
  if on then tidyAll isName doc else doc

end Verif.Empty
