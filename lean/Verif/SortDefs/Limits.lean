import Verif.SortDefs.Props

/-!
# C60: what sorting the children of `defs` breaks, and examples
-/

namespace Verif.SortDefs

open Verif.Names Verif.Dom

/-- Everything is sorted by insertion. -/
def simple (lt : Nat → Nat → Bool) (n : Nat) : Option (List Nat) := some (insertionSort lt n)

theorem simple_promised : Promised simple := by
  intro lt n
  refine ⟨?_, ?_⟩
  · intro l h
    cases h
    exact (List.reverse_perm _).trans (by simpa using insertTail_fold_perm (List.range n) [])
  · intro _ tr ng
    refine ⟨_, rfl, List.pairwise_reverse.mpr ?_⟩
    exact (fold_sorted (lt := lt) (· < n) (fun i j k hi hj hk => tr i hi j hj k hk) (fun i j k hi hj hk => ng i hi j hj k hk) (List.range n) []
      (by simp) (by simp) (by simp) List.pairwise_lt_range .nil).1

abbrev N := Node Nat

def text (n : Nat) : N := .leaf n
def el (name : String) (n : Nat) (kids : List N := []) : N := .elem ⟨[], lit name⟩ (name == "defs") n kids

mutual
/-- The attributes of a tree in document order, to compare trees. -/
def flat : N → List Nat
  | .leaf a => [a]
  | .elem _ _ a ks => a :: flatAll ks
def flatAll : List N → List Nat
  | [] => []
  | k :: l => flat k ++ flatAll l
end

/-- The example of the tests: `text`, `path`, `text`, `path`, `circle`, `circle`, with space between. -/
def sample : N := el "svg" 0 [el "rect" 1, el "path" 2, el "defs" 10
  [text 20, el "text" 11, text 21, el "path" 12, text 22, el "text" 13, text 23, el "path" 14, text 24, el "circle" 15, text 25, el "circle" 16 [el "g" 3, el "path" 4]]]

/-- `arranged_partial`, `kept`: what is in other elements stays. -/
example : (job simple true sample).map flat = some [0, 1, 2, 10, 25, 24, 23, 22, 21, 20, 15, 16, 3, 4, 11, 13, 12, 14] := by decide +kernel

/-- Names that occur more often first; prefixes count for the length. -/
example : (job simple true (el "defs" 0 [el "a" 1, el "linearGradient" 2, el "a" 3, .elem ⟨lit "x", lit "a"⟩ false 4 [], el "b" 5])).map flat =
    some [0, 1, 3, 2, 4, 5] := by decide +kernel

/-- More than 20 elements. -/
example : (job simple true (el "defs" 0 ((List.range 25).map fun i => el (if i % 2 = 0 then "a" else "b") i))).map flat =
    some (0 :: ((List.range 25).filter (· % 2 = 0) ++ (List.range 25).filter (· % 2 = 1))) := by decide +kernel

/-- `again_partial`. -/
example : (job simple true sample).map flat ≠ some (flat sample) ∧
    ((job simple true (el "defs" 0 [el "a" 1, text 2, el "bb" 3])).bind (job simple true)).map flat =
      (job simple true (el "defs" 0 [el "a" 1, text 2, el "bb" 3])).map flat := by decide +kernel

/-- `predictable`. -/
example : (job simple true (el "defs" 0 [el "b" 1, el "a" 1, el "cc" 1])).map flat = some [0, 1, 1, 1] ∧
    order simple [some ⟨[], lit "b"⟩, some ⟨[], lit "a"⟩, some ⟨[], lit "cc"⟩] = some [2, 0, 1] ∧
    order simple [some ⟨[], lit "a"⟩, some ⟨[], lit "cc"⟩, some ⟨[], lit "b"⟩] = some [1, 2, 0] := by decide +kernel

/-! ## What goes wrong -/

/-- **C60 (violated)**: running the job again changes the document: comments change places every time. -/
theorem again_violated : ∃ t t' t'' : N, job simple true t = some t' ∧ job simple true t' = some t'' ∧ flat t' ≠ flat t'' :=
  ⟨el "defs" 0 [text 1, el "a" 2, text 3], _, _, rfl, rfl, by decide +kernel⟩

/-- **C60 (violated)**: with more than 20 child nodes, the standard library may panic by what it promises, as the comparison is not an
order: of two comments each is less than the other. -/
theorem panic_violated : ∃ big, Promised big ∧ ∃ t : N, job big true t = none := by
  refine ⟨fun lt n => if ∀ i < n, lt i i = false then some (insertionSort lt n) else none, ?_, ?_⟩
  · intro lt n
    obtain ⟨h1, h2⟩ := simple_promised lt n
    refine ⟨fun l hl => ?_, fun irr tr ng => ?_⟩
    · dsimp only at hl
      split at hl
      · exact h1 l hl
      · exact absurd hl (by simp)
    · dsimp only
      rw [if_pos irr]
      exact h2 irr tr ng
  · exact ⟨el "defs" 0 ((List.range 21).map text), by decide +kernel⟩

/-- The order of `<defs><g/><desc/></defs>`. -/
def names : List (Option Name) := [some ⟨[], lit "g"⟩, some ⟨[], lit "desc"⟩]

/-- The document with the `defs` element 0, the `g` element 1 and the `desc` element 2. -/
def two : Heap where
  parent x := if x = 1 ∨ x = 2 then some 0 else none
  next x := if x = 1 then some 2 else none
  prev x := if x = 2 then some 1 else none
  first x := if x = 0 then some 1 else none
  last x := if x = 0 then some 2 else none
  id x := x

/-- **C60 (violated)**: `<defs><g/><desc/></defs>` is sorted and `RemoveDesc`, which runs next, removes the `desc` element: what is left is
`<defs><desc/></defs>`. -/
theorem desc_violated : order simple names = some [1, 0] ∧ two.item 0 0 = some 1 ∧ two.item 0 1 = some 2 ∧
    ((two.sortChildren 0 [2, 1]).remove 2).item 0 0 = some 2 ∧ ((two.sortChildren 0 [2, 1]).remove 2).item 0 1 = none := by
  decide +kernel

end Verif.SortDefs
