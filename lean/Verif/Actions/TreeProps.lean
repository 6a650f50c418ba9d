import Verif.Actions.Tree
import Verif.Number.Props
import Verif.Arena.History

/-!
# C30: the selection survives renumbering
-/

namespace Verif.Actions

open Verif.Dom Verif.Arena Verif.Number

variable {ch : Kids} {s : Store} {ind : List Handle}

/-- Specification: the node with that number as its id, if there is one. -/
def Names (s : Store) (i : Int) (a : Handle) : Prop := a ∈ s.made ∧ (s.heap.id a : Int) = i

/-- Specification: the ids name these nodes, in this order; ids that name no node stand for nothing. -/
inductive NamesAll (s : Store) : List Int → List Handle → Prop
  | nil : NamesAll s [] []
  | node {i is a as} : Names s i a → NamesAll s is as → NamesAll s (i :: is) (a :: as)
  | stray {i is as} : (∀ a, ¬ Names s i a) → NamesAll s is as → NamesAll s (i :: is) as

/-- The ids are 32-bit integers. -/
def Ids32 (l : List Int) : Prop := ∀ v ∈ l, -(2 ^ 31 : Int) ≤ v ∧ v < 2 ^ 31

theorem selectedNodes_spec (d : Dense s ind) (hsize : s.made.length ≤ 2 ^ 31) {ids : List Int} (hi : Ids32 ids) :
    ∃ nodes, selectedNodes s ind ids = .ok nodes ∧ NamesAll s ids nodes ∧ ∀ a ∈ nodes, a ∈ s.made := by
  obtain ⟨_, v2, v3, v4⟩ := d.visible
  induction ids with
  | nil => exact ⟨[], rfl, .nil, by simp⟩
  | cons i is ih =>
    obtain ⟨nodes, h1, h2, h3⟩ := ih fun v hv => hi v (by simp [hv])
    obtain ⟨lo, hi'⟩ := hi i (by simp)
    simp only [selectedNodes, h1]
    by_cases hneg : i < 0
    · have : asUsize i = 2 ^ 64 - i.natAbs := by unfold asUsize; omega
      rw [v4 (asUsize i) (by omega)]
      refine ⟨nodes, rfl, .stray ?_ h2, h3⟩
      rintro a ⟨_, ha⟩
      omega
    · have e : asUsize i = i.toNat := by unfold asUsize; omega
      rw [e]
      by_cases hlt : i.toNat < s.made.length
      · obtain ⟨a, ha, hg, hid⟩ := v3 _ hlt
        rw [hg]
        refine ⟨a :: nodes, rfl, .node ⟨ha, by omega⟩ h2, ?_⟩
        intro b hb
        rcases List.mem_cons.1 hb with rfl | hb
        · exact ha
        · exact h3 b hb
      · rw [v4 _ (by omega)]
        refine ⟨nodes, rfl, .stray ?_ h2, h3⟩
        rintro a ⟨ha, hai⟩
        have := v2 a ha
        have hin : s.heap.id a < s.made.length := by
          apply Classical.byContradiction
          intro hn
          rw [v4 _ (by omega)] at this
          cases this
        omega

/-- **C30.** Renumbering keeps the selection: it always succeeds, the new ids name the same nodes as the former
ones, in the same order, each of them names a node, and the nodes of the document are numbered in document
order. -/
theorem selection_survives (t : Tree s.heap ch) (ac : Acyclic ch) (ins : Inside s.made ch) (d : Dense s ind)
    {root : Handle} (hr : root ∈ s.made) (hsize : s.made.length ≤ 2 ^ 31) {ids : List Int} (hi : Ids32 ids) :
    ∃ nodes s' ind' ids' doc N, (∀ fuel, N ≤ fuel → effectTree fuel s ind root (some ids) = .ok (s', ind', some ids')) ∧
      NamesAll s ids nodes ∧ NamesAll s' ids' nodes ∧ ids'.length = nodes.length ∧ Ids32 ids' ∧
      Dense s' ind' ∧ s'.made = s.made ∧ s'.heap = { s.heap with id := s'.heap.id } ∧
      Spans ch [root] doc ∧ (∀ (k : Nat) (a : Handle), doc[k]? = some a → s'.heap.id a = k) := by
  obtain ⟨nodes, h1, h2, h3⟩ := selectedNodes_spec d hsize hi
  obtain ⟨doc, s', ind', N, hs, hre, hind, hd, hm, hh⟩ := reorder_spec t ac ins d hr
  have hid : ∀ a ∈ s.made, s'.heap.id a < s.made.length := by
    intro a ha
    rw [← hm] at ha ⊢
    obtain ⟨_, v2, _, v4⟩ := hd.visible
    apply Classical.byContradiction
    intro hn
    have := v2 a ha
    rw [v4 _ (by omega)] at this
    cases this
  have hval : ∀ a ∈ nodes, asI32 (s'.heap.id a) = (s'.heap.id a : Int) := by
    intro a ha
    have := hid a (h3 a ha)
    exact signed_range_i32 (by omega) (by omega)
  refine ⟨nodes, s', ind', nodes.map fun n => asI32 (s'.heap.id n), doc, N, ?_, h2, ?_, by simp, ?_, hd, hm, hh, hs, ?_⟩
  · intro fuel hf
    simp only [effectTree, renumber, h1, hre fuel hf]
  · clear h1 h2
    induction nodes with
    | nil => exact .nil
    | cons a as ih =>
      refine .node ⟨by rw [hm]; exact h3 a (by simp), (hval a (by simp)).symm⟩ ?_
      exact ih (fun b hb => h3 b (by simp [hb])) fun b hb => hval b (by simp [hb])
  · intro v hv
    obtain ⟨a, ha, rfl⟩ := List.mem_map.1 hv
    have := hid a (h3 a ha)
    rw [hval a ha]
    omega
  · intro k a hk
    apply hd.place
    rw [hind, List.getElem?_append, if_pos (List.getElem?_eq_some_iff.1 hk).1, hk]

/-- Without a selection nothing is selected afterwards. -/
theorem no_selection (t : Tree s.heap ch) (ac : Acyclic ch) (ins : Inside s.made ch) (d : Dense s ind)
    {root : Handle} (hr : root ∈ s.made) :
    ∃ s' ind' N, (∀ fuel, N ≤ fuel → effectTree fuel s ind root none = .ok (s', ind', none)) ∧ Dense s' ind' := by
  obtain ⟨doc, s', ind', N, hs, hre, hind, hd, hm, hh⟩ := reorder_spec t ac ins d hr
  exact ⟨s', ind', N, fun fuel hf => by simp only [effectTree, hre fuel hf], hd⟩

/-- What the ids name is determined. -/
theorem names_unique (d : Dense s ind) {ids : List Int} {as bs : List Handle} (h1 : NamesAll s ids as)
    (h2 : NamesAll s ids bs) : as = bs := by
  have uniq : ∀ i a b, Names s i a → Names s i b → a = b := by
    rintro i a b ⟨ha, ea⟩ ⟨hb, eb⟩
    have h1 := d.visible.2.1 a ha
    have h2 := d.visible.2.1 b hb
    rw [show s.heap.id a = s.heap.id b by omega, h2] at h1
    cases h1
    rfl
  induction h1 generalizing bs with
  | nil => cases h2; rfl
  | node hn _ ih =>
    cases h2 with
    | node hn' h => rw [uniq _ _ _ hn hn', ih h]
    | stray hn' _ => exact absurd hn (hn' _)
  | stray hn _ ih =>
    cases h2 with
    | node hn' _ => exact absurd hn' (hn _)
    | stray _ h => exact ih h

/-! ## Examples -/

/-- The result for the example of `Verif.Arena`: nodes 5, 2, 4, 9 in the document, 1 outside, made in another order. -/
def demoTree (ids : List Int) : Option (List Handle × Option (List Int)) :=
  sampleRun.bind fun st => match effectTree 20 st.1 st.2 5 (some ids) with
    | .ok (_, ind, ids') => some (ind, ids')
    | .error _ => none

example : sampleRun.map (fun st => st.2) = some [1, 2, 9, 5, 4] := by decide
example : demoTree [2, 4, 17, -1, 0] = some ([5, 2, 4, 9, 1], some [3, 2, 4]) := by decide

end Verif.Actions
