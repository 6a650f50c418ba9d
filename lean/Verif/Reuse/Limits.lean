import Verif.Reuse.Shape

/-! # Examples and limits -/

namespace Verif.Reuse

abbrev Doc := State Nat Nat Nat

/-- Ids of the form `reuse-N`, shortened. -/
def names (k : Nat) : Text := [114, k]

/-- A document from a list of elements. -/
def doc (root : Tree) (els : List (El Nat Nat Nat)) : Doc where
  root := root
  heap := fun h => els.getD h { kind := .hidden }
  next := els.length

def leaf (h : Nat) : Tree := .node h []

/-- The other attributes are transforms, which add up; nothing is said about fill and stroke. -/
def plain : Sem Nat Nat (List Nat) where
  styleFill _ := none
  styleStroke _ := none
  env _ a x := x ++ a

/-- `<svg><path d fill transform/><g><path d fill/></g><path d/></svg>`. -/
def three : Doc := doc (.node 0 [leaf 1, .node 2 [leaf 3], leaf 4])
  [{ kind := .svg }, { kind := .path, d := some 7, fill := some 1, rest := [5] }, { kind := .group, fill := some 9 },
    { kind := .path, d := some 7, fill := some 1 }, { kind := .path, d := some 7 }]

theorem plain_silent : plain.Silent := ⟨rfl, rfl⟩

theorem names_inj : ∀ j k, names j = names k → j = k := by
  intro j k h
  simpa [names] using h

/-- The hypotheses of `run_draws_partial` hold for a document with equal paths. -/
theorem three_plain : Plain plain names three := by
  have hs : subs three.root = [three.root, leaf 1, .node 2 [leaf 3], leaf 3, leaf 4] := by
    simp [three, doc, subs, subsAll, leaf]
  have hid : ∀ h, (three.heap h).id = none ∧ (three.heap h).href = none ∧ (three.heap h).kind ≠ .use ∧
      (three.heap h).kind ≠ .defs := by
    intro h
    match h with
    | 0 | 1 | 2 | 3 | 4 => decide
    | n + 5 => simp [three, doc]
  refine ⟨⟨⟨rfl, rfl, rfl⟩, ?_, ?_, rfl, ?_, ?_, ?_⟩, ?_, ?_, ?_, ?_, ?_, ?_⟩
  · rw [hs]; decide
  · rw [hs]; decide
  · have : subsAll three.root.kids = [leaf 1, .node 2 [leaf 3], leaf 3, leaf 4] := by
      simp [three, doc, subs, subsAll, leaf, Tree.kids]
    rw [this]; decide
  · rw [hs]
    intro u hu ⟨k, hk, _⟩
    simp only [List.mem_cons, List.not_mem_nil, or_false] at hu
    rcases hu with rfl | rfl | rfl | rfl | rfl
    · cases hk
    · rfl
    · cases hk
    · rfl
    · rfl
  · intro u _ hd
    exact absurd hd (hid _).2.2.2
  · intro u _ v _ i hi
    rw [(hid _).1] at hi
    cases hi
  · intro u _ k h
    rw [(hid _).1] at h
    cases h
  · rintro k ⟨u, _, h, _⟩
    exact absurd h (hid _).2.2.1
  · intro u _ _
    exact (hid _).2.1
  · intro u _ _
    refine ⟨?_, ?_, ?_⟩
    · intro a b h; cases h
    · intro a b h; cases h
    · intro x; simp [plain]
  · intro u _ _ _ i hi
    rw [(hid _).1] at hi
    cases hi

/-- What it draws. -/
theorem three_draws : Draws plain three three.root ⟨0, 0, []⟩
    [(7, ⟨1, 0, [5]⟩), (7, ⟨1, 0, []⟩), (7, ⟨0, 0, []⟩)] := by
  refine .svg rfl ?_
  refine DrawsAll.cons (l := [(7, ⟨1, 0, [5]⟩)]) (m := [(7, ⟨1, 0, []⟩), (7, ⟨0, 0, []⟩)]) (.path 7 rfl rfl) ?_
  refine DrawsAll.cons (l := [(7, ⟨1, 0, []⟩)]) (m := [(7, ⟨0, 0, []⟩)]) ?_ ?_
  · refine .group rfl (DrawsAll.cons (l := [(7, ⟨1, 0, []⟩)]) (m := []) (.path 7 rfl rfl) .nil)
  · exact DrawsAll.cons (l := [(7, ⟨0, 0, []⟩)]) (m := []) (.path 7 rfl rfl) .nil

/-- The job keeps it, … -/
example (m) : Draws plain (run (fun _ => false) names three) (run (fun _ => false) names three).root ⟨0, 0, []⟩ m ↔
    m = [(7, ⟨1, 0, [5]⟩), (7, ⟨1, 0, []⟩), (7, ⟨0, 0, []⟩)] :=
  run_draws_partial plain_silent names_inj three_plain three_draws m

/-- … the first two paths become references and the third stays, … -/
example : ((run (fun _ => false) names three).heap 1).kind = .use ∧
    ((run (fun _ => false) names three).heap 1).xlink = some (35 :: names 0) ∧
    ((run (fun _ => false) names three).heap 3).kind = .use ∧ ((run (fun _ => false) names three).heap 4).kind = .path ∧
    ((run (fun _ => false) names three).heap 6) = { kind := .path, id := some (names 0), d := some 7, fill := some 1 } := by
  decide +kernel

theorem three_duplicate : Duplicate three (leaf 1).handle :=
  ⟨(7, none, some 1), rfl, leaf 3, by simp [three, doc, subs, subsAll, leaf], by decide, rfl⟩

example : ((run (fun _ => false) names three).heap 1).kind = .use :=
  ((run_uses three_plain.toSimple (leaf 1) (by simp [three, doc, subs, subsAll, leaf])).1 three_duplicate).1

/-- … and the prefix of their attributes is not declared where they are. -/
example : ¬ Bound (run (fun _ => false) names three).heap false (run (fun _ => false) names three).root :=
  run_unbound_violated three_plain.toSimple
    (by
      intro u _
      match u.handle with
      | 0 | 1 | 2 | 3 | 4 => rfl
      | n + 5 => simp [three, doc])
    (u := leaf 1) (by simp [three, doc, subs, subsAll, leaf]) three_duplicate

/-- A path with a `style` that competes with its attribute. -/
example : ¬ Harmless (D := Nat) { plain with styleFill := fun a => a.head? }
    { kind := .path, d := some 7, fill := some 1, rest := [2] } := by
  intro h
  exact absurd (h.fill 2 1 rfl rfl) (by decide)

/-- `<svg><path id="a" d transform/><use href="#a"/><path d/></svg>`. -/
def referred : Doc := doc (.node 0 [leaf 1, leaf 2, leaf 3])
  [{ kind := .svg }, { kind := .path, id := some [97], d := some 7, rest := [5] },
    { kind := .use, href := some [35, 97] }, { kind := .path, d := some 7 }]

/-- The second shape is drawn with the transform of the path, … -/
theorem referred_draws : Draws plain referred referred.root ⟨0, 0, []⟩
    [(7, ⟨0, 0, [5]⟩), (7, ⟨0, 0, [5]⟩), (7, ⟨0, 0, []⟩)] := by
  refine .svg rfl ?_
  refine DrawsAll.cons (l := [(7, ⟨0, 0, [5]⟩)]) (m := [(7, ⟨0, 0, [5]⟩), (7, ⟨0, 0, []⟩)]) (.path 7 rfl rfl) ?_
  refine DrawsAll.cons (l := [(7, ⟨0, 0, [5]⟩)]) (m := [(7, ⟨0, 0, []⟩)]) ?_ ?_
  · exact .use [97] (leaf 1) rfl rfl (by rfl) (.path 7 rfl rfl)
  · exact DrawsAll.cons (l := [(7, ⟨0, 0, []⟩)]) (m := []) (.path 7 rfl rfl) .nil

/-- … and without it after the job. -/
theorem referred_lost_violated : Draws plain (run (fun _ => false) names referred) (run (fun _ => false) names referred).root
    ⟨0, 0, []⟩ [(7, ⟨0, 0, [5]⟩), (7, ⟨0, 0, []⟩), (7, ⟨0, 0, []⟩)] := by
  have hroot : (run (fun _ => false) names referred).root =
      .node 0 [.node 4 [leaf 5], leaf 1, leaf 2, leaf 3] := by rfl
  have ht : target (run (fun _ => false) names referred) [97] = some (leaf 5) := by
    unfold target; rw [hroot]; rfl
  rw [hroot]
  refine .svg rfl ?_
  refine DrawsAll.cons (l := []) (m := [(7, ⟨0, 0, [5]⟩), (7, ⟨0, 0, []⟩), (7, ⟨0, 0, []⟩)]) (.defs rfl) ?_
  refine DrawsAll.cons (l := [(7, ⟨0, 0, [5]⟩)]) (m := [(7, ⟨0, 0, []⟩), (7, ⟨0, 0, []⟩)])
    (.use [97] (leaf 5) rfl rfl ht (.path 7 rfl rfl)) ?_
  refine DrawsAll.cons (l := [(7, ⟨0, 0, []⟩)]) (m := [(7, ⟨0, 0, []⟩)])
    (.use [97] (leaf 5) rfl rfl ht (.path 7 rfl rfl)) ?_
  exact DrawsAll.cons (l := [(7, ⟨0, 0, []⟩)]) (m := [])
    (.use [97] (leaf 5) rfl rfl ht (.path 7 rfl rfl)) .nil

/-- `<svg><svg><path id="a" d/><path d/></svg></svg>`. -/
def nested : Doc := doc (.node 0 [.node 1 [leaf 2, leaf 3]])
  [{ kind := .svg }, { kind := .svg }, { kind := .path, id := some [97], d := some 7 }, { kind := .path, d := some 7 }]

theorem nested_draws : Draws plain nested nested.root ⟨0, 0, []⟩ [(7, ⟨0, 0, []⟩), (7, ⟨0, 0, []⟩)] := by
  refine .svg rfl ?_
  refine DrawsAll.cons (l := [(7, ⟨0, 0, []⟩), (7, ⟨0, 0, []⟩)]) (m := []) ?_ .nil
  refine .svg rfl ?_
  refine DrawsAll.cons (l := [(7, ⟨0, 0, []⟩)]) (m := [(7, ⟨0, 0, []⟩)]) (.path 7 rfl rfl) ?_
  exact DrawsAll.cons (l := [(7, ⟨0, 0, []⟩)]) (m := []) (.path 7 rfl rfl) .nil

/-- **C83 (nested `svg` elements; violated).** The lists of an inner `svg` element are treated again for the outer one:
the definition is made from the reference, has no data, and nothing is drawn any more. -/
theorem nested_lost_violated (m) : Draws plain (run (fun _ => false) names nested)
    (run (fun _ => false) names nested).root ⟨0, 0, []⟩ m ↔ m = [] := by
  have hroot : (run (fun _ => false) names nested).root =
      .node 0 [.node 1 [.node 4 [leaf 5, leaf 6], leaf 2, leaf 3]] := by rfl
  have ht : target (run (fun _ => false) names nested) (names 0) = some (leaf 6) := by
    unfold target; rw [hroot]; rfl
  suffices h : Draws plain (run (fun _ => false) names nested) (run (fun _ => false) names nested).root ⟨0, 0, []⟩ [] by
    constructor
    · intro hm; exact Draws.unique hm h
    · rintro rfl; exact h
  rw [hroot]
  refine .svg rfl ?_
  refine DrawsAll.cons (l := []) (m := []) ?_ .nil
  refine .svg rfl ?_
  refine DrawsAll.cons (l := []) (m := []) (.defs rfl) ?_
  refine DrawsAll.cons (l := []) (m := []) (.use (names 0) (leaf 6) rfl rfl ht (.noPath rfl rfl)) ?_
  exact DrawsAll.cons (l := []) (m := []) (.use (names 0) (leaf 6) rfl rfl ht (.noPath rfl rfl)) .nil

/-- A document with a single path gets an empty `defs` element. -/
example : (run (fun _ => false) names (doc (.node 0 [leaf 1]) [{ kind := .svg }, { kind := .path, d := some 7 }])).root =
    .node 0 [leaf 2, leaf 1] := by rfl

end Verif.Reuse
