import Verif.Dom.RetainProps

/-!
# C05: iterating over children; C03 over histories; concrete cases
-/

namespace Verif.Dom

variable {h : Heap} {ch : Kids}

/-- **C05 (both ends)** Taking children from the front and the back in any order gives, at every call, what a
double-ended queue with the children would give: every child once, nothing after the last. -/
theorem both_ends_spec (t : Tree h ch) {p : Handle} (hids : IdsDistinct h (ch p)) (w : List Bool) :
    Iter.run h w (Iter.new h p) = deque w (ch p) := by
  obtain ⟨f1, f2, f3, f4⟩ := new_front (t.links p)
  exact run_deque (t.links p) hids w [] (ch p) [] _ (by simp) f1 f3 (fun _ => ⟨rfl, rfl⟩)

/-- **C05 (editing while iterating)** A loop over the children whose body keeps, removes, unwraps (`flatten`) or
replaces the child it is handed sees exactly the children that were there when the loop began, each once, in
order; afterwards the tree is consistent and the children are the results of the edits in order. Replacements
must be distinct nodes that are nobody's child. -/
theorem edit_loop_spec (t : Tree h ch) {p : Handle} (hids : IdsDistinct h (ch p)) (hp : p ∉ ch p)
    (ed : Handle → Edit) {fuel fuel' : Nat} (hf : ∀ c ∈ ch p, (ch c).length ≤ fuel)
    (hf' : (ch p).length ≤ fuel')
    (free : ∀ c ∈ ch p, ∀ n ∈ (ed c).fresh, ∀ q, n ∉ ch q)
    (nd : ((ch p).flatMap fun c => (ed c).fresh).Nodup) :
    (walk (fun c g => (ed c).apply fuel c g) fuel' h (Iter.new h p)).1 = ch p ∧
    ∃ ch', Tree (walk (fun c g => (ed c).apply fuel c g) fuel' h (Iter.new h p)).2 ch' ∧
      ch' p = (ch p).flatMap (fun c => match ed c with
        | .keep => [c]
        | .drop => []
        | .unwrap => ch c
        | .replace n => [n]) := by
  obtain ⟨h1, ch', h2, h3⟩ := walk_edits t hids hp ed hf hf' free nd
  refine ⟨h1, ch', h2, ?_⟩
  rw [h3]
  rfl

/-- **C05 (removing while iterating)** The special case that optimisations use most: the body removes some of
the children it sees. -/
theorem remove_loop_spec (t : Tree h ch) {p : Handle} (hids : IdsDistinct h (ch p)) (hp : p ∉ ch p)
    (drop : Handle → Bool) {fuel : Nat} (hf : (ch p).length ≤ fuel) :
    (walk (fun c g => if drop c then g.remove c else g) fuel h (Iter.new h p)).1 = ch p ∧
    ∃ ch', Tree (walk (fun c g => if drop c then g.remove c else g) fuel h (Iter.new h p)).2 ch' ∧
      ch' p = (ch p).filter (fun c => !drop c) := by
  -- a bound for the children of the children
  let n := ((ch p).map fun c => (ch c).length).foldr max 0
  have hn : ∀ c ∈ ch p, (ch c).length ≤ n := by
    have key : ∀ (l : List Handle), ∀ c ∈ l, (ch c).length ≤ (l.map fun c => (ch c).length).foldr max 0 := by
      intro l
      induction l with
      | nil => intro c hc; simp at hc
      | cons a l ih =>
        intro c hc
        simp only [List.map_cons, List.foldr_cons]
        rcases List.mem_cons.mp hc with rfl | hc
        · exact Nat.le_max_left _ _
        · exact Nat.le_trans (ih c hc) (Nat.le_max_right _ _)
    exact key (ch p)
  have e : (fun (c : Handle) (g : Heap) => if drop c then g.remove c else g) =
      fun c g => (if drop c then Edit.drop else Edit.keep).apply n c g := by
    funext c g; split <;> rfl
  rw [e]
  have fr : ∀ c, (if drop c then Edit.drop else Edit.keep).fresh = [] := by
    intro c; split <;> rfl
  obtain ⟨h1, ch', h2, h3⟩ := walk_edits t hids hp (fun c => if drop c then Edit.drop else Edit.keep) hn hf
    (by intro c _ n hn; simp [fr] at hn) (by
      have : ((ch p).flatMap fun c => (if drop c then Edit.drop else Edit.keep).fresh) = [] := by
        rw [List.flatMap_eq_nil_iff]; intro c _; exact fr c
      rw [this]; exact List.nodup_nil)
  refine ⟨h1, ch', h2, ?_⟩
  rw [h3]
  generalize ch p = l
  induction l with
  | nil => rfl
  | cons a l ih =>
    simp only [List.flatMap_cons, List.filter_cons, ih]
    cases drop a <;> rfl

/-! ## C03 over whole histories -/

/-- `d` is a descendant of `a`. -/
inductive Desc (ch : Kids) : Handle → Handle → Prop
  | child {a c} : c ∈ ch a → Desc ch a c
  | step {a c d} : c ∈ ch a → Desc ch c d → Desc ch a d

/-- No node is its own descendant. -/
def Acyclic (ch : Kids) : Prop := ∀ a, ¬ Desc ch a a

theorem Desc.trans {a b c : Handle} (h1 : Desc ch a b) (h2 : Desc ch b c) : Desc ch a c := by
  induction h1 with
  | child hm => exact .step hm h2
  | step hm _ ih => exact .step hm (ih h2)

/-- Moving a node below one that is not below it keeps the lists free of cycles. -/
theorem acyclic_move {ch ch' : Kids} {p c : Handle} (ac : Acyclic ch)
    (sub : ∀ a x, x ∈ ch' a → x ∈ ch a ∨ (a = p ∧ x = c)) (ne : p ≠ c) (nd : ¬ Desc ch c p) : Acyclic ch' := by
  have key : ∀ a b, Desc ch' a b → Desc ch a b ∨ ((a = p ∨ Desc ch a p) ∧ (c = b ∨ Desc ch c b)) := by
    intro a b hd
    induction hd with
    | child hm =>
      rcases sub _ _ hm with h1 | ⟨rfl, rfl⟩
      · exact .inl (.child h1)
      · exact .inr ⟨.inl rfl, .inl rfl⟩
    | step hm _ ih =>
      rcases sub _ _ hm with h1 | ⟨rfl, rfl⟩
      · rcases ih with h2 | ⟨h2, h3⟩
        · exact .inl (.step h1 h2)
        · right
          refine ⟨.inr ?_, h3⟩
          rcases h2 with rfl | h2
          · exact .child h1
          · exact .step h1 h2
      · rcases ih with h2 | ⟨h2, h3⟩
        · exact .inr ⟨.inl rfl, .inr h2⟩
        · rcases h2 with h2 | h2
          · exact absurd h2.symm ne
          · exact absurd h2 nd
  intro a ha
  rcases key a a ha with h1 | ⟨h2, h3⟩
  · exact ac a h1
  · rcases h2 with rfl | h2
    · rcases h3 with h3 | h3
      · exact ne h3.symm
      · exact nd h3
    · rcases h3 with rfl | h3
      · exact nd h2
      · exact nd (h3.trans h2)

/-- The edits of the public interface that always keep the links. -/
inductive Op where
  | remove (c : Handle)
  | append (p c : Handle)
  | insertBefore (p new ref : Handle)
  | insertAfter (p new ref : Handle)
  | replaceWith (e new : Handle)
  | flatten (e : Handle)

/-- The edit as the code does it. -/
def Op.run (fuel : Nat) (h : Heap) : Op → Option Heap
  | .remove c => some (h.remove c)
  | .append p c => some (h.append p c)
  | .insertBefore p new ref => some (h.insertBefore p new ref)
  | .insertAfter p new ref => some (h.insertAfter p new ref)
  | .replaceWith e new => some (h.replaceWith e new)
  | .flatten e => Heap.flatten fuel h e

/-- What a caller has to respect, and what the edit means: which lists may follow `ch`. Nodes are not put
into themselves or their own descendants; reference nodes are children of the given parent and are not the
node that moves. -/
inductive Op.Means (fuel : Nat) (ch : Kids) : Op → Kids → Prop
  | remove (c) : Op.Means fuel ch (.remove c) (fun q => (ch q).erase c)
  | append (p c) : p ≠ c → ¬ Desc ch c p → Op.Means fuel ch (.append p c) (moveTo ch p c (· ++ [c]))
  | insertBefore (p new ref) : ref ∈ ch p → new ≠ ref → p ≠ new → ¬ Desc ch new p →
      Op.Means fuel ch (.insertBefore p new ref) (moveTo ch p new (putBefore new ref))
  | insertAfter (p new ref) : ref ∈ ch p → new ≠ ref → p ≠ new → ¬ Desc ch new p →
      Op.Means fuel ch (.insertAfter p new ref) (moveTo ch p new (putAfter new ref))
  | replaceWith (p e new) : e ∈ ch p → new ≠ e → p ≠ new → ¬ Desc ch new p →
      Op.Means fuel ch (.replaceWith e new) (moveTo ch p new (List.map fun x => if x = e then new else x))
  | flatten (p e) : e ∈ ch p → (ch e).length ≤ fuel →
      Op.Means fuel ch (.flatten e) (fun q => if q = e then [] else
        if q = p then (ch p).flatMap (fun x => if x = e then ch e else [x]) else ch q)

theorem Op.step {fuel : Nat} {op : Op} {ch' : Kids} (t : Tree h ch) (ac : Acyclic ch) (m : Op.Means fuel ch op ch') :
    (∃ h', op.run fuel h = some h' ∧ Tree h' ch') ∧ Acyclic ch' := by
  cases m with
  | remove c =>
    refine ⟨⟨_, rfl, (remove_spec t c).1⟩, ?_⟩
    intro a ha
    refine ac a ?_
    have : ∀ a b, Desc (fun q => (ch q).erase c) a b → Desc ch a b := by
      intro a b hd
      induction hd with
      | child hm => exact .child (List.mem_of_mem_erase hm)
      | step hm _ ih => exact .step (List.mem_of_mem_erase hm) ih
    exact this a a ha
  | append p c hne hnd =>
    refine ⟨⟨_, rfl, append_spec t p c⟩, acyclic_move (p := p) (c := c) ac ?_ hne hnd⟩
    intro a x hx
    simp only [moveTo] at hx
    split at hx
    · rcases List.mem_append.mp hx with hx | hx
      · exact .inl (List.mem_of_mem_erase hx)
      · exact .inr ⟨by assumption, by simpa using hx⟩
    · exact .inl (List.mem_of_mem_erase hx)
  | insertBefore p new ref hr hne h1 h2 =>
    refine ⟨⟨_, rfl, insertBefore_spec t hr hne⟩, acyclic_move (p := p) (c := new) ac ?_ h1 h2⟩
    intro a x hx
    simp only [moveTo, putBefore] at hx
    split at hx
    · obtain ⟨y, hy, hxy⟩ := List.mem_flatMap.mp hx
      have := List.mem_of_mem_erase hy
      split at hxy <;> grind
    · exact .inl (List.mem_of_mem_erase hx)
  | insertAfter p new ref hr hne h1 h2 =>
    refine ⟨⟨_, rfl, insertAfter_spec t hr hne⟩, acyclic_move (p := p) (c := new) ac ?_ h1 h2⟩
    intro a x hx
    simp only [moveTo, putAfter] at hx
    split at hx
    · obtain ⟨y, hy, hxy⟩ := List.mem_flatMap.mp hx
      have := List.mem_of_mem_erase hy
      split at hxy <;> grind
    · exact .inl (List.mem_of_mem_erase hx)
  | replaceWith p e new he hne h1 h2 =>
    refine ⟨⟨_, rfl, (replaceWith_spec t he hne).1⟩, acyclic_move (p := p) (c := new) ac ?_ h1 h2⟩
    intro a x hx
    simp only [moveTo] at hx
    split at hx
    · obtain ⟨y, hy, hxy⟩ := List.mem_map.mp hx
      have := List.mem_of_mem_erase hy
      split at hxy <;> grind
    · exact .inl (List.mem_of_mem_erase hx)
  | flatten p e he hf =>
    have ne : p ≠ e := fun hh => ac p (.child (hh ▸ he))
    obtain ⟨h', e1, _, t'⟩ := flatten_spec t he ne hf
    refine ⟨⟨h', e1, t'⟩, ?_⟩
    intro a ha
    refine ac a ?_
    have : ∀ a b, Desc (fun q => if q = e then [] else
        if q = p then (ch p).flatMap (fun x => if x = e then ch e else [x]) else ch q) a b → Desc ch a b := by
      intro a b hd
      induction hd with
      | @child a c hm =>
        have : Desc ch a c := by
          split at hm
          · simp at hm
          · split at hm
            · next hp =>
              subst hp
              obtain ⟨y, hy, hxy⟩ := List.mem_flatMap.mp hm
              split at hxy
              · next hye => subst hye; exact .step hy (.child hxy)
              · simp at hxy; subst hxy; exact .child hy
            · exact .child hm
        exact this
      | @step a c d hm _ ih =>
        have : Desc ch a c := by
          split at hm
          · simp at hm
          · split at hm
            · next hp =>
              subst hp
              obtain ⟨y, hy, hxy⟩ := List.mem_flatMap.mp hm
              split at hxy
              · next hye => subst hye; exact .step hy (.child hxy)
              · simp at hxy; subst hxy; exact .child hy
            · exact .child hm
        exact this.trans ih
    exact this a a ha

/-- A history of edits as the code does them. -/
def runAll (fuel : Nat) : Heap → List Op → Option Heap
  | h, [] => some h
  | h, op :: ops => (op.run fuel h).bind fun h => runAll fuel h ops

/-- A history of edits on child lists. -/
inductive History (fuel : Nat) : Kids → List Op → Kids → Prop
  | nil {k : Kids} : History fuel k [] k
  | cons {k k' k'' : Kids} {op : Op} {ops : List Op} : Op.Means fuel k op k' → History fuel k' ops k'' →
      History fuel k (op :: ops) k''

/-- **C03 (histories)** From a consistent, cycle-free tree, every sequence of edits that a caller may make ends
in the tree that the child-list reading predicts, consistent and free of cycles. -/
theorem history_spec (fuel : Nat) (ops : List Op) : ∀ {h : Heap} {ch ch' : Kids}, Tree h ch → Acyclic ch →
    History fuel ch ops ch' → ∃ h', runAll fuel h ops = some h' ∧ Tree h' ch' ∧ Acyclic ch' := by
  induction ops with
  | nil =>
    intro h ch ch' t ac hh
    cases hh
    exact ⟨h, rfl, t, ac⟩
  | cons op ops ih =>
    intro h ch ch' t ac hh
    cases hh with
    | cons m rest =>
      obtain ⟨⟨h1, e1, t1⟩, ac1⟩ := Op.step t ac m
      obtain ⟨h2, e2, t2, ac2⟩ := ih t1 ac1 rest
      exact ⟨h2, by simp [runAll, e1, e2], t2, ac2⟩

/-! ## Concrete cases -/

/-- Freshly allocated nodes (node.rs:190-200): no links, ids as allocated. -/
def fresh : Heap := ⟨fun _ => none, fun _ => none, fun _ => none, fun _ => none, fun _ => none, fun x => x⟩

theorem fresh_tree : Tree fresh (fun _ => []) := by
  constructor
  · intro p
    constructor
    · simp
    · rfl
    · rfl
    · intro pre c post e; simp at e
  · intro c _; exact ⟨rfl, rfl, rfl⟩

theorem fresh_acyclic : Acyclic (fun _ => []) := by
  intro a ha
  cases ha with
  | child hm => simp at hm
  | step hm _ => simp at hm

/-- A node 0 with the children 1, 2, 3. -/
def three : Heap := ((fresh.append 0 1).append 0 2).append 0 3

theorem three_tree : ∃ ch, Tree three ch ∧ ch 0 = [1, 2, 3] ∧ (∀ q, q ≠ 0 → ch q = []) := by
  refine ⟨_, append_spec (append_spec (append_spec fresh_tree 0 1) 0 2) 0 3, by decide, ?_⟩
  intro q hq
  simp [moveTo, hq]

theorem append_id (h : Heap) (p c x : Handle) : (h.append p c).id x = h.id x := by
  simp only [Heap.append, Heap.setParent, Heap.setPrev, Heap.setNext, Heap.setFirst, Heap.setLast]
  split <;> exact remove_id h c x

theorem three_ids (l : List Handle) : IdsDistinct three l := by
  intro a _ b _ e
  have : ∀ x, three.id x = x := by
    intro x
    simp only [three, append_id]
    rfl
  rw [this, this] at e
  exact e

/-- The order in which a plain loop sees the children. -/
def seen (h : Heap) (p : Handle) : List Handle := (walk (fun _ g => g) 10 h (Iter.new h p)).1

/-- **C04 (violated)** Keeping the first and last of three children: the loop afterwards sees the first one and
the dropped one, and never the last. -/
theorem retain_violated : ∃ h', Heap.retainChildren 10 three 0 (fun c => c != 2) = some h' ∧
    ¬ Consistent h' ∧ seen three 0 = [1, 2, 3] ∧ seen h' 0 = [1, 2] ∧ h'.last 0 = some 3 := by
  obtain ⟨ch, t, e, _⟩ := three_tree
  obtain ⟨h', e1, e2, _⟩ := retain_iff t 0 (fun c => c != 2) (fuel := 10) (by simp [e])
  refine ⟨h', e1, ?_, by decide, ?_⟩
  · rw [e2]
    intro hd
    have := hd [] 1 2 [3] (by simp [e]) (by decide)
    simp at this
  · have : (Heap.retainChildren 10 three 0 fun c => c != 2).map (fun h => (seen h 0, h.last 0)) =
      some ([1, 2], some 3) := by decide
    rw [e1] at this
    simpa using this

/-- **C03 (sort children, violated)** Reversing two children leaves the new first child with a previous sibling. -/
theorem sortChildren_violated : ¬ Consistent (three.sortChildren 0 [3, 2, 1]) ∧
    (three.sortChildren 0 [3, 2, 1]).first 0 = some 3 ∧ (three.sortChildren 0 [3, 2, 1]).prev 3 = some 2 := by
  obtain ⟨ch, t, e, _⟩ := three_tree
  refine ⟨?_, by decide, by decide⟩
  rw [(sortChildren_iff t (p := 0) (s := [3, 2, 1]) (by rw [e]; decide)).1, e]
  decide

/-- **C03 (stale parents, violated)** After `empty` and a new child, removing one of the former children wipes
the new one out of the list. -/
theorem empty_violated : let h := (((fresh.append 0 1).empty 0).append 0 2)
    h.first 0 = some 2 ∧ h.last 0 = some 2 ∧ (h.remove 1).first 0 = none ∧ (h.remove 1).parent 2 = some 0 := by
  decide

example : ∃ h', runAll 10 fresh [.append 0 1, .append 0 2, .insertBefore 0 3 2, .append 3 4, .flatten 3, .remove 1]
    = some h' ∧ seen h' 0 = [4, 2] ∧ h'.parent 3 = none :=
  ⟨_, rfl, by decide, by decide⟩

example : History 10 (fun _ => []) [.append 0 1, .append 0 2] (moveTo (moveTo (fun _ => []) 0 1 (· ++ [1])) 0 2 (· ++ [2])) := by
  refine .cons (.append 0 1 (by decide) ?_) (.cons (.append 0 2 (by decide) ?_) (.nil))
  · exact fun hd => by cases hd <;> simp_all
  · intro hd
    cases hd with
    | child hm => revert hm; decide
    | step hm _ =>
      have : (moveTo (fun _ => []) 0 1 (· ++ [1])) 2 = [] := by decide
      rw [this] at hm
      simp at hm

example : Iter.run three [true, false, true, true, false] (Iter.new three 0) = [some 1, some 3, some 2, none, none] := by
  decide

example : (walk (fun c g => if c == 1 || c == 3 then g.remove c else g) 10 three (Iter.new three 0)).1 = [1, 2, 3] ∧
    seen (walk (fun c g => if c == 1 || c == 3 then g.remove c else g) 10 three (Iter.new three 0)).2 0 = [2] := by
  decide

example : DropsOnlyInFront (fun c => c != 1) [1, 2, 3] ∧ ¬ DropsOnlyInFront (fun c => c != 3) [1, 2, 3] := by
  constructor
  · intro a x y b e hx
    have hx' : x ≠ 1 := by simpa using hx
    have hy : y ≠ 1 := by
      have hl := congrArg List.length e
      rcases a with _ | ⟨a0, _ | ⟨a1, a⟩⟩
      · grind
      · grind
      · simp at hl; omega
    simpa using hy
  · intro hd
    exact absurd (hd [1] 2 3 [] rfl (by decide)) (by decide)

example : seen (three.replaceWith 2 9) 0 = [1, 9, 3] ∧ seen (three.insert 0 1 9) 0 = [1, 9, 2, 3] ∧
    seen (three.insertAfter 0 1 3) 0 = [2, 3, 1] := by decide

example : Links (three.replaceChildren 0 [3, 7]) 0 [3, 7] :=
  let ⟨_, t, _⟩ := three_tree
  (replaceChildren_iff t 0 (by decide)).1

end Verif.Dom
