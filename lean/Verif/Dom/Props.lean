import Verif.Dom.IterLemmas

/-!
# C03, C04, C05: edits of the tree keep the links consistent; iterating over children

The specification is a map from nodes to child lists (`Kids`) and list functions. `Tree h ch` (Lemmas.lean)
says that the five links of every node agree with the child lists.
-/

namespace Verif.Dom

variable {h : Heap} {ch : Kids}

/-! ## Specification: what the DOM operations do to child lists -/

/-- `new` goes right before `ref`. -/
def putBefore (new ref : Handle) (l : List Handle) : List Handle :=
  l.flatMap fun x => if x = ref then [new, x] else [x]

/-- `new` goes right after `ref`. -/
def putAfter (new ref : Handle) (l : List Handle) : List Handle :=
  l.flatMap fun x => if x = ref then [x, new] else [x]

/-- Every child list loses `c`; then the list of `p` is edited. -/
def moveTo (ch : Kids) (p c : Handle) (edit : List Handle → List Handle) : Kids := fun q =>
  if q = p then edit ((ch q).erase c) else (ch q).erase c

theorem flatMap_other (f : Handle → List Handle) (l : List Handle) (hf : ∀ x ∈ l, f x = [x]) :
    l.flatMap f = l := by
  induction l with
  | nil => rfl
  | cons a l ih => simp only [List.flatMap_cons, hf a (by simp), ih (fun x hx => hf x (by simp [hx]))]; rfl

theorem putBefore_split {new ref : Handle} {a b : List Handle} (nd : (a ++ ref :: b).Nodup) :
    putBefore new ref (a ++ ref :: b) = a ++ new :: ref :: b := by
  simp only [putBefore, List.flatMap_append, List.flatMap_cons, if_true]
  rw [flatMap_other _ a (by intro x hx; rw [if_neg]; grind), flatMap_other _ b (by intro x hx; rw [if_neg]; grind)]
  rfl

theorem putAfter_split {new ref : Handle} {a b : List Handle} (nd : (a ++ ref :: b).Nodup) :
    putAfter new ref (a ++ ref :: b) = a ++ ref :: new :: b := by
  simp only [putAfter, List.flatMap_append, List.flatMap_cons, if_true]
  rw [flatMap_other _ a (by intro x hx; rw [if_neg]; grind), flatMap_other _ b (by intro x hx; rw [if_neg]; grind)]
  rfl

/-! ## C03: tree edits -/

/-- **C03 (remove)** Removing a node, from any consistent tree, takes it out of the children of its parent and
changes nothing else; the node ends up with no parent and no siblings. -/
theorem remove_spec (t : Tree h ch) (c : Handle) :
    Tree (h.remove c) (fun p => (ch p).erase c) ∧ Detached (h.remove c) c :=
  ⟨remove_tree t c, (remove_tree t c).rest c (remove_free t c)⟩

/-- **C03 (append)** Appending moves the node, wherever it was, to the end of the children of `p`. -/
theorem append_spec (t : Tree h ch) (p c : Handle) :
    Tree (h.append p c) (moveTo ch p c (· ++ [c])) := by
  have := append_tree t (p := p) (c := c)
  have e : upd (without ch c) p (without ch c p ++ [c]) = moveTo ch p c (· ++ [c]) := by
    funext q; simp only [upd_apply, moveTo, without]; split <;> simp_all
  exact e ▸ this

theorem mem_erase_ref {p new ref : Handle} (hr : ref ∈ ch p) (ne : new ≠ ref) :
    ∃ a b, without ch new p = a ++ ref :: b :=
  List.append_of_mem (by simp only [without]; grind)

/-- **C03 (insert before)** The node goes right before the reference child, wherever it was; the node must not
be the reference child itself. -/
theorem insertBefore_spec (t : Tree h ch) {p new ref : Handle} (hr : ref ∈ ch p) (ne : new ≠ ref) :
    Tree (h.insertBefore p new ref) (moveTo ch p new (putBefore new ref)) := by
  obtain ⟨a, b, e⟩ := mem_erase_ref hr ne
  have nd := ((remove_tree t new).links p).nodup
  rw [e] at nd
  have := insertBefore_tree t e
  have e2 : upd (without ch new) p (a ++ new :: ref :: b) = moveTo ch p new (putBefore new ref) := by
    funext q; simp only [upd_apply, moveTo]
    split
    · subst q
      have : (ch p).erase new = a ++ ref :: b := e
      rw [this, putBefore_split nd]
    · rfl
  exact e2 ▸ this

/-- **C03 (insert after)** The same for the place right after the reference child. -/
theorem insertAfter_spec (t : Tree h ch) {p new ref : Handle} (hr : ref ∈ ch p) (ne : new ≠ ref) :
    Tree (h.insertAfter p new ref) (moveTo ch p new (putAfter new ref)) := by
  obtain ⟨a, b, e⟩ := mem_erase_ref hr ne
  have nd := ((remove_tree t new).links p).nodup
  rw [e] at nd
  have := insertAfter_tree t e
  have e2 : upd (without ch new) p (a ++ ref :: new :: b) = moveTo ch p new (putAfter new ref) := by
    funext q; simp only [upd_apply, moveTo]
    split
    · subst q
      have : (ch p).erase new = a ++ ref :: b := e
      rw [this, putAfter_split nd]
    · rfl
  exact e2 ▸ this

/-- **C03 (after)** `Element::after`: next to the element, under its parent; nothing when it has no parent. -/
theorem after_spec (t : Tree h ch) {e new : Handle} (ne : new ≠ e) :
    (∀ p, e ∈ ch p → Tree (h.after e new) (moveTo ch p new (putAfter new e))) ∧
    ((∀ p, e ∉ ch p) → h.after e new = h) := by
  constructor
  · intro p hp
    rw [Heap.after, t.parent hp]
    exact insertAfter_spec t hp ne
  · intro hn
    rw [Heap.after, (t.rest e hn).1]

/-- **C03 (replace with)** `Element::replace_with`: the other node takes the place of the element, which ends
up detached. -/
theorem replaceWith_spec (t : Tree h ch) {p e new : Handle} (he : e ∈ ch p) (ne : new ≠ e) :
    Tree (h.replaceWith e new) (moveTo ch p new (List.map fun x => if x = e then new else x)) ∧
      Detached (h.replaceWith e new) e := by
  obtain ⟨a, b, e'⟩ := mem_erase_ref he ne
  have nd := ((remove_tree t new).links p).nodup
  rw [e'] at nd
  have := replaceWith_tree t he ne e'
  have e2 : upd (without ch new) p (a ++ new :: b) =
      moveTo ch p new (List.map fun x => if x = e then new else x) := by
    funext q; simp only [upd_apply, moveTo]
    split
    · subst q
      have e3 : (ch p).erase new = a ++ e :: b := e'
      rw [e3]
      simp only [List.map_append, List.map_cons, if_true]
      have ha : ∀ x ∈ a, (if x = e then new else x) = x := by intro x hx; rw [if_neg]; grind
      have hb : ∀ x ∈ b, (if x = e then new else x) = x := by intro x hx; rw [if_neg]; grind
      rw [List.map_congr_left ha, List.map_congr_left hb]
      simp
    · rfl
  refine ⟨e2 ▸ this, ?_⟩
  apply this.rest
  intro q
  simp only [upd_apply]
  split
  · grind
  · next hq =>
    intro hm
    exact hq (t.unique (List.mem_of_mem_erase hm) he)

/-- **C03 (append child, prepend; partial)** `append_child` and `prepend` do not take the node out of its old
place, so they are right for a node that is nobody's child. -/
theorem appendChild_spec_partial (t : Tree h ch) {p c : Handle} (free : ∀ q, c ∉ ch q) :
    Tree (h.appendChild p c) (moveTo ch p c (· ++ [c])) ∧ Tree (h.prepend p c) (moveTo ch p c (c :: ·)) := by
  have w := without_of_free free
  have w' : ∀ q, (ch q).erase c = ch q := fun q => congrFun w q
  have e1 : moveTo ch p c (· ++ [c]) = upd ch p (ch p ++ [c]) := by
    funext q; simp only [moveTo, upd_apply, w']; split <;> simp_all
  have e2 : moveTo ch p c (c :: ·) = upd ch p (c :: ch p) := by
    funext q; simp only [moveTo, upd_apply, w']; split <;> simp_all
  rw [e1, e2]
  exact ⟨appendChild_tree t free, prepend_tree t free⟩

/-- **C03 (replace child; partial)** `replace_child` with a replacement that is nobody's child. -/
theorem replaceChild_spec_partial (t : Tree h ch) {p new old : Handle} (ho : old ∈ ch p) (free : ∀ q, new ∉ ch q) :
    Tree (h.replaceChild p new old) (moveTo ch p new (List.map fun x => if x = old then new else x)) ∧
      Detached (h.replaceChild p new old) old := by
  obtain ⟨a, b, e⟩ := List.append_of_mem ho
  have nd := (t.links p).nodup
  have w := without_of_free free
  have := replaceChild_tree t free e
  have e2 : upd (without ch old) p (a ++ new :: b) =
      moveTo ch p new (List.map fun x => if x = old then new else x) := by
    funext q
    have wq : (ch q).erase new = ch q := congrFun w q
    simp only [upd_apply, moveTo, wq]
    split
    · subst q
      rw [e] at nd ⊢
      simp only [List.map_append, List.map_cons, if_true]
      have ha : ∀ x ∈ a, (if x = old then new else x) = x := by intro x hx; rw [if_neg]; grind
      have hb : ∀ x ∈ b, (if x = old then new else x) = x := by intro x hx; rw [if_neg]; grind
      rw [List.map_congr_left ha, List.map_congr_left hb]
      simp
    · next hq =>
      exact List.erase_of_not_mem (fun hm => hq (t.unique hm ho))
  refine ⟨e2 ▸ this, ?_⟩
  apply this.rest
  intro q
  have hn := free p
  rw [e] at nd hn
  simp only [upd_apply]
  split
  · grind
  · intro hm
    have := (t.links q).nodup
    simp only [without] at hm
    grind

/-- **C03 (flatten)** `Element::flatten` of an element with a parent puts its children in its place; the
element ends up detached and without children. The loop of the code ends (`fuel` at least the number of
children is enough). -/
theorem flatten_spec (t : Tree h ch) {p e : Handle} (he : e ∈ ch p) (ne : p ≠ e) {fuel : Nat}
    (hf : (ch e).length ≤ fuel) :
    ∃ h', Heap.flatten fuel h e = some h' ∧ Detached h' e ∧
      Tree h' (fun q => if q = e then [] else if q = p then (ch p).flatMap (fun x => if x = e then ch e else [x])
        else ch q) := by
  obtain ⟨a, b, e'⟩ := List.append_of_mem he
  have nd := (t.links p).nodup
  obtain ⟨h', e1, t', _⟩ := flatten_tree t e' ne hf
  have e2 : upd (upd ch p (a ++ ch e ++ b)) e [] = (fun q => if q = e then [] else if q = p then
      (ch p).flatMap (fun x => if x = e then ch e else [x]) else ch q) := by
    funext q
    simp only [upd_apply]
    split
    · rfl
    · split
      · rw [e'] at nd ⊢
        simp only [List.flatMap_append, List.flatMap_cons, if_true]
        rw [flatMap_other _ a (by intro x hx; rw [if_neg]; grind),
          flatMap_other _ b (by intro x hx; rw [if_neg]; grind)]
        simp
      · rfl
  refine ⟨h', e1, ?_, e2 ▸ t'⟩
  apply t'.rest
  intro q
  simp only [upd_apply]
  split
  · simp
  · split
    · have : e ∉ ch e := fun hm => ne (t.unique he hm)
      rw [e'] at nd
      grind
    · next hq =>
      exact fun hm => hq (t.unique hm he)

/-- **C03 (item)** `Node::item` is the list index. -/
theorem item_spec (t : Tree h ch) {p : Handle} (hids : IdsDistinct h (ch p)) (n : Nat) :
    h.item p n = (ch p)[n]? := by
  have key : ∀ (n : Nat) (i : Iter), Iter.nth h n i =
      (Iter.run h (List.replicate (n + 1) true) i)[n]?.join := by
    intro n
    induction n with
    | zero =>
      intro i
      simp only [Iter.nth, List.replicate, Iter.run, if_true]
      cases i.next h <;> rfl
    | succ n ih =>
      intro i
      simp only [Iter.nth]
      rw [List.replicate_succ]
      simp only [Iter.run, if_true]
      cases hi : i.next h with
      | none =>
        simp only [List.getElem?_cons_succ]
        rw [← ih, ]
        cases n <;> simp [Iter.nth, hi]
      | some x => simp only [List.getElem?_cons_succ]; rw [← ih]
  have dq : ∀ (n : Nat) (l : List Handle), (deque (List.replicate (n + 1) true) l)[n]?.join = l[n]? := by
    intro n
    induction n with
    | zero => intro l; cases l <;> rfl
    | succ n ih =>
      intro l
      rw [List.replicate_succ]
      simp only [deque, List.getElem?_cons_succ]
      rw [ih]
      cases l <;> simp
  obtain ⟨f1, f2, f3, f4⟩ := new_front (t.links p)
  rw [Heap.item, key, run_deque (t.links p) hids _ [] (ch p) [] _ (by simp) f1 f3 (fun _ => ⟨rfl, rfl⟩), dq]

/-- **C03 (insert at an index; partial)** For a node that is nobody's child, `Node::insert` puts it at the
index, or at the end when there are fewer children. -/
theorem insert_spec_partial (t : Tree h ch) {p new : Handle} (hids : IdsDistinct h (ch p))
    (free : ∀ q, new ∉ ch q) (n : Nat) :
    Tree (h.insert p n new) (moveTo ch p new (fun l => l.take n ++ new :: l.drop n)) := by
  have w := without_of_free free
  have w' : ∀ q, (ch q).erase new = ch q := fun q => congrFun w q
  have e1 : moveTo ch p new (fun l => l.take n ++ new :: l.drop n) =
      upd ch p ((ch p).take n ++ new :: (ch p).drop n) := by
    funext q; simp only [moveTo, upd_apply, w']; split <;> simp_all
  rw [e1, Heap.insert]
  have rem : h.remove new = h := remove_detached (t.rest new free)
  by_cases hn : n = 0
  · subst hn
    simp only [if_true, (t.links p).first]
    cases hl : ch p with
    | nil => simpa [hl] using appendChild_tree t (p := p) free
    | cons f l => simpa using insertBefore_free t (a := []) (b := l) free hl rem
  · rw [if_neg hn, item_spec t hids]
    have nd := (t.links p).nodup
    cases hi : (ch p)[n - 1]? with
    | none =>
      have : (ch p).length ≤ n := by
        have := List.getElem?_eq_none_iff.mp hi; omega
      simpa [List.take_of_length_le this, List.drop_of_length_le this] using appendChild_tree t (p := p) free
    | some r =>
      obtain ⟨hlt, hr⟩ := List.getElem?_eq_some_iff.mp hi
      have e : ch p = (ch p).take (n - 1) ++ r :: (ch p).drop n := by
        have := List.take_append_drop (n - 1) (ch p)
        rw [List.drop_eq_getElem_cons hlt, hr, show n - 1 + 1 = n by omega] at this
        exact this.symm
      have := insertAfter_free t free e rem
      have e3 : (ch p).take (n - 1) ++ r :: new :: (ch p).drop n = (ch p).take n ++ new :: (ch p).drop n := by
        have : (ch p).take n = (ch p).take (n - 1) ++ [r] := by
          have := List.take_add_one (l := ch p) (i := n - 1)
          rw [show n - 1 + 1 = n by omega] at this
          rw [this, hi]; rfl
        rw [this]; simp
      simpa [e3] using this

end Verif.Dom
