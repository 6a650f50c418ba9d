import Verif.Dom.Model

/-! # What it means for the links to represent child lists, and the cell-wise effect of every edit -/

namespace Verif.Dom

/-- Child lists: for every node the handles of its children in order. -/
abbrev Kids := Handle → List Handle

/-- The links around `p` say exactly that the children of `p` are `l`: no node twice, first and last child,
and for every child the parent and both neighbours. -/
structure Links (h : Heap) (p : Handle) (l : List Handle) : Prop where
  nodup : l.Nodup
  first : h.first p = l.head?
  last : h.last p = l.getLast?
  child : ∀ pre c post, l = pre ++ c :: post →
    h.parent c = some p ∧ h.prev c = pre.getLast? ∧ h.next c = post.head?

/-- A node that is nobody's child. -/
def Detached (h : Heap) (c : Handle) : Prop := h.parent c = none ∧ h.prev c = none ∧ h.next c = none

/-- The heap represents the child lists `ch`: the links of every node agree, and a node that is in no
child list has no parent and no siblings. -/
structure Tree (h : Heap) (ch : Kids) : Prop where
  links : ∀ p, Links h p (ch p)
  rest : ∀ c, (∀ p, c ∉ ch p) → Detached h c

variable {h : Heap} {ch : Kids}

theorem Links.parent {p c l} (t : Links h p l) (hc : c ∈ l) : h.parent c = some p := by
  obtain ⟨pre, post, e⟩ := List.append_of_mem hc
  exact (t.child pre c post e).1

theorem Tree.parent {p c} (t : Tree h ch) (hc : c ∈ ch p) : h.parent c = some p :=
  (t.links p).parent hc

theorem Tree.unique {p q c} (t : Tree h ch) (hp : c ∈ ch p) (hq : c ∈ ch q) : p = q := by
  have := t.parent hp
  have := t.parent hq
  simp_all

theorem Tree.mem_of_parent {p c} (t : Tree h ch) (e : h.parent c = some p) : c ∈ ch p := by
  by_cases hx : ∃ q, c ∈ ch q
  · obtain ⟨q, hq⟩ := hx
    have := t.parent hq
    simp_all
  · have := (t.rest c (by simpa using hx)).1
    simp_all

theorem Tree.mem_iff {p c} (t : Tree h ch) : c ∈ ch p ↔ h.parent c = some p :=
  ⟨t.parent, t.mem_of_parent⟩

theorem upd_apply {α : Type} (f : Handle → α) (a v x) : upd f a v x = if x = a then v else f x := rfl

theorem upd_same {α : Type} (f : Handle → α) (a : Handle) (v : α) (e : f a = v) : upd f a v = f := by
  funext x
  simp only [upd]
  split <;> simp_all

section remove
variable (h : Heap) (c x : Handle)

theorem remove_parent : (h.remove c).parent x = if x = c then none else h.parent x := by
  simp only [Heap.remove, Heap.setParent, Heap.setPrev, Heap.setNext, Heap.setFirst, Heap.setLast]
  split
  · split
    · simp [upd_apply]
    · split <;> simp [upd_apply]
  · split
    · split <;> simp [upd_apply]
    · split <;> simp [upd_apply]

theorem remove_next :
    (h.remove c).next x = if h.prev c = some x then h.next c else if x = c then none else h.next x := by
  simp only [Heap.remove, Heap.setParent, Heap.setPrev, Heap.setNext, Heap.setFirst, Heap.setLast]
  split
  · split
    · simp [upd_apply, *, eq_comm]
    · split <;> simp [upd_apply, *, eq_comm]
  · split
    · split <;> simp [upd_apply, *]
    · split <;> simp [upd_apply, *]

theorem remove_prev :
    (h.remove c).prev x = if h.next c = some x then h.prev c else if x = c then none else h.prev x := by
  simp only [Heap.remove, Heap.setParent, Heap.setPrev, Heap.setNext, Heap.setFirst, Heap.setLast]
  split
  · split
    · simp [upd_apply, *, eq_comm]
    · split <;> simp [upd_apply, *]
  · split
    · split <;> simp [upd_apply, *, eq_comm]
    · split <;> simp [upd_apply, *]

theorem remove_first : (h.remove c).first x =
    if h.prev c = none ∧ h.parent c = some x then h.next c else h.first x := by
  simp only [Heap.remove, Heap.setParent, Heap.setPrev, Heap.setNext, Heap.setFirst, Heap.setLast]
  split
  · split
    · simp [*]
    · split <;> simp [*]
  · split
    · split <;> simp [upd_apply, *, eq_comm]
    · split <;> simp [upd_apply, *, eq_comm]

theorem remove_last : (h.remove c).last x =
    if h.next c = none ∧ h.parent c = some x then h.prev c else h.last x := by
  simp only [Heap.remove, Heap.setParent, Heap.setPrev, Heap.setNext, Heap.setFirst, Heap.setLast]
  split
  · split
    · simp [*]
    · split <;> simp [upd_apply, *, eq_comm]
  · split
    · split <;> simp [*]
    · split <;> simp [upd_apply, *, eq_comm]

theorem remove_id : (h.remove c).id x = h.id x := by
  simp only [Heap.remove, Heap.setParent, Heap.setPrev, Heap.setNext, Heap.setFirst, Heap.setLast]
  split
  · split
    · rfl
    · split <;> rfl
  · split
    · split <;> rfl
    · split <;> rfl

end remove

/-- A split of a concatenation lies in the left or in the right part. -/
theorem split_append {pre post a b : List Handle} {y : Handle} (e : a ++ b = pre ++ y :: post) :
    (∃ m, a = pre ++ y :: m ∧ post = m ++ b) ∨ (∃ m, pre = a ++ m ∧ b = m ++ y :: post) := by
  rcases List.append_eq_append_iff.mp e with ⟨m, h1, h2⟩ | ⟨m, h1, h2⟩
  · right; exact ⟨m, h1, h2⟩
  · cases m with
    | nil => right; exact ⟨[], by simpa using h1.symm, by simpa using h2.symm⟩
    | cons z m =>
      left
      simp only [List.cons_append, List.cons.injEq] at h2
      obtain ⟨rfl, rfl⟩ := h2
      exact ⟨m, h1, rfl⟩

/-- Removing a node that is nobody's child changes nothing. -/
theorem remove_detached {c : Handle} (dc : Detached h c) : h.remove c = h := by
  simp only [Heap.remove, dc.1, dc.2.1, dc.2.2, Heap.setParent, Heap.setPrev, Heap.setNext]
  rw [upd_same _ _ _ dc.1, upd_same _ _ _ dc.2.1, upd_same _ _ _ dc.2.2]

/-- What removing a child does to the child lists. -/
def without (ch : Kids) (c : Handle) : Kids := fun p => (ch p).erase c

theorem remove_tree (t : Tree h ch) (c : Handle) : Tree (h.remove c) (without ch c) := by
  by_cases hx : ∃ p, c ∈ ch p
  · obtain ⟨p, hp⟩ := hx
    obtain ⟨a, b, e⟩ := List.append_of_mem hp
    have hc := (t.links p).child a c b e
    have nd := (t.links p).nodup
    constructor
    · intro q
      have lq := t.links q
      simp only [without]
      by_cases hq : q = p
      · subst hq
        have el : (ch q).erase c = a ++ b := by
          rw [e]; rw [e] at nd; grind
        rw [el]
        rw [e] at nd
        constructor
        · grind
        · rw [remove_first, hc.1, hc.2.1, hc.2.2, lq.first, e]
          cases a <;> simp
        · rw [remove_last, hc.1, hc.2.1, hc.2.2, lq.last, e]
          cases b <;> simp
        · intro pre d post e'
          rw [remove_parent, remove_prev, remove_next]
          rcases split_append e' with ⟨m, rfl, rfl⟩ | ⟨m, rfl, rfl⟩
          · have := lq.child pre d (m ++ c :: b) (by simp [e])
            rw [this.1, this.2.1, this.2.2, hc.2.1, hc.2.2]
            refine ⟨by grind, ?_, ?_⟩
            · rw [if_neg, if_neg]
              · grind
              · cases b with
                | nil => simp
                | cons b0 b => simp; grind
            · rcases m.eq_nil_or_concat with rfl | ⟨m, z, rfl⟩
              · simp
              · rw [if_neg, if_neg]
                · cases m <;> simp
                · grind
                · simp; grind
          · have := lq.child (a ++ c :: m) d post (by simp [e])
            rw [this.1, this.2.1, this.2.2, hc.2.1, hc.2.2]
            refine ⟨by grind, ?_, ?_⟩
            · cases m with
              | nil => simp
              | cons z m => 
                rw [if_neg, if_neg]
                · rcases m.eq_nil_or_concat with rfl | ⟨m, z, rfl⟩ <;> simp
                · grind
                · simp; grind
            · rw [if_neg, if_neg]
              · grind
              · rcases a.eq_nil_or_concat with rfl | ⟨a, z, rfl⟩
                · simp
                · simp; grind
      · have hcq : c ∉ ch q := fun hm => hq (t.unique hm hp)
        rw [List.erase_of_not_mem hcq]
        have hqp : p ≠ q := fun h => hq h.symm
        constructor
        · exact lq.nodup
        · rw [remove_first, hc.1]
          simp [hqp, lq.first]
        · rw [remove_last, hc.1]
          simp [hqp, lq.last]
        · intro pre d post e'
          have hd := lq.child pre d post e'
          have hdq : d ∈ ch q := by simp [e']
          have hdp : d ∉ ch p := fun hm => hq (t.unique hdq hm)
          rw [remove_parent, remove_prev, remove_next, if_neg, if_neg, if_neg, if_neg, if_neg]
          · exact hd
          · grind
          · intro e2
            rw [hc.2.1] at e2
            have := List.mem_of_getLast? e2
            grind
          · grind
          · intro e2
            rw [hc.2.2] at e2
            have := List.mem_of_head? e2
            grind
          · grind
    · intro d hd
      simp only [Detached, remove_parent, remove_next, remove_prev]
      by_cases hdc : d = c
      · subst hdc
        rw [hc.2.1, hc.2.2]
        rw [e] at nd
        refine ⟨by simp, ?_, ?_⟩
        · rw [if_neg]; · simp
          cases b <;> simp; grind
        · rw [if_neg]; · simp
          intro e2
          have := List.mem_of_getLast? e2
          grind
      · have hd' : ∀ q, d ∉ ch q := fun q hm => hd q (by simp only [without]; grind)
        have dd := t.rest d hd'
        rw [hc.2.1, hc.2.2]
        refine ⟨by simp [dd.1], ?_, ?_⟩
        · rw [if_neg]; · simp [dd.2.1]
          intro e2
          have := List.mem_of_head? e2
          have := hd' p
          grind
        · rw [if_neg]; · simp [dd.2.2]
          intro e2
          have := List.mem_of_getLast? e2
          have := hd' p
          grind
  · have dc := t.rest c (by simpa using hx)
    have e1 : h.remove c = h := remove_detached dc
    have e2 : without ch c = ch := by
      funext p
      simp only [without]
      exact List.erase_of_not_mem (fun hm => hx ⟨p, hm⟩)
    rw [e1, e2]
    exact t

/-- Afterwards the node is nobody's child. -/
theorem remove_free (t : Tree h ch) (c : Handle) : ∀ p, c ∉ without ch c p := by
  intro p
  have := (t.links p).nodup
  simp only [without]
  grind

/-- Any edit with these effects on the cells puts the free node `c` between `a` and `b` in the children
of `p`. -/
theorem insert_tree {h' : Heap} {p c : Handle} {a b : List Handle} (t : Tree h ch)
    (free : ∀ q, c ∉ ch q) (e : ch p = a ++ b)
    (hpar : ∀ x, h'.parent x = if x = c then some p else h.parent x)
    (hprev : ∀ x, h'.prev x = if x = c then a.getLast? else if b.head? = some x then some c else h.prev x)
    (hnext : ∀ x, h'.next x = if x = c then b.head? else if a.getLast? = some x then some c else h.next x)
    (hfirst : ∀ x, h'.first x = if x = p ∧ a = [] then some c else h.first x)
    (hlast : ∀ x, h'.last x = if x = p ∧ b = [] then some c else h.last x) :
    Tree h' (upd ch p (a ++ c :: b)) := by
  have nd := (t.links p).nodup
  have fp := free p
  rw [e] at nd fp
  constructor
  · intro q
    have lq := t.links q
    simp only [upd_apply]
    by_cases hq : q = p
    · subst hq
      rw [if_pos rfl]
      constructor
      · grind
      · rw [hfirst, lq.first, e]
        cases a <;> simp
      · rw [hlast, lq.last, e]
        cases b <;> simp
      · intro pre d post e'
        rw [hpar, hprev, hnext]
        rcases split_append e' with ⟨m, rfl, rfl⟩ | ⟨m, rfl, e2⟩
        · have := lq.child pre d (m ++ b) (by simp [e])
          rw [this.1, this.2.1, this.2.2]
          have hdc : d ≠ c := by grind
          simp only [hdc, if_false, true_and]
          constructor
          · rw [if_neg]
            cases b <;> simp; grind
          · rcases m.eq_nil_or_concat with rfl | ⟨m, z, rfl⟩
            · simp
            · rw [if_neg]
              · cases m <;> simp
              · simp; grind
        · cases m with
          | nil =>
            simp only [List.nil_append, List.cons.injEq] at e2
            obtain ⟨rfl, rfl⟩ := e2
            simp
          | cons z m =>
            simp only [List.cons_append, List.cons.injEq] at e2
            obtain ⟨rfl, rfl⟩ := e2
            have := lq.child (a ++ m) d post (by simp [e])
            rw [this.1, this.2.1, this.2.2]
            have hdc : d ≠ c := by grind
            simp only [hdc, if_false, true_and]
            constructor
            · cases m with
              | nil => simp
              | cons z m =>
                rw [if_neg]
                · rcases m.eq_nil_or_concat with rfl | ⟨m, z, rfl⟩ <;> simp
                · simp; grind
            · rw [if_neg]
              rcases a.eq_nil_or_concat with rfl | ⟨a, z, rfl⟩
              · simp
              · simp; grind
    · simp only [hq, if_false]
      constructor
      · exact lq.nodup
      · rw [hfirst]; simp [hq, lq.first]
      · rw [hlast]; simp [hq, lq.last]
      · intro pre d post e'
        have hd := lq.child pre d post e'
        have hdq : d ∈ ch q := by simp [e']
        have hdp : d ∉ ch p := fun hm => hq (t.unique hdq hm)
        have hdc : d ≠ c := fun h => free q (h ▸ hdq)
        rw [hpar, hprev, hnext]
        simp only [hdc, if_false]
        rw [if_neg, if_neg]
        · exact hd
        · intro e2
          have := List.mem_of_getLast? e2
          grind
        · intro e2
          have := List.mem_of_head? e2
          grind
  · intro d hd
    have hdp := hd p
    simp only [upd_apply, if_true] at hdp
    have hdc : d ≠ c := by grind
    have hd' : ∀ q, d ∉ ch q := by
      intro q
      have := hd q
      simp only [upd_apply] at this
      split at this
      · subst q; grind
      · exact this
    have dd := t.rest d hd'
    simp only [Detached, hpar, hprev, hnext, hdc, if_false]
    refine ⟨dd.1, ?_, ?_⟩
    · rw [if_neg]; · exact dd.2.1
      intro e2
      have := List.mem_of_head? e2
      grind
    · rw [if_neg]; · exact dd.2.2
      intro e2
      have := List.mem_of_getLast? e2
      grind

/-- The cells of the parent and the neighbours, from the child list. -/
theorem Tree.at_split {p c : Handle} {a b : List Handle} (t : Tree h ch) (e : ch p = a ++ c :: b) :
    h.parent c = some p ∧ h.prev c = a.getLast? ∧ h.next c = b.head? :=
  (t.links p).child a c b e

theorem appendChild_tree (t : Tree h ch) {p c : Handle} (free : ∀ q, c ∉ ch q) :
    Tree (h.appendChild p c) (upd ch p (ch p ++ [c])) := by
  have dc := t.rest c free
  have hl := (t.links p).last
  have fp := free p
  generalize e : ch p = l at hl fp ⊢
  rcases l.eq_nil_or_concat with rfl | ⟨a, y, rfl⟩
  all_goals
    simp only [List.getLast?_nil, List.getLast?_append, List.getLast?_singleton, List.concat_eq_append,
      Option.some_or] at hl e fp ⊢
    refine insert_tree t free (by simpa using e) ?_ ?_ ?_ ?_ ?_ <;> intro x <;>
    simp [Heap.appendChild, Heap.setParent, Heap.setPrev, Heap.setNext, Heap.setFirst,
      Heap.setLast, hl, upd_apply] <;> grind [Detached]

theorem append_tree (t : Tree h ch) {p c : Handle} :
    Tree (h.append p c) (upd (without ch c) p (without ch c p ++ [c])) := by
  have t' := remove_tree t c
  have free := remove_free t c
  have dc := t'.rest c free
  have hl := (t'.links p).last
  have fp := free p
  generalize e : without ch c p = l at hl fp ⊢
  rcases l.eq_nil_or_concat with rfl | ⟨a, y, rfl⟩
  all_goals
    simp only [List.getLast?_nil, List.getLast?_append, List.getLast?_singleton, List.concat_eq_append,
      Option.some_or] at hl e fp ⊢
    refine insert_tree t' free (by simpa using e) ?_ ?_ ?_ ?_ ?_ <;> intro x <;>
    simp [Heap.append, Heap.setParent, Heap.setPrev, Heap.setNext, Heap.setFirst,
      Heap.setLast, hl, upd_apply] <;> grind [Detached]

theorem prepend_tree (t : Tree h ch) {p c : Handle} (free : ∀ q, c ∉ ch q) :
    Tree (h.prepend p c) (upd ch p (c :: ch p)) := by
  have dc := t.rest c free
  have hf := (t.links p).first
  have fp := free p
  generalize e : ch p = l at hf fp ⊢
  cases l
  all_goals
    simp only [List.head?_nil, List.head?_cons] at hf
    refine insert_tree (a := []) t free (by simpa using e) ?_ ?_ ?_ ?_ ?_ <;> intro x <;>
    simp [Heap.prepend, Heap.setParent, Heap.setPrev, Heap.setNext, Heap.setFirst,
      Heap.setLast, hf, upd_apply] <;> grind [Detached]

theorem insertBefore_free (t : Tree h ch) {p c r : Handle} {a b : List Handle}
    (free : ∀ q, c ∉ ch q) (e : ch p = a ++ r :: b) (rem : h.remove c = h) :
    Tree (h.insertBefore p c r) (upd ch p (a ++ c :: r :: b)) := by
  have dc := t.rest c free
  have hr := (t.at_split e).2.1
  have fp := free p
  rw [e] at fp
  rcases a.eq_nil_or_concat with rfl | ⟨a, y, rfl⟩
  all_goals
    simp only [List.getLast?_nil, List.getLast?_append, List.getLast?_singleton, List.concat_eq_append,
      Option.some_or] at hr e fp ⊢
    refine insert_tree t free e ?_ ?_ ?_ ?_ ?_ <;> intro x <;>
    simp [Heap.insertBefore, rem, Heap.setParent, Heap.setPrev, Heap.setNext, Heap.setFirst,
      Heap.setLast, hr, upd_apply] <;> grind [Detached]

theorem insertAfter_free (t : Tree h ch) {p c r : Handle} {a b : List Handle}
    (free : ∀ q, c ∉ ch q) (e : ch p = a ++ r :: b) (rem : h.remove c = h) :
    Tree (h.insertAfter p c r) (upd ch p (a ++ r :: c :: b)) := by
  have dc := t.rest c free
  have hr := (t.at_split e).2.2
  have fp := free p
  rw [e] at fp
  rw [show a ++ r :: c :: b = (a ++ [r]) ++ c :: b by simp]
  cases b
  all_goals
    simp only [List.head?_nil, List.head?_cons] at hr
    refine insert_tree t free (by simp [e]) ?_ ?_ ?_ ?_ ?_ <;> intro x <;>
    simp [Heap.insertAfter, rem, Heap.setParent, Heap.setPrev, Heap.setNext, Heap.setFirst,
      Heap.setLast, hr, upd_apply] <;> grind [Detached]

theorem replaceChild_tree (t : Tree h ch) {p new old : Handle} {a b : List Handle}
    (free : ∀ q, new ∉ ch q) (e : ch p = a ++ old :: b) :
    Tree (h.replaceChild p new old) (upd (without ch old) p (a ++ new :: b)) := by
  have nd := (t.links p).nodup
  have t' := remove_tree t old
  have ho := t.at_split e
  have dn := t.rest new free
  have fp := free p
  rw [e] at nd fp
  have e' : without ch old p = a ++ b := by
    simp only [without]; rw [e]; grind
  have free' : ∀ q, new ∉ without ch old q := by
    intro q hm
    exact free q (List.mem_of_mem_erase hm)
  have oa : h.parent old = some p := ho.1
  rcases a.eq_nil_or_concat with rfl | ⟨a, y, rfl⟩ <;> cases b
  all_goals
    simp only [List.getLast?_nil, List.getLast?_append, List.getLast?_singleton, List.concat_eq_append, List.head?_nil,
      List.head?_cons, Option.some_or] at ho
    refine insert_tree t' free' e' ?_ ?_ ?_ ?_ ?_ <;> intro x <;>
    simp [Heap.replaceChild, Heap.setParent, Heap.setPrev, Heap.setNext, Heap.setFirst,
      Heap.setLast, ho.2.1, ho.2.2, remove_parent, remove_prev, remove_next, remove_first, remove_last, oa,
      upd_apply] <;> grind

theorem remove_remove (t : Tree h ch) (c : Handle) : (h.remove c).remove c = h.remove c :=
  remove_detached ((remove_tree t c).rest c (remove_free t c))

theorem insertBefore_tree (t : Tree h ch) {p c r : Handle} {a b : List Handle}
    (e : without ch c p = a ++ r :: b) :
    Tree (h.insertBefore p c r) (upd (without ch c) p (a ++ c :: r :: b)) := by
  have := insertBefore_free (remove_tree t c) (remove_free t c) e (remove_remove t c)
  rw [Heap.insertBefore, remove_remove t c] at this
  exact this

theorem insertAfter_tree (t : Tree h ch) {p c r : Handle} {a b : List Handle}
    (e : without ch c p = a ++ r :: b) :
    Tree (h.insertAfter p c r) (upd (without ch c) p (a ++ r :: c :: b)) := by
  have := insertAfter_free (remove_tree t c) (remove_free t c) e (remove_remove t c)
  rw [Heap.insertAfter, remove_remove t c] at this
  exact this

/-- Walking along `next` from the head of a chain gives every node of the chain the parent. -/
theorem reparent_chain (par : Option Handle) (l : List Handle) : ∀ (h : Heap) (fuel : Nat),
    l.Nodup → (∀ pre c post, l = pre ++ c :: post → h.next c = post.head?) → l.length ≤ fuel →
    ∃ g, Heap.reparent par fuel h l.head? = some { h with parent := g } ∧
      ∀ x, g x = if x ∈ l then par else h.parent x := by
  induction l with
  | nil =>
    intro h fuel _ _ _
    refine ⟨h.parent, ?_, by simp⟩
    cases fuel <;> rfl
  | cons c l ih =>
    intro h fuel nd hn hf
    cases fuel with
    | zero => simp at hf
    | succ fuel =>
      have h1 := hn [] c l rfl
      obtain ⟨g, e, hg⟩ := ih (h.setParent c par) fuel (by grind) (by
        intro pre d post e
        exact hn (c :: pre) d post (by simp [e])) (by simpa using hf)
      refine ⟨g, ?_, ?_⟩
      · simp only [List.head?_cons, Heap.reparent]
        have : (h.setParent c par).next c = l.head? := by simpa [Heap.setParent] using h1
        rw [this, e]
        rfl
      · intro x
        rw [hg]
        simp only [Heap.setParent, upd_apply, List.mem_cons]
        grind

/-- Any edit with these effects replaces `e` among the children of `p` by the children of `e`. -/
theorem splice_tree {h' : Heap} {p e : Handle} {a b l : List Handle} (t : Tree h ch)
    (hp : ch p = a ++ e :: b) (hl : ch e = l) (ne : p ≠ e)
    (hpar : ∀ x, h'.parent x = if x ∈ l then some p else if x = e then none else h.parent x)
    (hprev : ∀ x, h'.prev x = if x = e then none else if l.head? = some x then a.getLast?
      else if b.head? = some x then (l.getLast?.or a.getLast?) else h.prev x)
    (hnext : ∀ x, h'.next x = if x = e then none else if l.getLast? = some x then b.head?
      else if a.getLast? = some x then (l.head?.or b.head?) else h.next x)
    (hfirst : ∀ x, h'.first x = if x = e then none else if x = p ∧ a = [] then l.head?.or b.head? else h.first x)
    (hlast : ∀ x, h'.last x = if x = e then none else if x = p ∧ b = [] then l.getLast?.or a.getLast? else h.last x) :
    Tree h' (upd (upd ch p (a ++ l ++ b)) e []) := by
  have nd := (t.links p).nodup
  have ndl := (t.links e).nodup
  have ex := t.at_split hp
  rw [hp] at nd
  rw [hl] at ndl
  have dis : ∀ x ∈ l, x ∉ ch p := fun x hx hm => ne (t.unique hm (hl ▸ hx))
  rw [hp] at dis
  have hel : e ∉ l := by
    intro hm; exact (dis e hm) (by simp)
  have hea : e ∉ a := by grind
  have heb : e ∉ b := by grind
  constructor
  · intro q
    have lq := t.links q
    simp only [upd_apply]
    by_cases hq : q = e
    · subst hq
      rw [if_pos rfl]
      constructor
      · simp
      · simp [hfirst]
      · simp [hlast]
      · intro pre c post e'; simp at e'
    rw [if_neg hq]
    by_cases hqp : q = p
    · subst hqp
      rw [if_pos rfl]
      constructor
      · grind
      · rw [hfirst, if_neg hq, lq.first, hp]
        cases a <;> simp <;> cases l <;> simp
      · rw [hlast, if_neg hq, lq.last, hp]
        rcases b.eq_nil_or_concat with rfl | ⟨b, z, rfl⟩ <;> simp [List.getLast?_cons]
      · intro pre d post e'
        rw [hpar, hprev, hnext]
        have hde : d ≠ e := by
          have : d ∈ a ++ l ++ b := by simp [e']
          grind
        simp only [hde, if_false]
        rcases split_append e' with ⟨m, e2, rfl⟩ | ⟨m, rfl, rfl⟩
        · rcases split_append e2 with ⟨m', rfl, rfl⟩ | ⟨m', rfl, rfl⟩
          · -- in `a`
            have := lq.child pre d (m' ++ e :: b) (by simp [hp])
            rw [this.1, this.2.1, this.2.2]
            have hdl : d ∉ l := fun hm => dis d hm (by simp)
            have h1 : l.head? ≠ some d := fun h => hdl (List.mem_of_head? h)
            have h2 : l.getLast? ≠ some d := fun h => hdl (List.mem_of_getLast? h)
            have h3 : b.head? ≠ some d := fun h => by
              have := List.mem_of_head? h; grind
            simp only [hdl, h1, h2, h3, if_false, true_and]
            rcases m'.eq_nil_or_concat with rfl | ⟨m', z, rfl⟩
            · simp
            · have h4 : (pre ++ d :: (m' ++ [z])).getLast? ≠ some d := by simp; grind
              simp only [List.concat_eq_append, h4, if_false]
              cases m' <;> simp
          · -- in `l`
            have := (t.links e).child m' d m (by simp [hl])
            rw [this.2.1, this.2.2]
            have hdl : d ∈ m' ++ d :: m := by simp
            have hdp : d ∉ a ++ e :: b := dis d hdl
            have h3 : b.head? ≠ some d := fun h => by
              have := List.mem_of_head? h; grind
            have h4 : a.getLast? ≠ some d := fun h => by
              have := List.mem_of_getLast? h; grind
            simp only [hdl, h3, h4, if_true, if_false, true_and]
            constructor
            · cases m' with
              | nil => simp
              | cons z m' =>
                have : z ≠ d := by grind
                simp [this]
                rcases m'.eq_nil_or_concat with rfl | ⟨m', z, rfl⟩ <;> simp [List.getLast?_cons]
            · rcases m.eq_nil_or_concat with rfl | ⟨m, z, rfl⟩
              · simp
              · have hzd : z ≠ d := by grind
                rcases m with _ | ⟨y, m⟩ <;> simp [hzd, List.getLast?_cons]
        · -- in `b`
          have := lq.child (a ++ e :: m) d post (by simp [hp])
          rw [this.1, this.2.1, this.2.2]
          have hdl : d ∉ l := fun hm => dis d hm (by simp)
          have h1 : l.head? ≠ some d := fun h => hdl (List.mem_of_head? h)
          have h2 : l.getLast? ≠ some d := fun h => hdl (List.mem_of_getLast? h)
          have h3 : a.getLast? ≠ some d := fun h => by
            have := List.mem_of_getLast? h; grind
          simp only [hdl, h1, h2, h3, if_false, true_and]
          cases m with
          | nil => simp
          | cons z m =>
            have : z ≠ d := by grind
            simp [this]
            rcases m.eq_nil_or_concat with rfl | ⟨m, z, rfl⟩ <;> simp [List.getLast?_cons]
    · rw [if_neg hqp]
      constructor
      · exact lq.nodup
      · rw [hfirst]; simp [hq, hqp, lq.first]
      · rw [hlast]; simp [hq, hqp, lq.last]
      · intro pre d post e'
        have hd := lq.child pre d post e'
        have hdq : d ∈ ch q := by simp [e']
        have hdp : d ∉ a ++ e :: b := fun hm => hqp (t.unique hdq (hp ▸ hm))
        have hdl : d ∉ l := fun hm => hq (t.unique hdq (hl ▸ hm))
        have h1 : l.head? ≠ some d := fun h => hdl (List.mem_of_head? h)
        have h2 : l.getLast? ≠ some d := fun h => hdl (List.mem_of_getLast? h)
        have h3 : a.getLast? ≠ some d := fun h => by
          have := List.mem_of_getLast? h; grind
        have h4 : b.head? ≠ some d := fun h => by
          have := List.mem_of_head? h; grind
        have hde : d ≠ e := by grind
        rw [hpar, hprev, hnext]
        simp only [hdl, h1, h2, h3, h4, hde, if_false]
        exact hd
  · intro d hd
    have hdp := hd p
    simp only [upd_apply, ne, if_false, if_true] at hdp
    have hdl : d ∉ l := by grind
    have hda : d ∉ a := by grind
    have hdb : d ∉ b := by grind
    have h1 : l.head? ≠ some d := fun h => hdl (List.mem_of_head? h)
    have h2 : l.getLast? ≠ some d := fun h => hdl (List.mem_of_getLast? h)
    have h3 : a.getLast? ≠ some d := fun h => hda (List.mem_of_getLast? h)
    have h4 : b.head? ≠ some d := fun h => hdb (List.mem_of_head? h)
    simp only [Detached, hpar, hprev, hnext, hdl, h1, h2, h3, h4, if_false]
    by_cases hde : d = e
    · simp [hde]
    · have hd' : ∀ q, d ∉ ch q := by
        intro q
        have := hd q
        simp only [upd_apply] at this
        split at this
        · subst q; rw [hl]; exact hdl
        · split at this
          · subst q; rw [hp]; grind
          · exact this
      have dd := t.rest d hd'
      simp only [hde, if_false]
      exact dd

set_option maxHeartbeats 2000000 in
theorem flatten_tree (t : Tree h ch) {p e : Handle} {a b : List Handle} (hp : ch p = a ++ e :: b)
    (ne : p ≠ e) {fuel : Nat} (hf : (ch e).length ≤ fuel) :
    ∃ h', Heap.flatten fuel h e = some h' ∧ Tree h' (upd (upd ch p (a ++ ch e ++ b)) e []) ∧ h'.id = h.id := by
  have ex := t.at_split hp
  obtain ⟨g, e1, hg⟩ := reparent_chain (h.parent e) (ch e) (h.setParent e none) fuel (t.links e).nodup
    (fun pre c post e' => ((t.links e).child pre c post e').2.2) hf
  have e2 : (h.setParent e none).first e = (ch e).head? := (t.links e).first
  refine ⟨_, by simp only [Heap.flatten]; rw [e2, e1]; rfl, ?_, ?_⟩
  · have hfe := (t.links e).first
    have hle := (t.links e).last
    have nd := (t.links p).nodup
    have ndl := (t.links e).nodup
    have dis : ∀ x ∈ ch e, x ∉ ch p := fun x hx hm => ne (t.unique hm hx)
    have hz : ∀ z, (ch e).head? = some z → h.prev z = none := by
      intro z hz
      cases hl : ch e with
      | nil => simp [hl] at hz
      | cons y l =>
        obtain rfl : y = z := by simpa [hl] using hz
        exact ((t.links e).child [] y l (by simp [hl])).2.1
    have hw : ∀ w, (ch e).getLast? = some w → h.next w = none := by
      intro w hw
      rcases (ch e).eq_nil_or_concat with hl | ⟨l, y, hl⟩
      · simp [hl] at hw
      · obtain rfl : y = w := by simpa [hl] using hw
        exact ((t.links e).child l y [] (by simpa using hl)).2.2
    rw [hp] at nd dis
    generalize hl : ch e = l at *
    rw [ex.1] at hg ⊢
    clear e1 e2 hf
    rcases a.eq_nil_or_concat with rfl | ⟨a, y, rfl⟩ <;> cases b <;> rcases l with _ | ⟨z, l⟩
    all_goals try rcases l.eq_nil_or_concat with rfl | ⟨l, w, rfl⟩
    all_goals
      simp only [List.getLast?_nil, List.getLast?_append, List.getLast?_singleton, List.concat_eq_append,
        List.head?_nil, List.head?_cons, Option.some_or, List.getLast?_cons, Option.getD_some, Option.getD_none, Option.some.injEq] at ex hfe hle hz hw
      simp [List.nodup_append] at nd ndl dis
      refine splice_tree t hp hl ne ?_ ?_ ?_ ?_ ?_ <;> intro x <;>
      simp [Heap.splice, Heap.setParent, Heap.setPrev, Heap.setNext, Heap.setFirst,
        Heap.setLast, ex, hfe, hle, upd_apply, hg, List.getLast?_cons] <;> grind
  · simp only [Heap.splice, Heap.setParent, Heap.setPrev, Heap.setNext, Heap.setFirst, Heap.setLast]
    repeat' split
    all_goals rfl

end Verif.Dom
