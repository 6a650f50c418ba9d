import Verif.Dom.Props

/-!
# C03, C04: edits that leave the links inconsistent, and exactly when

For `retain_children`, `sort_child_elements`, `replace_children`, `append_child`, `prepend`, `empty`, `before`
and `insert_before` of a node before itself.
-/

namespace Verif.Dom

variable {h : Heap} {ch : Kids}

/-- The links agree with some child lists. -/
def Consistent (h : Heap) : Prop := ∃ ch, Tree h ch

theorem Tree.next_mem {p c d : Handle} (t : Tree h ch) (hc : c ∈ ch p) (e : h.next c = some d) : d ∈ ch p := by
  obtain ⟨a, b, e'⟩ := List.append_of_mem hc
  have := (t.at_split e').2.2
  rw [e] at this
  have := List.mem_of_head? this.symm
  rw [e']; simp [this]

theorem Tree.prev_mem {p c d : Handle} (t : Tree h ch) (hc : c ∈ ch p) (e : h.prev c = some d) : d ∈ ch p := by
  obtain ⟨a, b, e'⟩ := List.append_of_mem hc
  have := (t.at_split e').2.1
  rw [e] at this
  have := List.mem_of_getLast? this.symm
  rw [e']; simp [this]

theorem Tree.first_prev {p c : Handle} (t : Tree h ch) (e : h.first p = some c) :
    c ∈ ch p ∧ h.prev c = none := by
  rw [(t.links p).first] at e
  cases hl : ch p with
  | nil => simp [hl] at e
  | cons x l =>
    obtain rfl : x = c := by simpa [hl] using e
    exact ⟨by simp, (t.at_split (a := []) hl).2.1⟩

theorem Tree.last_next {p c : Handle} (t : Tree h ch) (e : h.last p = some c) :
    c ∈ ch p ∧ h.next c = none := by
  rw [(t.links p).last] at e
  rcases (ch p).eq_nil_or_concat with hl | ⟨l, x, hl⟩
  · simp [hl] at e
  · obtain rfl : x = c := by simpa [hl] using e
    rw [List.concat_eq_append] at hl
    exact ⟨by simp [hl], (t.at_split (b := []) hl).2.2⟩

/-! ## retain_children -/

theorem retainLoop_cells (f : Handle → Bool) (p : Handle) (l : List Handle) : ∀ (h : Heap) (k : Option Handle)
    (fuel : Nat), l.Nodup → (∀ pre c post, l = pre ++ c :: post → h.next c = post.head?) → l.length ≤ fuel →
    ∃ h', Heap.retainLoop f p fuel h l.head? k = some h' ∧
      (∀ x, h'.parent x = if x ∈ l ∧ f x = false then none else h.parent x) ∧
      (∀ x, h'.next x = if x ∈ l ∧ f x = false then none else h.next x) ∧
      (∀ x ∉ l, h'.prev x = h.prev x) ∧ (∀ x ∈ l, f x = false → h'.prev x = none) ∧
      (∀ pre c post, l = pre ++ c :: post → f c = true → h'.prev c = (pre.filter f).getLast?.or k) ∧
      (∀ x, h'.first x = if x = p ∧ k = none then (l.filter f).head?.or (h.first x) else h.first x) ∧
      (∀ x, h'.last x = if x = p then (l.filter f).getLast?.or (h.last x) else h.last x) := by
  induction l with
  | nil =>
    intro h k fuel _ _ _
    refine ⟨h, by cases fuel <;> rfl, by simp, by simp, by simp, by simp, ?_, by simp, by simp⟩
    intro pre c post e; simp at e
  | cons c l ih =>
    intro h k fuel nd hn hf
    cases fuel with
    | zero => simp at hf
    | succ fuel =>
      have hc := hn [] c l rfl
      have ndl : l.Nodup := by grind
      have hcl : c ∉ l := by grind
      simp only [List.head?_cons, Heap.retainLoop, hc]
      cases hfc : f c with
      | true =>
        simp only [if_true]
        obtain ⟨h', e, p1, p2, p3, p4, p5, p6, p7⟩ := ih
          ((if k.isNone then (h.setPrev c k).setFirst p (some c) else h.setPrev c k).setLast p (some c)) (some c) fuel ndl
          (by
            intro pre d post e
            have := hn (c :: pre) d post (by simp [e])
            split <;> exact this) (by simpa using hf)
        refine ⟨h', e, ?_, ?_, ?_, ?_, ?_, ?_, ?_⟩
        · intro x
          rw [p1]
          have : ((if k.isNone then (h.setPrev c k).setFirst p (some c) else h.setPrev c k).setLast p (some c)).parent x
            = h.parent x := by split <;> rfl
          rw [this]
          by_cases hx : x = c
          · subst hx; simp [hfc, hcl]
          · simp [hx]
        · intro x
          rw [p2]
          have : ((if k.isNone then (h.setPrev c k).setFirst p (some c) else h.setPrev c k).setLast p (some c)).next x
            = h.next x := by split <;> rfl
          rw [this]
          by_cases hx : x = c
          · subst hx; simp [hfc, hcl]
          · simp [hx]
        · intro x hx
          simp only [List.mem_cons, not_or] at hx
          rw [p3 x hx.2]
          split <;> simp [Heap.setLast, Heap.setPrev, Heap.setFirst, upd_apply, hx.1]
        · intro x hx hfx
          rcases List.mem_cons.mp hx with rfl | hx
          · simp [hfc] at hfx
          · exact p4 x hx hfx
        · intro pre d post e' hfd
          cases pre with
          | nil =>
            simp only [List.nil_append, List.cons.injEq] at e'
            obtain ⟨rfl, rfl⟩ := e'
            rw [p3 _ hcl]
            split <;> simp [Heap.setLast, Heap.setPrev, Heap.setFirst, upd_apply]
          | cons y pre =>
            simp only [List.cons_append, List.cons.injEq] at e'
            obtain ⟨rfl, rfl⟩ := e'
            rw [p5 pre d post rfl hfd]
            simp only [List.filter_cons, hfc, if_true, List.getLast?_cons]
            cases (pre.filter f).getLast? <;> simp
        · intro x
          rw [p6]
          simp only [reduceCtorEq, and_false, if_false, List.filter_cons, hfc, if_true, List.head?_cons,
            Option.some_or]
          cases k <;> simp [Heap.setLast, Heap.setPrev, Heap.setFirst, upd_apply]
        · intro x
          rw [p7]
          simp only [List.filter_cons, hfc, if_true, List.getLast?_cons]
          split
          · next hx =>
            subst hx
            split <;> simp [Heap.setLast, Heap.setPrev, Heap.setFirst, upd_apply] <;>
              cases (l.filter f).getLast? <;> simp
          · next hx =>
            split <;> simp [Heap.setLast, Heap.setPrev, Heap.setFirst, upd_apply, hx]
      | false =>
        simp only [Bool.false_eq_true, if_false]
        obtain ⟨h', e, p1, p2, p3, p4, p5, p6, p7⟩ := ih
          (((h.setParent c none).setPrev c none).setNext c none) k fuel ndl
          (by
            intro pre d post e
            have := hn (c :: pre) d post (by simp [e])
            have hdc : d ≠ c := by grind
            simp only [Heap.setNext, Heap.setPrev, Heap.setParent, upd_apply, hdc, if_false]
            exact this) (by simpa using hf)
        refine ⟨h', e, ?_, ?_, ?_, ?_, ?_, ?_, ?_⟩
        · intro x
          rw [p1]
          simp only [Heap.setNext, Heap.setPrev, Heap.setParent, upd_apply, List.mem_cons]
          grind
        · intro x
          rw [p2]
          simp only [Heap.setNext, Heap.setPrev, Heap.setParent, upd_apply, List.mem_cons]
          grind
        · intro x hx
          simp only [List.mem_cons, not_or] at hx
          rw [p3 x hx.2]
          simp [Heap.setNext, Heap.setPrev, Heap.setParent, upd_apply, hx.1]
        · intro x hx hfx
          rcases List.mem_cons.mp hx with rfl | hx
          · rw [p3 _ hcl]
            simp [Heap.setNext, Heap.setPrev, Heap.setParent, upd_apply]
          · exact p4 x hx hfx
        · intro pre d post e' hfd
          cases pre with
          | nil =>
            simp only [List.nil_append, List.cons.injEq] at e'
            obtain ⟨rfl, rfl⟩ := e'
            simp [hfc] at hfd
          | cons y pre =>
            simp only [List.cons_append, List.cons.injEq] at e'
            obtain ⟨rfl, rfl⟩ := e'
            rw [p5 pre d post rfl hfd]
            simp [hfc]
        · intro x
          rw [p6]
          simp [hfc, Heap.setNext, Heap.setPrev, Heap.setParent]
        · intro x
          rw [p7]
          simp [hfc, Heap.setNext, Heap.setPrev, Heap.setParent]

/-- No kept child comes directly before a dropped one. -/
def DropsOnlyInFront (f : Handle → Bool) (l : List Handle) : Prop :=
  ∀ a x y b, l = a ++ x :: y :: b → f x = true → f y = true

theorem DropsOnlyInFront.split {f : Handle → Bool} {l : List Handle} (hd : DropsOnlyInFront f l) :
    ∃ ds ks, l = ds ++ ks ∧ (∀ x ∈ ds, f x = false) ∧ (∀ x ∈ ks, f x = true) := by
  induction l with
  | nil => exact ⟨[], [], rfl, by simp, by simp⟩
  | cons c l ih =>
    obtain ⟨ds, ks, e, h1, h2⟩ := ih (fun a x y b e => hd (c :: a) x y b (by simp [e]))
    cases hc : f c with
    | false => exact ⟨c :: ds, ks, by simp [e], by simp [hc]; exact h1, h2⟩
    | true =>
      cases ds with
      | nil => exact ⟨[], c :: ks, by simpa using e, by simp, by simp [hc]; exact h2⟩
      | cons d ds =>
        have := hd [] c d (ds ++ ks) (by simp [e]) hc
        rw [h1 d (by simp)] at this
        simp at this

/-- **C04 (exactly when it works)** `retain_children` ends for every callback. Afterwards the links are
consistent exactly when no kept child stood directly before a dropped one; then the children are the kept
ones in order, and the dropped ones are detached. -/
theorem retain_iff (t : Tree h ch) (p : Handle) (f : Handle → Bool) {fuel : Nat}
    (hf : (ch p).length ≤ fuel) :
    ∃ h', Heap.retainChildren fuel h p f = some h' ∧
      (Consistent h' ↔ DropsOnlyInFront f (ch p)) ∧
      (DropsOnlyInFront f (ch p) → Tree h' (fun q => if q = p then (ch p).filter f else ch q)) := by
  have lp := t.links p
  have nd := lp.nodup
  obtain ⟨h', e, p1, p2, p3, p4, p5, p6, p7⟩ := retainLoop_cells f p (ch p) ((h.setLast p none).setFirst p none) none fuel
    nd (fun pre c post e => (lp.child pre c post e).2.2) hf
  have e0 : (h.setLast p none).first p = (ch p).head? := lp.first
  have pos : DropsOnlyInFront f (ch p) → Tree h' (fun q => if q = p then (ch p).filter f else ch q) := by
    intro hd
    obtain ⟨ds, ks, el, hds, hks⟩ := hd.split
    have fl : (ch p).filter f = ks := by
      rw [el, List.filter_append]
      have h1 : ds.filter f = [] := by
        rw [List.filter_eq_nil_iff]; intro x hx; simp [hds x hx]
      have h2 : ks.filter f = ks := List.filter_eq_self.mpr hks
      simp [h1, h2]
    rw [fl] at p6 p7 ⊢
    constructor
    · intro q
      by_cases hq : q = p
      · subst hq
        rw [if_pos rfl]
        constructor
        · rw [el] at nd; grind
        · simp [p6, Heap.setFirst, upd_apply]
        · simp [p7, Heap.setFirst, Heap.setLast, upd_apply]
        · intro pre c post e'
          subst e'
          have hfc := hks c (by simp)
          have old := lp.child (ds ++ pre) c post (by simp [el])
          refine ⟨?_, ?_, ?_⟩
          · rw [p1]; simp [hfc]; exact old.1
          · rw [p5 (ds ++ pre) c post (by simp [el]) hfc]
            have h1 : ds.filter f = [] := by
              rw [List.filter_eq_nil_iff]; intro x hx; simp [hds x hx]
            have h2 : pre.filter f = pre := List.filter_eq_self.mpr (fun x hx => hks x (by simp [hx]))
            simp [h1, h2]
          · rw [p2]; simp [hfc]; exact old.2.2
      · rw [if_neg hq]
        have lq := t.links q
        constructor
        · exact lq.nodup
        · simp [p6, hq, Heap.setFirst, Heap.setLast, upd_apply, lq.first]
        · simp [p7, hq, Heap.setFirst, Heap.setLast, upd_apply, lq.last]
        · intro pre c post e'
          have hcp : c ∉ ch p := fun hm => hq (t.unique (by simp [e']) hm)
          rw [p1, p2, p3 c hcp]
          simp only [hcp, false_and, if_false]
          exact lq.child pre c post e'
    · intro c hc
      have hcp := hc p
      rw [if_pos rfl] at hcp
      by_cases hm : c ∈ ch p
      · have hfc : f c = false := by
          rw [el] at hm
          rcases List.mem_append.mp hm with h1 | h1
          · exact hds c h1
          · exact absurd h1 hcp
        refine ⟨?_, p4 c hm hfc, ?_⟩
        · rw [p1]; simp [hm, hfc]
        · rw [p2]; simp [hm, hfc]
      · have : ∀ q, c ∉ ch q := by
          intro q
          have := hc q
          split at this
          · next hq => subst hq; exact hm
          · exact this
        have d := t.rest c this
        refine ⟨?_, ?_, ?_⟩
        · rw [p1]; simp [hm]; exact d.1
        · rw [p3 c hm]; exact d.2.1
        · rw [p2]; simp [hm]; exact d.2.2
  refine ⟨h', ?_, ⟨?_, fun hd => ⟨_, pos hd⟩⟩, pos⟩
  · simp only [Heap.retainChildren, e0]
    exact e
  · rintro ⟨ch', t'⟩ a x y b el hfx
    have ox := lp.child a x (y :: b) el
    have hx : x ∈ ch p := by simp [el]
    have hy : y ∈ ch p := by simp [el]
    cases hfy : f y with
    | true => rfl
    | false =>
      have n1 : h'.next x = some y := by
        rw [p2]; simp [hfx]; exact ox.2.2
      have n2 : h'.parent x = some p := by
        rw [p1]; simp [hfx]; exact ox.1
      have n3 : h'.parent y = none := by
        rw [p1]; simp [hfy, hy]
      have := t'.parent (t'.next_mem (t'.mem_of_parent n2) n1)
      rw [n3] at this
      simp at this

/-- **C04 (order and detachment; partial)** The part of the claim that holds: with the dropped children in
front, exactly the kept ones remain, in order. What is missing is every other pattern of dropped children,
see `retain_violated`. -/
theorem retain_spec_partial (t : Tree h ch) (p : Handle) (f : Handle → Bool) {fuel : Nat}
    (hf : (ch p).length ≤ fuel) (hd : DropsOnlyInFront f (ch p)) :
    ∃ h', Heap.retainChildren fuel h p f = some h' ∧
      Tree h' (fun q => if q = p then (ch p).filter f else ch q) ∧
      ∀ c ∈ ch p, f c = false → Detached h' c := by
  obtain ⟨h', e, _, pos⟩ := retain_iff t p f hf
  refine ⟨h', e, pos hd, ?_⟩
  intro c hc hfc
  apply (pos hd).rest
  intro q
  split
  · simp [hfc]
  · next hq => exact fun hm => hq (t.unique hm hc)

/-! ## sort_child_elements -/

theorem relink_cells (l : List Handle) : ∀ (h : Heap) (k : Option Handle), l.Nodup →
    (Heap.relink h k l).parent = h.parent ∧ (Heap.relink h k l).first = h.first ∧
    (Heap.relink h k l).last = h.last ∧
    (∀ x ∉ l, (Heap.relink h k l).next x = h.next x ∧ (Heap.relink h k l).prev x = h.prev x) ∧
    (∀ pre c post, l = pre ++ c :: post → (Heap.relink h k l).next c = post.head? ∧
      (Heap.relink h k l).prev c = (pre.getLast?.or k).or (h.prev c)) := by
  induction l with
  | nil =>
    intro h k _
    refine ⟨rfl, rfl, rfl, fun x _ => ⟨rfl, rfl⟩, ?_⟩
    intro pre c post e; simp at e
  | cons c l ih =>
    intro h k nd
    have hcl : c ∉ l := by grind
    obtain ⟨q1, q2, q3, q4, q5⟩ := ih
      ((h.setPrevIf c k).setNext c l.head?) (some c) (by grind)
    simp only [Heap.relink]
    refine ⟨?_, ?_, ?_, ?_, ?_⟩
    · rw [q1]; cases k <;> rfl
    · rw [q2]; cases k <;> rfl
    · rw [q3]; cases k <;> rfl
    · intro x hx
      simp only [List.mem_cons, not_or] at hx
      obtain ⟨r1, r2⟩ := q4 x hx.2
      rw [r1, r2]
      cases k <;> simp [Heap.setPrevIf, Heap.setNext, Heap.setPrev, upd_apply, hx.1]
    · intro pre d post e
      cases pre with
      | nil =>
        simp only [List.nil_append, List.cons.injEq] at e
        obtain ⟨rfl, rfl⟩ := e
        obtain ⟨r1, r2⟩ := q4 _ hcl
        rw [r1, r2]
        cases k <;> simp [Heap.setPrevIf, Heap.setNext, Heap.setPrev, upd_apply]
      | cons y pre =>
        simp only [List.cons_append, List.cons.injEq] at e
        obtain ⟨rfl, rfl⟩ := e
        obtain ⟨r1, r2⟩ := q5 pre d post rfl
        rw [r1, r2]
        simp only [List.getLast?_cons]
        cases pre.getLast? <;> simp

/-- **C03 (sort children, exactly when it works)** Relinking a rearrangement of the children gives consistent
links exactly when the first child is the same as before; then the children are in the new order. -/
theorem sortChildren_iff (t : Tree h ch) {p : Handle} {s : List Handle} (hs : s.Perm (ch p)) :
    (Consistent (h.sortChildren p s) ↔ s.head? = (ch p).head?) ∧
    (s.head? = (ch p).head? → Tree (h.sortChildren p s) (fun q => if q = p then s else ch q)) := by
  have lp := t.links p
  have nd : s.Nodup := hs.nodup_iff.mpr lp.nodup
  obtain ⟨q1, q2, q3, q4, q5⟩ := relink_cells s ((h.setFirst p s.head?).setLast p s.getLast?) none nd
  have pos : s.head? = (ch p).head? → Tree (h.sortChildren p s) (fun q => if q = p then s else ch q) := by
    intro hh
    constructor
    · intro q
      by_cases hq : q = p
      · subst hq
        rw [if_pos rfl]
        constructor
        · exact nd
        · rw [Heap.sortChildren, q2]; simp [Heap.setFirst, Heap.setLast, upd_apply]
        · rw [Heap.sortChildren, q3]; simp [Heap.setFirst, Heap.setLast, upd_apply]
        · intro pre c post e
          have hc : c ∈ ch q := hs.mem_iff.mp (by simp [e])
          obtain ⟨r1, r2⟩ := q5 pre c post e
          refine ⟨?_, ?_, r1⟩
          · simp only [Heap.sortChildren, q1]
            exact t.parent hc
          · simp only [Heap.sortChildren, r2]
            cases pre with
            | nil =>
              have : (ch q).head? = some c := by rw [← hh, e]; rfl
              have := (t.first_prev (p := q) (by rw [lp.first, this])).2
              simpa [Heap.setFirst, Heap.setLast] using this
            | cons a pre => simp [List.getLast?_cons]
      · rw [if_neg hq]
        have lq := t.links q
        constructor
        · exact lq.nodup
        · rw [Heap.sortChildren, q2]; simp [Heap.setFirst, Heap.setLast, upd_apply, hq, lq.first]
        · rw [Heap.sortChildren, q3]; simp [Heap.setFirst, Heap.setLast, upd_apply, hq, lq.last]
        · intro pre c post e
          have hc : c ∉ s := fun hm => hq (t.unique (by simp [e]) (hs.mem_iff.mp hm))
          obtain ⟨r1, r2⟩ := q4 c hc
          simp only [Heap.sortChildren, q1, r1, r2]
          exact lq.child pre c post e
    · intro c hc
      have hcs := hc p
      rw [if_pos rfl] at hcs
      have : ∀ q, c ∉ ch q := by
        intro q
        have := hc q
        split at this
        · next hq => subst hq; exact fun hm => hcs (hs.mem_iff.mpr hm)
        · exact this
      obtain ⟨r1, r2⟩ := q4 c hcs
      have d := t.rest c this
      refine ⟨?_, ?_, ?_⟩
      · simp only [Heap.sortChildren, q1]; exact d.1
      · simp only [Heap.sortChildren, r2]; exact d.2.1
      · simp only [Heap.sortChildren, r1]; exact d.2.2
  refine ⟨⟨?_, fun hh => ⟨_, pos hh⟩⟩, pos⟩
  rintro ⟨ch', t'⟩
  cases hs' : s with
  | nil => simp only [hs'] at hs; rw [List.nil_perm.mp hs]
  | cons c s' =>
    have hf : (h.sortChildren p s).first p = some c := by
      rw [Heap.sortChildren, q2]; simp [Heap.setFirst, Heap.setLast, upd_apply, hs']
    have hp := (t'.first_prev hf).2
    obtain ⟨_, r2⟩ := q5 [] c s' hs'
    simp only [Heap.sortChildren] at hp
    rw [r2] at hp
    have hp' : h.prev c = none := by simpa [Heap.setFirst, Heap.setLast] using hp
    have hc : c ∈ ch p := hs.mem_iff.mp (by simp [hs'])
    obtain ⟨a, b, e⟩ := List.append_of_mem hc
    have := (t.at_split e).2.1
    rw [hp'] at this
    have : a = [] := by simpa using this.symm
    subst this
    rw [e]; rfl

/-! ## replace_children -/

theorem linkPairs_cells (p : Handle) (l : List Handle) : ∀ (h : Heap), l.Nodup →
    (Heap.linkPairs p h l).first = h.first ∧ (Heap.linkPairs p h l).last = h.last ∧
    (∀ x ∉ l, (Heap.linkPairs p h l).next x = h.next x ∧ (Heap.linkPairs p h l).prev x = h.prev x ∧
      (Heap.linkPairs p h l).parent x = h.parent x) ∧
    (∀ pre c post, l = pre ++ c :: post →
      (Heap.linkPairs p h l).next c = post.head?.or (h.next c) ∧
      (Heap.linkPairs p h l).prev c = pre.getLast?.or (h.prev c) ∧
      (Heap.linkPairs p h l).parent c = if post = [] then h.parent c else some p) := by
  induction l with
  | nil =>
    intro h _
    refine ⟨rfl, rfl, fun x _ => ⟨rfl, rfl, rfl⟩, ?_⟩
    intro pre c post e; simp at e
  | cons a l ih =>
    intro h nd
    cases l with
    | nil =>
      refine ⟨rfl, rfl, fun x _ => ⟨rfl, rfl, rfl⟩, ?_⟩
      intro pre c post e
      cases pre with
      | nil =>
        simp only [List.nil_append, List.cons.injEq] at e
        obtain ⟨rfl, rfl⟩ := e
        simp [Heap.linkPairs]
      | cons y pre => simp at e
    | cons b l =>
      have hal : a ∉ b :: l := by grind
      have hab : a ≠ b := by grind
      obtain ⟨q1, q2, q3, q4⟩ := ih (((h.setParent a (some p)).setNext a (some b)).setPrev b (some a)) (by grind)
      simp only [Heap.linkPairs]
      refine ⟨q1, q2, ?_, ?_⟩
      · intro x hx
        have hxa : x ≠ a := by grind
        have hxb : x ≠ b := by grind
        obtain ⟨r1, r2, r3⟩ := q3 x (by grind)
        rw [r1, r2, r3]
        simp [Heap.setNext, Heap.setPrev, Heap.setParent, upd_apply, hxa, hxb]
      · intro pre c post e
        cases pre with
        | nil =>
          simp only [List.nil_append, List.cons.injEq] at e
          obtain ⟨rfl, rfl⟩ := e
          obtain ⟨r1, r2, r3⟩ := q3 _ hal
          rw [r1, r2, r3]
          simp [Heap.setNext, Heap.setPrev, Heap.setParent, upd_apply, hab]
        | cons y pre =>
          simp only [List.cons_append, List.cons.injEq] at e
          obtain ⟨rfl, e⟩ := e
          obtain ⟨r1, r2, r3⟩ := q4 pre c post e
          have hca : c ≠ a := by
            have : c ∈ b :: l := by simp [e]
            grind
          rw [r1, r2, r3]
          simp only [Heap.setNext, Heap.setPrev, Heap.setParent, upd_apply, hca, if_false, true_and, and_true]
          cases pre with
          | nil =>
            simp only [List.nil_append, List.cons.injEq] at e
            simp [e.1]
          | cons z pre =>
            have : c ≠ b := by
              simp only [List.cons_append, List.cons.injEq] at e
              grind
            simp [this, List.getLast?_cons]

theorem replaceChildren_cells (p : Handle) (l : List Handle) (h : Heap) (nd : l.Nodup) :
    (∀ x, (h.replaceChildren p l).parent x = if x ∈ l then some p else h.parent x) ∧
    (∀ x ∉ l, (h.replaceChildren p l).next x = h.next x ∧ (h.replaceChildren p l).prev x = h.prev x) ∧
    (∀ pre c post, l = pre ++ c :: post → (h.replaceChildren p l).next c = post.head? ∧
      (h.replaceChildren p l).prev c = pre.getLast?) ∧
    (∀ x, (h.replaceChildren p l).first x = if x = p then l.head? else h.first x) ∧
    (∀ x, (h.replaceChildren p l).last x = if x = p then l.getLast? else h.last x) := by
  cases hl : l with
  | nil =>
    refine ⟨by simp [Heap.replaceChildren, Heap.linkPairs, Heap.setFirst, Heap.setLast], ?_, ?_, ?_, ?_⟩
    · intro x _; exact ⟨rfl, rfl⟩
    · intro pre c post e; simp at e
    · intro x; simp [Heap.replaceChildren, Heap.linkPairs, Heap.setFirst, Heap.setLast, upd_apply]
    · intro x; simp [Heap.replaceChildren, Heap.linkPairs, Heap.setFirst, Heap.setLast, upd_apply]
  | cons f l' =>
    rw [← hl]
    obtain ⟨m, z, hz⟩ : ∃ m z, l = m ++ [z] := by
      rcases l.eq_nil_or_concat with h1 | ⟨m, z, h1⟩
      · simp [h1] at hl
      · exact ⟨m, z, by simpa using h1⟩
    have hlast : l.getLast? = some z := by simp [hz]
    have hhead : l.head? = some f := by simp [hl]
    obtain ⟨q1, q2, q3, q4⟩ := linkPairs_cells p l ((h.setFirst p (some f)).setPrev f none) nd
    have hzl : z ∈ l := by simp [hz]
    have hfl : f ∈ l := by simp [hl]
    simp only [Heap.replaceChildren, hlast, hhead]
    refine ⟨?_, ?_, ?_, ?_, ?_⟩
    · intro x
      simp only [Heap.setLast, Heap.setNext, Heap.setParent, upd_apply]
      split
      · next hx => subst hx; simp [hzl]
      · next hx =>
        by_cases hm : x ∈ l
        · obtain ⟨a, b, e⟩ := List.append_of_mem hm
          rw [(q4 a x b e).2.2]
          have : b ≠ [] := by
            intro hb
            subst hb
            rw [e] at hlast
            simp at hlast
            exact hx hlast
          simp [this, hm]
        · rw [(q3 x hm).2.2]; simp [hm, Heap.setFirst, Heap.setPrev]
    · intro x hx
      obtain ⟨r1, r2, r3⟩ := q3 x hx
      have hxz : x ≠ z := fun h => hx (h ▸ hzl)
      have hxf : x ≠ f := fun h => hx (h ▸ hfl)
      simp only [Heap.setLast, Heap.setNext, Heap.setParent, upd_apply, hxz, if_false]
      rw [r1, r2]
      simp [Heap.setFirst, Heap.setPrev, upd_apply, hxf]
    · intro pre c post e
      obtain ⟨r1, r2, r3⟩ := q4 pre c post e
      simp only [Heap.setLast, Heap.setNext, Heap.setParent, upd_apply]
      rw [r1, r2]
      constructor
      · cases post with
        | nil =>
          have : c = z := by rw [e] at hlast; simpa using hlast
          simp [this]
        | cons d post =>
          have : c ≠ z := by
            rw [e] at hlast nd
            rcases post.eq_nil_or_concat with rfl | ⟨post, w, rfl⟩
            · simp at hlast; grind
            · simp [List.getLast?_cons] at hlast; grind
          simp [this]
      · cases pre with
        | nil =>
          have : c = f := by rw [e] at hhead; simpa using hhead
          simp [this, Heap.setPrev, upd_apply]
        | cons a pre => simp [List.getLast?_cons]
    · intro x
      simp only [Heap.setLast, Heap.setNext, Heap.setParent]
      rw [q1]
      simp [Heap.setPrev, Heap.setFirst, upd_apply]
    · intro x
      simp only [Heap.setLast, Heap.setNext, Heap.setParent, upd_apply]
      rw [q2]
      simp [Heap.setPrev, Heap.setFirst]

/-- **C03 (replace children)** `replace_children` by distinct nodes always leaves the element itself with
exactly those children, all links between them and the element right. The whole tree is consistent exactly
when all former children are among the new ones and the new ones that were somebody's child were already
children of the element. -/
theorem replaceChildren_iff (t : Tree h ch) (p : Handle) {l : List Handle} (nd : l.Nodup) :
    Links (h.replaceChildren p l) p l ∧
    (Consistent (h.replaceChildren p l) ↔ (∀ c ∈ ch p, c ∈ l) ∧ (∀ c ∈ l, ∀ q, c ∈ ch q → q = p)) ∧
    ((∀ c ∈ ch p, c ∈ l) → (∀ c ∈ l, ∀ q, c ∈ ch q → q = p) →
      Tree (h.replaceChildren p l) (fun q => if q = p then l else ch q)) := by
  obtain ⟨q1, q2, q3, q4, q5⟩ := replaceChildren_cells p l h nd
  have lk : Links (h.replaceChildren p l) p l := by
    constructor
    · exact nd
    · simp [q4]
    · simp [q5]
    · intro pre c post e
      obtain ⟨r1, r2⟩ := q3 pre c post e
      exact ⟨by rw [q1]; simp [e], r2, r1⟩
  have pos : (∀ c ∈ ch p, c ∈ l) → (∀ c ∈ l, ∀ q, c ∈ ch q → q = p) →
      Tree (h.replaceChildren p l) (fun q => if q = p then l else ch q) := by
    intro h1 h2
    constructor
    · intro q
      by_cases hq : q = p
      · subst hq; rw [if_pos rfl]; exact lk
      · rw [if_neg hq]
        have lq := t.links q
        constructor
        · exact lq.nodup
        · simp [q4, hq, lq.first]
        · simp [q5, hq, lq.last]
        · intro pre c post e
          have hc : c ∉ l := fun hm => hq (h2 c hm q (by simp [e]))
          rw [q1, (q2 c hc).1, (q2 c hc).2]
          simp only [hc, if_false]
          exact lq.child pre c post e
    · intro c hc
      have hcl := hc p
      rw [if_pos rfl] at hcl
      have : ∀ q, c ∉ ch q := by
        intro q
        have := hc q
        split at this
        · next hq => subst hq; exact fun hm => hcl (h1 c hm)
        · exact this
      have d := t.rest c this
      refine ⟨?_, ?_, ?_⟩
      · rw [q1]; simp only [hcl, if_false]; exact d.1
      · rw [(q2 c hcl).2]; exact d.2.1
      · rw [(q2 c hcl).1]; exact d.2.2
  refine ⟨lk, ⟨?_, fun ⟨h1, h2⟩ => ⟨_, pos h1 h2⟩⟩, pos⟩
  rintro ⟨ch', t'⟩
  have hp : ch' p = l := by
    have l1 := t'.links p
    -- both lists are read off the same links
    have key : ∀ (a b pre : List Handle), ch' p = pre ++ a → l = pre ++ b → a = b := by
      intro a
      induction a with
      | nil =>
        intro b pre e1 e2
        rcases pre.eq_nil_or_concat with rfl | ⟨pre, w, rfl⟩
        · have := l1.first
          rw [q4, if_pos rfl, e1, e2] at this
          cases b <;> simp_all
        · have g1 := (l1.child pre w [] (by simpa using e1)).2.2
          have g2 := (q3 pre w b (by simpa using e2)).1
          rw [g1] at g2
          cases b <;> simp_all
      | cons x a ih =>
        intro b pre e1 e2
        have hb : b.head? = some x := by
          rcases pre.eq_nil_or_concat with rfl | ⟨pre, w, rfl⟩
          · have := l1.first
            rw [q4, if_pos rfl, e1, e2] at this
            simpa using this
          · have g1 := (l1.child pre w (x :: a) (by simpa using e1)).2.2
            have g2 := (q3 pre w b (by simpa using e2)).1
            rw [g1] at g2
            simpa using g2.symm
        cases b with
        | nil => simp at hb
        | cons y b =>
          obtain rfl : y = x := by simpa using hb
          rw [ih b (pre ++ [y]) (by simp [e1]) (by simp [e2])]
    exact key _ _ [] rfl rfl
  constructor
  · intro c hc
    by_cases hm : c ∈ l
    · exact hm
    · have : (h.replaceChildren p l).parent c = some p := by
        rw [q1]; simp only [hm, if_false]; exact t.parent hc
      have := t'.mem_of_parent this
      rw [hp] at this
      exact this
  · intro c hc q hq
    refine Decidable.byContradiction fun hne => ?_
    obtain ⟨a, b, e⟩ := List.append_of_mem hq
    -- the first child of `q` that was taken away
    have : ∀ (a : List Handle) c b, ch q = a ++ c :: b → c ∈ l → False := by
      intro a
      induction hn : a.length generalizing a with
      | zero =>
        intro c b e hc
        have : a = [] := by simpa using hn
        subst this
        have hf : (h.replaceChildren p l).first q = some c := by
          rw [q4, if_neg hne, (t.links q).first, e]; rfl
        have := t'.parent (t'.first_prev hf).1
        rw [q1] at this
        simp only [hc, if_true, Option.some.injEq] at this
        exact hne this.symm
      | succ n ih =>
        intro c b e hc
        rcases a.eq_nil_or_concat with rfl | ⟨a', w, rfl⟩
        · simp at hn
        · by_cases hw : w ∈ l
          · exact ih a' (by simpa using hn) w (c :: b) (by simp [e]) hw
          · have ow := t.at_split (a := a') (b := c :: b) (c := w) (p := q) (by simp [e])
            have n1 : (h.replaceChildren p l).parent w = some q := by
              rw [q1]; simp only [hw, if_false]; exact ow.1
            have n2 : (h.replaceChildren p l).next w = some c := by
              rw [(q2 w hw).1]; exact ow.2.2
            have := t'.parent (t'.next_mem (t'.mem_of_parent n1) n2)
            rw [q1] at this
            simp only [hc, if_true, Option.some.injEq] at this
            exact hne this.symm
    exact this a c b e hc

/-! ## Edits that are wrong for attached nodes -/

/-- **C03 (append child, exactly when it works)** `append_child` leaves a consistent tree only for a node that
is nobody's child. -/
theorem appendChild_iff (t : Tree h ch) (p c : Handle) :
    Consistent (h.appendChild p c) ↔ ∀ q, c ∉ ch q := by
  refine ⟨?_, fun free => ⟨_, appendChild_tree t free⟩⟩
  rintro ⟨ch', t'⟩ q hq
  have plast : (h.appendChild p c).last p = some c := by
    simp only [Heap.appendChild, Heap.setParent, Heap.setPrev, Heap.setNext, Heap.setFirst, Heap.setLast]
    split <;> simp [upd_apply]
  have pnext : (h.appendChild p c).next c = none := (t'.last_next plast).2
  have ppar : ∀ x, (h.appendChild p c).parent x = if x = c then some p else h.parent x := by
    intro x
    simp only [Heap.appendChild, Heap.setParent, Heap.setPrev, Heap.setNext, Heap.setFirst, Heap.setLast]
    split <;> simp [upd_apply]
  have pnx : ∀ x, (h.appendChild p c).next x = if h.last p = some x then some c else h.next x := by
    intro x
    simp only [Heap.appendChild, Heap.setParent, Heap.setPrev, Heap.setNext, Heap.setFirst, Heap.setLast]
    split <;> simp [upd_apply, *, eq_comm]
  obtain ⟨a, b, e⟩ := List.append_of_mem hq
  have oc := t.at_split e
  by_cases hpq : p = q
  · subst hpq
    rw [pnx] at pnext
    split at pnext
    · simp at pnext
    · next hn =>
      rw [oc.2.2] at pnext
      have : b = [] := by simpa using pnext
      subst this
      rw [(t.links p).last, e] at hn
      simp at hn
  · rcases a.eq_nil_or_concat with rfl | ⟨a', w, rfl⟩
    · have hf : (h.appendChild p c).first q = some c := by
        have : h.first q = some c := by rw [(t.links q).first, e]; rfl
        have hne : q ≠ p := fun h => hpq h.symm
        simp only [Heap.appendChild, Heap.setParent, Heap.setPrev, Heap.setNext, Heap.setFirst, Heap.setLast]
        split <;> simp [upd_apply, hne, this]
      have := t'.parent (t'.first_prev hf).1
      rw [ppar] at this
      simp at this
      exact hpq this
    · have ow := t.at_split (a := a') (b := c :: b) (c := w) (p := q) (by simp [e])
      have hwc : w ≠ c := by
        have := (t.links q).nodup
        rw [e] at this
        grind
      have n1 : (h.appendChild p c).parent w = some q := by
        rw [ppar]; simp [hwc, ow.1]
      have n2 : (h.appendChild p c).next w = some c := by
        rw [pnx]
        split
        · rfl
        · exact ow.2.2
      have := t'.parent (t'.next_mem (t'.mem_of_parent n1) n2)
      rw [ppar] at this
      simp at this
      exact hpq this

/-- **C03 (empty, exactly when it works)** `empty` leaves the former children with their parent: consistent only
when there were none. -/
theorem empty_iff (t : Tree h ch) (p : Handle) : Consistent (h.empty p) ↔ ch p = [] := by
  constructor
  · rintro ⟨ch', t'⟩
    cases hl : ch p with
    | nil => rfl
    | cons c l =>
      have : (h.empty p).parent c = some p := t.parent (p := p) (c := c) (by simp [hl])
      have hm := t'.mem_of_parent this
      have := (t'.links p).first
      simp only [Heap.empty, Heap.setFirst, Heap.setLast, upd_apply, if_true] at this
      have : ch' p = [] := by simpa using this.symm
      rw [this] at hm
      simp at hm
  · intro hl
    refine ⟨ch, ?_⟩
    have e1 := upd_same h.first p none (by rw [(t.links p).first, hl]; rfl)
    have e2 := upd_same h.last p none (by rw [(t.links p).last, hl]; rfl)
    have : h.empty p = h := by
      simp only [Heap.empty, Heap.setFirst, Heap.setLast, e1, e2]
    rw [this]
    exact t

/-- **C03 (text content)** Setting the text content of an element to a fresh text node makes this node the only
one that is reached from the element. The former children keep the element as their parent, so the tree is
consistent exactly when there were none. -/
theorem setTextContent_iff (t : Tree h ch) (p : Handle) {text : Handle} (free : ∀ q, text ∉ ch q) :
    ((h.setTextContent p text).first p = some text ∧ (h.setTextContent p text).last p = some text ∧
      (h.setTextContent p text).next text = none ∧ (h.setTextContent p text).prev text = none ∧
      (h.setTextContent p text).parent text = some p) ∧
    (Consistent (h.setTextContent p text) ↔ ch p = []) := by
  have d := t.rest text free
  have cells : (h.setTextContent p text).first p = some text ∧ (h.setTextContent p text).last p = some text ∧
      (h.setTextContent p text).next text = none ∧ (h.setTextContent p text).prev text = none ∧
      (h.setTextContent p text).parent text = some p := by
    simp [Heap.setTextContent, Heap.empty, Heap.appendChild, Heap.setParent, Heap.setFirst, Heap.setLast, upd_apply,
      d.2.1, d.2.2]
  refine ⟨cells, ?_, fun hl => ?_⟩
  · rintro ⟨ch', t'⟩
    have only : ch' p = [text] := by
      have h1 := (t'.links p).first
      rw [cells.1] at h1
      cases hc : ch' p with
      | nil => rw [hc] at h1; simp at h1
      | cons x l =>
        rw [hc] at h1
        simp at h1
        subst h1
        have := (t'.at_split (a := []) (b := l) (c := text) (p := p) (by simp [hc])).2.2
        rw [cells.2.2.1] at this
        cases l with
        | nil => rfl
        | cons y l => simp at this
    cases hl : ch p with
    | nil => rfl
    | cons c l =>
      have hc : c ∈ ch p := by simp [hl]
      have hne : c ≠ text := fun e => free p (e ▸ hc)
      have : (h.setTextContent p text).parent c = some p := by
        have := t.parent hc
        simp [Heap.setTextContent, Heap.empty, Heap.appendChild, Heap.setParent, Heap.setFirst, Heap.setLast, upd_apply,
          hne, this]
      have hm := t'.mem_of_parent this
      rw [only] at hm
      exact absurd (by simpa using hm) hne
  · obtain ⟨ch', t'⟩ := (empty_iff t p).2 hl
    have e1 := upd_same h.first p none (by rw [(t.links p).first, hl]; rfl)
    have e2 := upd_same h.last p none (by rw [(t.links p).last, hl]; rfl)
    have : h.empty p = h := by
      simp only [Heap.empty, Heap.setFirst, Heap.setLast, e1, e2]
    rw [Heap.setTextContent, this]
    exact ⟨_, appendChild_tree t free⟩

/-- **C03 (before, violated)** `Element::before` on an element with a parent never leaves a consistent tree,
whatever the node that is inserted: the parent's first or last child is forgotten. -/
theorem before_violated (t : Tree h ch) {p e new : Handle} (he : e ∈ ch p) :
    ¬ Consistent (h.before e new) := by
  rintro ⟨ch', t'⟩
  rw [Heap.before, t.parent he] at t'
  simp only at t'
  have t1 := remove_tree t new
  have dn := t1.rest new (remove_free t new)
  generalize hg : h.remove new = g at t' t1 dn
  -- the second removal empties the parent
  have r : ((g.setParent new (some p)).remove new).first p = none ∧ ((g.setParent new (some p)).remove new).last p = none := by
    rw [remove_first, remove_last]
    simp [Heap.setParent, upd_apply, dn.2.1, dn.2.2]
  generalize hk : (g.setParent new (some p)).remove new = k at r
  have cells : ((g.setParent new (some p)).insertBefore p new e).parent new = some p ∧
      (((g.setParent new (some p)).insertBefore p new e).first p = none ∨
       ((g.setParent new (some p)).insertBefore p new e).last p = none) := by
    simp only [Heap.insertBefore, hk]
    cases k.prev e <;> cases hp : (k.setParent new (some p)).prev e <;>
      simp [Heap.setParent, Heap.setPrev, Heap.setNext, Heap.setFirst, upd_apply, r]
  have hm := t'.mem_of_parent cells.1
  have lf := (t'.links p).first
  have ll := (t'.links p).last
  cases hc : ch' p with
  | nil => rw [hc] at hm; simp at hm
  | cons x l =>
    rw [hc] at lf ll
    rcases cells.2 with c1 | c1
    · rw [c1] at lf; simp at lf
    · rw [c1] at ll; simp [List.getLast?_cons] at ll

/-- **C03 (insert before or after itself, violated)** Inserting a node before or after itself makes it its own
sibling. -/
theorem insertSelf_violated (t : Tree h ch) (p c : Handle) :
    ¬ Consistent (h.insertBefore p c c) ∧ ¬ Consistent (h.insertAfter p c c) := by
  have dc := (remove_tree t c).rest c (remove_free t c)
  constructor
  · rintro ⟨ch', t'⟩
    have n1 : (h.insertBefore p c c).next c = some c := by
      simp only [Heap.insertBefore, Heap.setParent, Heap.setPrev, Heap.setNext, Heap.setFirst]
      split <;> simp [upd_apply]
    have n2 : (h.insertBefore p c c).first p = some c ∧ (h.insertBefore p c c).prev c = some c := by
      simp [Heap.insertBefore, Heap.setParent, Heap.setPrev, Heap.setNext, Heap.setFirst, dc.2.1, upd_apply]
    have := (t'.first_prev n2.1).2
    rw [n2.2] at this
    simp at this
  · rintro ⟨ch', t'⟩
    have n2 : (h.insertAfter p c c).last p = some c ∧ (h.insertAfter p c c).next c = some c := by
      simp [Heap.insertAfter, Heap.setParent, Heap.setPrev, Heap.setNext, Heap.setLast, dc.2.2, upd_apply]
    have := (t'.last_next n2.1).2
    rw [n2.2] at this
    simp at this

/-- **C03 (rename, violated)** `set_local_name` puts the new element in the place of the old one but leaves
all children on the old one, which is no longer in the tree. -/
theorem setLocalName_violated (t : Tree h ch) {p e new : Handle} (he : e ∈ ch p) (ne : p ≠ e)
    (free : ∀ q, new ∉ ch q) (fresh : ch new = []) (np : new ≠ p) :
    ∃ ch', Tree (h.setLocalName e new) ch' ∧ new ∈ ch' p ∧ Detached (h.setLocalName e new) e ∧
      ch' new = [] ∧ ch' e = ch e := by
  have hne : new ≠ e := fun hh => free p (hh ▸ he)
  obtain ⟨t', d⟩ := replaceWith_spec t he hne
  have w : ∀ q, (ch q).erase new = ch q := fun q => congrFun (without_of_free free) q
  refine ⟨_, t', ?_, d, ?_, ?_⟩
  · simp only [moveTo, w, if_true, List.mem_map]
    exact ⟨e, he, by simp⟩
  · simp only [moveTo, np, if_false, fresh]; rfl
  · simp only [moveTo, w, if_neg (fun h : e = p => ne h.symm)]

end Verif.Dom
