import Verif.Arena.Props

/-! # C01: every history of allocations, edits, renumberings and reopenings -/

namespace Verif.Arena

open Verif.Dom

variable {ch : Kids} {s : Store} {ind : List Handle}

theorem kids_outside (ins : Inside s.made ch) {a : Handle} (ha : a ∉ s.made) : ch a = [] := by
  cases h : ch a with
  | nil => rfl
  | cons b l => exact absurd (ins a b (by simp [h])).1 ha

/-- **C01 (allocation)** A new node gets the next id; nothing else changes. -/
theorem alloc_spec (t : Tree s.heap ch) (ins : Inside s.made ch) (d : Dense s ind) {a : Handle} (ha : a ∉ s.made) :
    Dense (alloc s ind a).1 (alloc s ind a).2 ∧ Tree (alloc s ind a).1.heap ch ∧ Inside (alloc s ind a).1.made ch ∧
    (alloc s ind a).1.heap.id a = s.made.length ∧ (∀ b, b ≠ a → (alloc s ind a).1.heap.id b = s.heap.id b) := by
  have hind : a ∉ ind := fun h => ha (d.perm.mem_iff.mp h)
  have hk := kids_outside ins ha
  have hdet : Detached s.heap a := t.rest a (fun p hp => ha (ins p a hp).2)
  have hf : s.heap.first a = none := by have := (t.links a).first; simpa [hk] using this
  have hl : s.heap.last a = none := by have := (t.links a).last; simpa [hk] using this
  have e : (alloc s ind a).1.heap = { s.heap with id := upd s.heap.id a ind.length } := by
    simp only [alloc, nodeNew]
    rw [upd_same _ a _ hdet.1, upd_same _ a _ hdet.2.1, upd_same _ a _ hdet.2.2, upd_same _ a _ hf, upd_same _ a _ hl]
  have hlen : ind.length = s.made.length := d.perm.length_eq
  refine ⟨⟨?_, ?_⟩, ?_, ?_, ?_, ?_⟩
  · exact d.perm.append_right [a]
  · intro i b hb
    rw [e]
    simp only [alloc, List.getElem?_append] at hb
    split at hb
    · have hmem : b ∈ ind := List.mem_of_getElem? hb
      have hba : b ≠ a := fun e => hind (e ▸ hmem)
      simp [upd, hba, d.place i b hb]
    · next hge =>
      have : i - ind.length = 0 := by
        rcases Nat.eq_zero_or_pos (i - ind.length) with h | h
        · exact h
        · rw [List.getElem?_eq_none (by simp; omega)] at hb
          simp at hb
      rw [this] at hb
      simp at hb
      subst hb
      simp [upd]
      omega
  · rw [e]
    exact ⟨fun p => ⟨(t.links p).nodup, (t.links p).first, (t.links p).last, (t.links p).child⟩, t.rest⟩
  · intro p c hc
    have := ins p c hc
    simp [alloc, this]
  · rw [e]; simp [upd, hlen]
  · intro b hb; rw [e]; simp [upd, hb]

/-- Filling a table: a node is found at the place of its id once it has been stored. -/
theorem fill (id : Handle → Nat) (n : Nat) : ∀ (l : List Handle) (v : List Handle), v.length = n →
    (∀ a ∈ l, id a < n) → (∀ a ∈ l, ∀ b ∈ l, id a = id b → a = b) →
    ∃ w, l.foldl (fun acc x => acc.bind fun v : List Handle =>
      if id x < v.length then some (v.set (id x) x) else none) (some v) = some w ∧
      w.length = n ∧ (∀ a ∈ l, w[id a]? = some a) ∧ (∀ i, (∀ a ∈ l, id a ≠ i) → w[i]? = v[i]?) := by
  intro l
  induction l with
  | nil => intro v hv _ _; exact ⟨v, rfl, hv, by simp, by simp⟩
  | cons x l ih =>
    intro v hv hlt hinj
    have hx : id x < v.length := by rw [hv]; exact hlt x (by simp)
    obtain ⟨w, e, hw, h1, h2⟩ := ih (v.set (id x) x) (by simp [hv]) (fun a ha => hlt a (by simp [ha]))
      (fun a ha b hb => hinj a (by simp [ha]) b (by simp [hb]))
    refine ⟨w, ?_, hw, ?_, ?_⟩
    · rw [List.foldl_cons]
      simp only [Option.bind_some, hx, if_true]
      exact e
    · intro a ha
      rcases List.mem_cons.mp ha with rfl | ha
      · by_cases hm : a ∈ l
        · exact h1 a hm
        · rw [h2 (id a)]
          · simp [hx]
          · intro b hb he
            have := hinj b (by simp [hb]) a (by simp) he
            exact hm (this ▸ hb)
      · exact h1 a ha
    · intro i hi
      rw [h2 i (fun a ha => hi a (by simp [ha]))]
      rw [List.getElem?_set]
      simp [hi x (by simp)]

/-- **C01 (reopening)** A new allocator over an arena left by a consistent one finds the very same table. -/
theorem new_spec (d : Dense s ind) : new s = some ind := by
  have hlen : ind.length = s.made.length := d.perm.length_eq
  unfold new
  cases hm : s.made with
  | nil =>
    have := d.perm
    rw [hm] at this
    simp [List.Perm.eq_nil this]
  | cons a l =>
    simp only []
    rw [← hm]
    have at' : ∀ b ∈ s.made, ∃ i, ind[i]? = some b ∧ s.heap.id b = i ∧ i < s.made.length := by
      intro b hb
      obtain ⟨i, hi, e⟩ := List.getElem_of_mem (d.perm.mem_iff.mpr hb)
      have h1 : ind[i]? = some b := by rw [List.getElem?_eq_getElem hi, e]
      exact ⟨i, h1, d.place i b h1, by omega⟩
    obtain ⟨w, e, hw, h1, _⟩ := fill s.heap.id s.made.length s.made (List.replicate s.made.length a) (by simp)
      (by intro b hb; obtain ⟨i, _, h2, h3⟩ := at' b hb; omega)
      (by
        intro b hb c hc he
        obtain ⟨i, p1, p2, _⟩ := at' b hb
        obtain ⟨j, q1, q2, _⟩ := at' c hc
        have : i = j := by omega
        subst this
        rw [p1] at q1
        simpa using q1)
    rw [e]
    congr 1
    apply List.ext_getElem?
    intro i
    by_cases hi : i < s.made.length
    · have hii : i < ind.length := by omega
      have h2 : ind[i]? = some ind[i] := List.getElem?_eq_getElem hii
      have h3 := h1 ind[i] (d.perm.mem_iff.mp (List.getElem_mem _))
      rw [d.place i _ h2] at h3
      rw [h3, h2]
    · rw [List.getElem?_eq_none (by omega), List.getElem?_eq_none (by omega)]

/-! ## Edits leave ids alone -/

theorem insertBefore_id (h : Heap) (p c r : Handle) : (h.insertBefore p c r).id = h.id := by
  funext x
  simp only [Heap.insertBefore, Heap.setParent, Heap.setPrev, Heap.setNext, Heap.setFirst, Heap.setLast]
  split <;> exact remove_id h c x

theorem op_id {fuel : Nat} {h h' : Heap} {op : Op} (e : op.run fuel h = some h') : h'.id = h.id := by
  cases op with
  | remove c => simp [Op.run] at e; subst e; funext x; exact remove_id h c x
  | append p c => simp [Op.run] at e; subst e; funext x; exact append_id h p c x
  | insertBefore p n r => simp [Op.run] at e; subst e; exact insertBefore_id h p n r
  | insertAfter p n r => simp [Op.run] at e; subst e; exact insertAfter_id h p n r
  | replaceWith x n => simp [Op.run] at e; subst e; exact replaceWith_id h x n
  | flatten c =>
    simp only [Op.run] at e
    have := Edit.apply_id fuel c h .unwrap
    simp only [Edit.apply, e, Option.getD_some] at this
    exact this

/-- The nodes an edit is given. -/
def handles : Op → List Handle
  | .remove c => [c]
  | .append p c => [p, c]
  | .insertBefore p n r => [p, n, r]
  | .insertAfter p n r => [p, n, r]
  | .replaceWith e n => [e, n]
  | .flatten e => [e]

theorem means_inside {fuel : Nat} {made : List Handle} {op : Op} {ch' : Kids} (ins : Inside made ch)
    (hh : ∀ a ∈ handles op, a ∈ made) (m : Op.Means fuel ch op ch') : Inside made ch' := by
  intro p c hc
  cases m with
  | remove x => exact ins p c (List.mem_of_mem_erase hc)
  | append q x h1 h2 =>
    simp only [moveTo] at hc
    simp [handles] at hh
    split at hc
    · rcases List.mem_append.mp hc with hc | hc
      · exact ins p c (List.mem_of_mem_erase hc)
      · simp at hc; subst_vars; exact hh
    · exact ins p c (List.mem_of_mem_erase hc)
  | insertBefore q n r hr h1 h2 h3 =>
    simp only [moveTo, putBefore] at hc
    simp [handles] at hh
    split at hc
    · obtain ⟨y, hy, hxy⟩ := List.mem_flatMap.mp hc
      have := ins _ _ (List.mem_of_mem_erase hy)
      split at hxy <;> grind
    · exact ins p c (List.mem_of_mem_erase hc)
  | insertAfter q n r hr h1 h2 h3 =>
    simp only [moveTo, putAfter] at hc
    simp [handles] at hh
    split at hc
    · obtain ⟨y, hy, hxy⟩ := List.mem_flatMap.mp hc
      have := ins _ _ (List.mem_of_mem_erase hy)
      split at hxy <;> grind
    · exact ins p c (List.mem_of_mem_erase hc)
  | replaceWith q e n he h1 h2 h3 =>
    simp only [moveTo] at hc
    simp [handles] at hh
    split at hc
    · obtain ⟨y, hy, hxy⟩ := List.mem_map.mp hc
      have := ins _ _ (List.mem_of_mem_erase hy)
      split at hxy <;> grind
    · exact ins p c (List.mem_of_mem_erase hc)
  | flatten q e he hf =>
    simp only at hc
    split at hc
    · simp at hc
    · split at hc
      · obtain ⟨y, hy, hxy⟩ := List.mem_flatMap.mp hc
        have := ins _ _ hy
        split at hxy
        · have := ins _ _ hxy; grind
        · grind
      · exact ins p c hc

theorem means_mono {f g : Nat} {op : Op} {ch' : Kids} (le : f ≤ g) (m : Op.Means f ch op ch') : Op.Means g ch op ch' := by
  cases m with
  | remove => exact .remove ..
  | append => exact .append _ _ ‹_› ‹_›
  | insertBefore => exact .insertBefore _ _ _ ‹_› ‹_› ‹_› ‹_›
  | insertAfter => exact .insertAfter _ _ _ ‹_› ‹_› ‹_› ‹_›
  | replaceWith => exact .replaceWith _ _ _ ‹_› ‹_› ‹_› ‹_›
  | flatten => exact .flatten _ _ ‹_› (Nat.le_trans ‹_› le)

/-- What can happen to a document: a node is allocated, the tree is edited, the nodes are renumbered, the arena
is handed to a new allocator. -/
inductive Act where
  | alloc (a : Handle)
  | edit (op : Op)
  | reorder (root : Handle)
  | reopen

/-- The action as the code does it. -/
def Act.run (fuel : Nat) (st : Store × List Handle) : Act → Option (Store × List Handle)
  | .alloc a => some (Arena.alloc st.1 st.2 a)
  | .edit op => (op.run fuel st.1.heap).map fun h => (⟨st.1.made, h⟩, st.2)
  | .reorder root => (Arena.reorder fuel st.1 st.2 root).map fun r => (r.1, r.2.1)
  | .reopen => (Arena.new st.1).map fun v => (st.1, v)

def actAll (fuel : Nat) : Store × List Handle → List Act → Option (Store × List Handle)
  | st, [] => some st
  | st, a :: as => (a.run fuel st).bind fun st => actAll fuel st as

/-- What callers respect: addresses of new nodes are new, edits are those of `Op.Means` on allocated nodes,
renumbering starts at an allocated node. The list of nodes and the child lists follow. -/
inductive Acts : List Handle → Kids → List Act → List Handle → Kids → Prop
  | nil {made : List Handle} {k : Kids} : Acts made k [] made k
  | alloc {made made' : List Handle} {k k' : Kids} {as : List Act} {a : Handle} : a ∉ made →
      Acts (made ++ [a]) k as made' k' → Acts made k (.alloc a :: as) made' k'
  | edit {made made' : List Handle} {k k1 k' : Kids} {as : List Act} {op : Op} {f : Nat} : Op.Means f k op k1 →
      (∀ a ∈ handles op, a ∈ made) → Acts made k1 as made' k' → Acts made k (.edit op :: as) made' k'
  | reorder {made made' : List Handle} {k k' : Kids} {as : List Act} {root : Handle} : root ∈ made →
      Acts made k as made' k' → Acts made k (.reorder root :: as) made' k'
  | reopen {made made' : List Handle} {k k' : Kids} {as : List Act} :
      Acts made k as made' k' → Acts made k (.reopen :: as) made' k'

theorem acts_run {made made' : List Handle} {ch ch' : Kids} {as : List Act} (w : Acts made ch as made' ch') :
    ∀ (h : Heap) (ind : List Handle), Tree h ch → Acyclic ch → Inside made ch → Dense ⟨made, h⟩ ind →
    ∃ N, ∀ fuel, N ≤ fuel → ∃ s' ind', actAll fuel (⟨made, h⟩, ind) as = some (s', ind') ∧
      s'.made = made' ∧ Dense s' ind' ∧ Tree s'.heap ch' := by
  induction w with
  | nil =>
    intro h ind t _ _ d
    exact ⟨0, fun _ _ => ⟨_, _, rfl, rfl, d, t⟩⟩
  | @alloc made made' k k' as a ha _ ih =>
    intro h ind t ac ins d
    obtain ⟨d', t', ins', _⟩ := alloc_spec (s := ⟨made, h⟩) t ins d ha
    obtain ⟨N, hN⟩ := ih _ _ t' ac ins' d'
    exact ⟨N, fun fuel hf => hN fuel hf⟩
  | @edit made made' k k1 k' as op f m hh _ ih =>
    intro h ind t ac ins d
    -- the links after the edit do not depend on the fuel, but the heap term does: use the one of fuel `f`
    have ac1 := (Op.step t ac m).2
    have d1 : ∀ g : Heap, g.id = h.id → Dense ⟨made, g⟩ ind := fun g e => ⟨d.perm, by
      intro i a hi; show g.id a = i; rw [e]; exact d.place i a hi⟩
    obtain ⟨⟨h1, e1, t1⟩, _⟩ := Op.step t ac m
    have same : ∀ fuel, f ≤ fuel → op.run fuel h = some h1 := by
      intro fuel hf
      cases op with
      | flatten e =>
        have mono : ∀ (par : Option Handle) (f g : Nat), f ≤ g → ∀ (x : Heap) (o : Option Handle) (y : Heap),
            Heap.reparent par f x o = some y → Heap.reparent par g x o = some y := by
          intro par f
          induction f with
          | zero =>
            intro g _ x o y e
            cases o with
            | none => cases g <;> simpa [Heap.reparent] using e
            | some z => simp [Heap.reparent] at e
          | succ f ih =>
            intro g hg x o y e
            obtain ⟨g, rfl⟩ : ∃ g', g = g' + 1 := ⟨g - 1, by omega⟩
            cases o with
            | none => simpa [Heap.reparent] using e
            | some z =>
              simp only [Heap.reparent] at e ⊢
              exact ih g (by omega) _ _ _ e
        simp only [Op.run, Heap.flatten] at e1 ⊢
        cases hr : Heap.reparent (h.parent e) f (h.setParent e none) ((h.setParent e none).first e) with
        | none => simp [hr] at e1
        | some y =>
          rw [mono _ f fuel hf _ _ _ hr]
          simpa [hr] using e1
      | _ => exact e1
    obtain ⟨N, hN⟩ := ih h1 ind t1 ac1 (means_inside ins hh m) (d1 h1 (op_id e1))
    refine ⟨N + f, fun fuel hf => ?_⟩
    obtain ⟨s', ind', e2, h2⟩ := hN fuel (by omega)
    refine ⟨s', ind', ?_, h2⟩
    simp [actAll, Act.run, same fuel (by omega), e2]
  | @reorder made made' k k' as root hr _ ih =>
    intro h ind t ac ins d
    obtain ⟨doc, s1, ind1, N1, hs, e1, eind, d1, em, eh⟩ := reorder_spec (s := ⟨made, h⟩) t ac ins d hr
    have t1 : Tree s1.heap k := by
      rw [eh]
      exact ⟨fun p => ⟨(t.links p).nodup, (t.links p).first, (t.links p).last, (t.links p).child⟩, t.rest⟩
    have d1' : Dense ⟨made, s1.heap⟩ ind1 := ⟨by rw [← show s1.made = made from em]; exact d1.perm, d1.place⟩
    obtain ⟨N2, hN2⟩ := ih s1.heap ind1 t1 ac ins d1'
    refine ⟨N1 + N2, fun fuel hf => ?_⟩
    obtain ⟨s', ind', e2, h2⟩ := hN2 fuel (by omega)
    refine ⟨s', ind', ?_, h2⟩
    have : (⟨made, s1.heap⟩ : Store) = s1 := by rw [← show s1.made = made from em]
    rw [this] at e2
    simp [actAll, Act.run, e1 fuel (by omega), e2]
  | @reopen made made' k k' as _ ih =>
    intro h ind t ac ins d
    obtain ⟨N, hN⟩ := ih h ind t ac ins d
    refine ⟨N, fun fuel hf => ?_⟩
    obtain ⟨s', ind', e2, h2⟩ := hN fuel hf
    exact ⟨s', ind', by simp [actAll, Act.run, new_spec d, e2], h2⟩

/-- An arena without nodes. -/
def start : Store := ⟨[], fresh⟩

/-- **C01** Whatever a document goes through from an empty arena on — allocations, edits of the tree,
renumberings from any node, handing the arena to a new allocator — the code gets through it, and afterwards
the ids of the `n` nodes are `0..n-1`, the id of every node leads back to that node, every number below `n`
leads to a node, no other number does, and the assertion never fires. -/
theorem history_spec {as : List Act} {made : List Handle} {ch : Kids} (w : Acts [] (fun _ => []) as made ch) :
    ∃ N, ∀ fuel, N ≤ fuel → ∃ s ind, actAll fuel (start, []) as = some (s, ind) ∧ s.made = made ∧
      (made.map s.heap.id).Perm (List.range made.length) ∧
      (∀ a ∈ made, get s ind (s.heap.id a) = .ok (some a)) ∧
      (∀ i, i < made.length → ∃ a ∈ made, get s ind i = .ok (some a) ∧ s.heap.id a = i) ∧
      (∀ i, made.length ≤ i → get s ind i = .ok none) := by
  obtain ⟨N, hN⟩ := acts_run w fresh [] fresh_tree fresh_acyclic (by intro p c h; simp at h)
    ⟨List.Perm.refl _, by intro i a h; simp at h⟩
  refine ⟨N, fun fuel hf => ?_⟩
  obtain ⟨s, ind, e, em, d, _⟩ := hN fuel hf
  obtain ⟨v1, v2, v3, v4⟩ := d.visible
  rw [em] at v1 v2 v3 v4
  exact ⟨s, ind, e, em, v1, v2, v3, v4⟩

/-- **C01 (cloned allocator, violated)** `Allocator` derives `Clone` (arena.rs:23), which copies the table but
shares the arena. If both copies allocate, two nodes have the same id. -/
theorem clone_violated : ∃ (s : Store) (ind : List Handle), Dense s ind ∧
    let a := alloc s ind 7          -- the original allocates
    let b := alloc a.1 ind 8        -- its earlier clone allocates
    b.1.heap.id 7 = b.1.heap.id 8 ∧ 7 ∈ b.1.made ∧ 8 ∈ b.1.made := by
  exact ⟨start, [], ⟨List.Perm.refl _, by intro i a h; simp at h⟩, by decide, by decide, by decide⟩

/-! ## Concrete cases -/

/-- Root 5 with children 2, 9 where 2 has child 4; 1 is outside: renumbering from 5. -/
def sample : List Act :=
  [.alloc 1, .alloc 2, .alloc 9, .alloc 5, .alloc 4, .edit (.append 5 2), .edit (.append 5 9), .edit (.append 2 4)]

def sampleRun : Option (Store × List Handle) := actAll 20 (start, []) sample

example : (sampleRun.bind fun st => reorder 20 st.1 st.2 5).map (fun r => (r.2.1, r.2.2)) =
    some ([5, 2, 4, 9, 1], 4) := by decide

example : (sampleRun.bind fun st => reorder 20 st.1 st.2 5).map
    (fun r => ([5, 2, 4, 9, 1].map r.1.heap.id, [1, 2, 9, 5, 4].map (fun a => (get r.1 r.2.1 (r.1.heap.id a)).toOption))) =
    some ([0, 1, 2, 3, 4], [1, 2, 9, 5, 4].map (fun a => some (some a))) := by decide

example : (sampleRun.bind fun st => (reorder 20 st.1 st.2 2).bind fun r => new r.1) = some [2, 4, 1, 9, 5] := by
  decide

example : ∃ made ch, Acts [] (fun _ => []) [.alloc 3, .alloc 4, .edit (.append 3 4), .reorder 4, .reopen] made ch ∧
    made = [3, 4] ∧ ch 3 = [4] :=
  ⟨_, _, .alloc (by decide) (.alloc (by decide) (.edit (f := 0) (.append 3 4 (by decide) (fun d => by
    cases d with
    | child h => simp at h
    | step h _ => simp at h)) (by decide) (.reorder (by decide) (.reopen .nil)))), rfl, rfl⟩

end Verif.Arena
