import Verif.Arena.Lemmas

/-! # C01, C02: allocation ids -/

namespace Verif.Arena

open Verif.Dom

variable {ch : Kids} {s : Store} {ind : List Handle}

/-- The table of an allocator holds every node once, each at the place of its id. -/
structure Dense (s : Store) (ind : List Handle) : Prop where
  perm : ind.Perm s.made
  place : ∀ i a, ind[i]? = some a → s.heap.id a = i

/-- No node outside of the arena takes part in the tree. -/
def Inside (made : List Handle) (ch : Kids) : Prop := ∀ p c, c ∈ ch p → p ∈ made ∧ c ∈ made

theorem Dense.nodup (d : Dense s ind) : ind.Nodup := by
  rw [List.Nodup, List.pairwise_iff_getElem]
  intro i j hi hj hij he
  have e1 := d.place i _ (List.getElem?_eq_getElem hi)
  have e2 := d.place j _ (List.getElem?_eq_getElem hj)
  rw [he] at e1
  omega

theorem Dense.map_id (d : Dense s ind) : ind.map s.heap.id = List.range ind.length := by
  apply List.ext_getElem?
  intro i
  rw [List.getElem?_map]
  by_cases hi : i < ind.length
  · have h1 : ind[i]? = some ind[i] := List.getElem?_eq_getElem hi
    rw [h1]
    simp [hi, d.place i _ h1]
  · simp [List.getElem?_eq_none (Nat.le_of_not_lt hi)]
    omega

/-- What a user sees of a consistent table: the ids of the nodes are `0..n-1`, looking up the id of a node
returns the node, looking up any number never trips the assertion. -/
theorem Dense.visible (d : Dense s ind) :
    (s.made.map s.heap.id).Perm (List.range s.made.length) ∧
    (∀ a ∈ s.made, get s ind (s.heap.id a) = .ok (some a)) ∧
    (∀ i, i < s.made.length → ∃ a ∈ s.made, get s ind i = .ok (some a) ∧ s.heap.id a = i) ∧
    (∀ i, s.made.length ≤ i → get s ind i = .ok none) := by
  have hl : ind.length = s.made.length := d.perm.length_eq
  refine ⟨?_, ?_, ?_, ?_⟩
  · rw [← hl, ← d.map_id]
    exact (d.perm.map _).symm
  · intro a ha
    obtain ⟨i, hi, e⟩ := List.getElem_of_mem (d.perm.mem_iff.mpr ha)
    have h1 : ind[i]? = some a := by rw [List.getElem?_eq_getElem hi, e]
    have := d.place i a h1
    simp [get, this, h1]
  · intro i hi
    have h1 : ind[i]? = some ind[i] := List.getElem?_eq_getElem (by omega)
    refine ⟨ind[i], d.perm.mem_iff.mp (List.getElem_mem _), ?_, d.place i _ h1⟩
    simp [get, h1, d.place i _ h1]
  · intro i hi
    simp [get, List.getElem?_eq_none (show ind.length ≤ i by omega)]

/-! ## Renumbering -/

theorem foldl_setId (l : List Handle) (v : Nat) : ∀ (h : Heap),
    (l.foldl (fun h n => setId h n v) h) = { h with id := fun x => if x ∈ l then v else h.id x } := by
  induction l with
  | nil => intro h; simp
  | cons a l ih =>
    intro h
    rw [List.foldl_cons, ih]
    simp only [setId, upd]
    congr 1
    funext x
    by_cases h1 : x ∈ l <;> by_cases h2 : x = a <;> simp [h1, h2]

theorem assign_id (l : List Handle) : ∀ (h : Heap) (i : Nat), l.Nodup →
    (∀ x, x ∉ l → (assign h l i).id x = h.id x) ∧ (∀ j a, l[j]? = some a → (assign h l i).id a = i + j) := by
  induction l with
  | nil => intro h i _; simp [assign]
  | cons b l ih =>
    intro h i nd
    have nd' := List.nodup_cons.mp nd
    obtain ⟨h1, h2⟩ := ih (setId h b i) (i + 1) nd'.2
    refine ⟨?_, ?_⟩
    · intro x hx
      simp at hx
      rw [assign, h1 x hx.2]
      simp [setId, upd, hx.1]
    · intro j a hj
      cases j with
      | zero =>
        simp at hj
        subst hj
        rw [assign, h1 _ nd'.1]
        simp [setId, upd]
      | succ j =>
        simp at hj
        rw [assign, h2 j a hj]
        omega

theorem assign_links (l : List Handle) : ∀ (h : Heap) (i : Nat),
    assign h l i = { h with id := (assign h l i).id } := by
  induction l with
  | nil => intro h i; rfl
  | cons a l ih =>
    intro h i
    rw [assign, ih]
    rfl

theorem outside_loop (len : Nat) (l : List Handle) : ∀ (h : Heap) (i : Nat), l.Nodup →
    l.foldl (outside len) (h, i) = (assign h (l.filter (fun x => h.id x == len)) i,
      i + (l.filter (fun x => h.id x == len)).length) := by
  induction l with
  | nil => intro h i _; rfl
  | cons a l ih =>
    intro h i nd
    have nd' := List.nodup_cons.mp nd
    rw [List.foldl_cons]
    by_cases ha : h.id a = len
    · have : outside len (h, i) a = (setId h a i, i + 1) := by simp [outside, ha]
      rw [this, ih _ _ nd'.2]
      have e : l.filter (fun x => (setId h a i).id x == len) = l.filter (fun x => h.id x == len) := by
        apply List.filter_congr
        intro x hx
        have : x ≠ a := fun e => nd'.1 (e ▸ hx)
        simp [setId, upd, this]
      rw [e]
      simp [ha, assign]
      omega
    · have : outside len (h, i) a = (h, i) := by simp [outside, ha]
      rw [this, ih _ _ nd'.2]
      simp [ha]

/-- **C02** Renumbering from `root` ends, leaves every link as it was, and the table afterwards is the document
order of root's tree followed by all other nodes in their previous order, each node carrying its place as id;
the returned number is the size of the tree. -/
theorem reorder_spec (t : Tree s.heap ch) (ac : Acyclic ch) (ins : Inside s.made ch) (d : Dense s ind)
    {root : Handle} (hr : root ∈ s.made) :
    ∃ doc s' ind' N, Spans ch [root] doc ∧
      (∀ fuel, N ≤ fuel → reorder fuel s ind root = some (s', ind', doc.length)) ∧
      ind' = doc ++ ind.filter (fun x => x ∉ doc) ∧ Dense s' ind' ∧
      s'.made = s.made ∧ s'.heap = { s.heap with id := s'.heap.id } := by
  obtain ⟨doc, hd⟩ := spans_exists ac s.made (fun p c hc => (ins p c hc).2) _ root (Nat.le_refl _)
  obtain ⟨N, hN⟩ := number_eq hd
  have un : ∀ p q c, c ∈ ch p → c ∈ ch q → p = q := fun p q c h1 h2 => t.unique h1 h2
  have ndd : doc.Nodup := hd.nodup_root un (fun p => (t.links p).nodup) ac
  have hroot : root ∈ doc := (hd.mem_iff root).mpr (.inl (by simp))
  have sub : ∀ x ∈ doc, x ∈ ind := by
    intro x hx
    refine d.perm.mem_iff.mpr ?_
    rcases (hd.mem_iff x).mp hx with h | ⟨a, _, h⟩
    · simp at h; exact h ▸ hr
    · obtain ⟨p, hp, _⟩ := desc_last h
      exact (ins p x hp).2
  have hlen : ind.length = s.made.length := d.perm.length_eq
  let rest := ind.filter (fun x => x ∉ doc)
  have ndr : rest.Nodup := d.nodup.filter _
  have dis : ∀ x ∈ doc, x ∉ rest := by intro x hx; simp [rest, hx]
  have perm : (doc ++ rest).Perm ind := by
    rw [List.perm_ext_iff_of_nodup _ d.nodup]
    · intro x
      by_cases hx : x ∈ doc
      · simp [hx, sub x hx]
      · simp [hx, rest]
    · rw [List.nodup_append]
      exact ⟨ndd, ndr, fun x hx y hy e => dis x hx (e ▸ hy)⟩
  have doclen : doc.length ≤ s.made.length := by
    have := perm.length_eq
    simp at this
    omega
  have docpos : 0 < doc.length := List.length_pos_of_mem hroot
  -- the nodes that still carry the out-of-range id are those outside of the tree
  let h1 : Heap := { s.heap with id := fun x => if x ∈ ind then s.made.length else s.heap.id x }
  let h2 := assign h1 doc 0
  obtain ⟨a1, a2⟩ := assign_id doc h1 0 ndd
  have ef : ind.filter (fun x => h2.id x == s.made.length) = ind.filter (fun x => x ∉ doc) := by
    apply List.filter_congr
    intro x hx
    by_cases hxd : x ∈ doc
    · obtain ⟨j, hj, e⟩ := List.getElem_of_mem hxd
      have := a2 j x (by rw [List.getElem?_eq_getElem hj, e])
      have : h2.id x ≠ s.made.length := by
        show (assign h1 doc 0).id x ≠ _
        omega
      simp [hxd, this]
    · have := a1 x hxd
      have : h2.id x = s.made.length := by
        show (assign h1 doc 0).id x = _
        rw [this]
        simp [h1, hx]
      simp [hxd, this]
  let h3 := assign h2 rest doc.length
  obtain ⟨b1, b2⟩ := assign_id rest h2 doc.length ndr
  have place : ∀ i a, (doc ++ rest)[i]? = some a → h3.id a = i := by
    intro i a hi
    rw [List.getElem?_append] at hi
    split at hi
    · have hmem : a ∈ doc := List.mem_of_getElem? hi
      have := b1 a (dis a hmem)
      have := a2 i a hi
      show (assign h2 rest doc.length).id a = i
      simp_all [h2]
    · have := b2 _ a hi
      show (assign h2 rest doc.length).id a = i
      omega
  have sorted : (doc ++ rest).Pairwise (fun a b => decide (h3.id a ≤ h3.id b) = true) := by
    rw [List.pairwise_iff_getElem]
    intro i j hi hj hij
    have e1 := place i _ (List.getElem?_eq_getElem hi)
    have e2 := place j _ (List.getElem?_eq_getElem hj)
    simp only [decide_eq_true_eq, e1, e2]
    omega
  have srt : sortBy (fun a b => decide (h3.id a ≤ h3.id b)) ind = doc ++ rest := by
    refine List.Perm.eq_of_pairwise (le := fun a b => decide (h3.id a ≤ h3.id b) = true) ?_
      (sortBy_pairwise ?_ ?_ ind) sorted ((sortBy_perm _).trans perm.symm)
    · intro a b ha hb hab hba
      simp only [decide_eq_true_eq] at hab hba
      have ha' : a ∈ doc ++ rest := perm.mem_iff.mpr ((sortBy_perm _).mem_iff.mp ha)
      obtain ⟨i, hi, e⟩ := List.getElem_of_mem ha'
      obtain ⟨j, hj, e'⟩ := List.getElem_of_mem hb
      have p1 := place i a (by rw [List.getElem?_eq_getElem hi, e])
      have p2 := place j b (by rw [List.getElem?_eq_getElem hj, e'])
      have : i = j := by omega
      subst this
      rw [← e, ← e']
    · intro a b c; simp; omega
    · intro a b; simp; omega
  refine ⟨doc, ⟨s.made, h3⟩, doc ++ rest, N, hd, ?_, rfl, ⟨perm.trans d.perm, place⟩, rfl, ?_⟩
  · intro fuel hf
    simp only [reorder, foldl_setId]
    rw [hN fuel hf]
    · simp only [Option.map_some]
      rw [show 0 + doc.length - 1 + 1 = doc.length by omega, outside_loop _ _ _ _ d.nodup]
      simp only
      rw [ef]
      show some ((⟨s.made, h3⟩ : Store), sortBy (fun a b => decide (h3.id a ≤ h3.id b)) ind, doc.length) = _
      rw [srt]
    · intro p; exact (t.links p).first
    · intro p pre c post e
      exact ((t.links p).child pre c post e).2.2
  · have key : ∀ (g : Heap) (X : Handle → Nat), g = { h1 with id := g.id } →
        ({ g with id := X } : Heap) = { s.heap with id := X } := by
      intro g X e
      rw [e]
    exact (assign_links rest h2 doc.length).trans (key h2 _ (assign_links doc h1 0))

end Verif.Arena
