import Verif.Tree.Spec

/-! # Lemmas about trees -/

namespace Verif.Tree

variable {A ε : Type}

/-- The entry of a lineage in an outline, with the node edited. -/
def entry (f : Node A → Node A) (l : List (Node A)) : Option (Nat × Node A) :=
  l.head?.map fun n => (l.length, f n.bare)

theorem outline_eq (doc : List (Node A)) : outline doc = (linesAll [] doc).filterMap (entry id) := rfl

theorem remaining_eq (drop : Node A → Bool) (f : Node A → Node A) (doc : List (Node A)) :
    remaining drop f doc = ((linesAll [] doc).filter fun l => !l.any drop).filterMap (entry f) := rfl

mutual
/-- The visitor of a job that does not fail. -/
def prune (d : Node A → Option (List A)) : Node A → List (Node A)
  | .elem n as ks => rebuild n (pruneAll d ks) (d (.elem n as ks))
  | .text s => keepLeaf (.text s) (d (.text s))
  | .css s => keepLeaf (.css s) (d (.css s))
  | .comment s => keepLeaf (.comment s) (d (.comment s))
  | .pi t x => keepLeaf (.pi t x) (d (.pi t x))
def pruneAll (d : Node A → Option (List A)) : List (Node A) → List (Node A)
  | [] => []
  | n :: ns => prune d n ++ pruneAll d ns
end

theorem lines_self (anc : List (Node A)) (n : Node A) : (n :: anc) ∈ n.lines anc := by
  cases n <;> simp [Node.lines]

/-- The nodes below a list of nodes, whatever their ancestors. -/
def Below (ns : List (Node A)) (n : Node A) : Prop := ∃ anc l, (n :: l) ∈ linesAll anc ns

mutual
theorem lines_shift (a b : List (Node A)) (n m : Node A) (l : List (Node A)) (h : (m :: l) ∈ n.lines a) :
    ∃ l', (m :: l') ∈ n.lines b := by
  match n with
  | .elem nm as ks =>
    simp only [Node.lines, List.mem_cons] at h ⊢
    rcases h with h | h
    · simp only [List.cons.injEq] at h
      exact ⟨b, Or.inl (by rw [h.1])⟩
    · obtain ⟨l', h'⟩ := linesAll_shift (.elem nm as ks :: a) (.elem nm as ks :: b) ks m l h
      exact ⟨l', Or.inr h'⟩
  | .text s => simp only [Node.lines, List.mem_singleton, List.cons.injEq] at h ⊢; exact ⟨b, h.1, rfl⟩
  | .css s => simp only [Node.lines, List.mem_singleton, List.cons.injEq] at h ⊢; exact ⟨b, h.1, rfl⟩
  | .comment s => simp only [Node.lines, List.mem_singleton, List.cons.injEq] at h ⊢; exact ⟨b, h.1, rfl⟩
  | .pi s d => simp only [Node.lines, List.mem_singleton, List.cons.injEq] at h ⊢; exact ⟨b, h.1, rfl⟩
theorem linesAll_shift (a b : List (Node A)) (ns : List (Node A)) (m : Node A) (l : List (Node A))
    (h : (m :: l) ∈ linesAll a ns) : ∃ l', (m :: l') ∈ linesAll b ns := by
  match ns with
  | [] => simp [linesAll] at h
  | n :: ns =>
    simp only [linesAll, List.mem_append] at h ⊢
    rcases h with h | h
    · obtain ⟨l', h'⟩ := lines_shift a b n m l h
      exact ⟨l', Or.inl h'⟩
    · obtain ⟨l', h'⟩ := linesAll_shift a b ns m l h
      exact ⟨l', Or.inr h'⟩
end

theorem below_occurs {doc : List (Node A)} {n : Node A} : Below doc n ↔ Occurs doc n := by
  constructor
  · rintro ⟨anc, l, h⟩
    exact linesAll_shift anc [] doc n l h
  · rintro ⟨l, h⟩
    exact ⟨[], l, h⟩

theorem below_cons {n m : Node A} {ns : List (Node A)} :
    Below (n :: ns) m ↔ m = n ∨ Below n.kids m ∨ Below ns m := by
  constructor
  · rintro ⟨anc, l, h⟩
    simp only [linesAll, List.mem_append] at h
    rcases h with h | h
    · cases n with
      | elem nm as ks =>
        simp only [Node.lines, List.mem_cons, List.cons.injEq] at h
        rcases h with h | h
        · exact Or.inl h.1
        · exact Or.inr (Or.inl ⟨_, _, h⟩)
      | _ =>
        simp only [Node.lines, List.mem_singleton, List.cons.injEq] at h
        exact Or.inl h.1
    · exact Or.inr (Or.inr ⟨_, _, h⟩)
  · rintro (h | h | h)
    · exact ⟨[], [], by simp [linesAll, h, lines_self]⟩
    · obtain ⟨anc, l, h⟩ := h
      cases n with
      | elem nm as ks =>
        obtain ⟨l', h'⟩ := linesAll_shift anc [.elem nm as ks] ks m l h
        exact ⟨[], l', by simp [linesAll, Node.lines, h']⟩
      | _ => simp [Node.kids, linesAll] at h
    · obtain ⟨anc, l, h⟩ := h
      exact ⟨anc, l, by simp [linesAll, h]⟩

theorem occurs_cons {n m : Node A} {ns : List (Node A)} :
    Occurs (n :: ns) m ↔ m = n ∨ Occurs n.kids m ∨ Occurs ns m := by
  simp only [← below_occurs, below_cons]

theorem not_occurs_nil {m : Node A} : ¬ Occurs [] m := by
  rintro ⟨l, h⟩
  simp [lines, linesAll] at h

theorem occurs_append {m : Node A} {a b : List (Node A)} : Occurs (a ++ b) m ↔ Occurs a m ∨ Occurs b m := by
  induction a with
  | nil => simp [not_occurs_nil]
  | cons x xs ih => simp only [List.cons_append, occurs_cons, ih, or_assoc]

theorem mem_occurs {m : Node A} {ns : List (Node A)} (h : m ∈ ns) : Occurs ns m := by
  induction ns with
  | nil => simp at h
  | cons n ns ih =>
    rcases List.mem_cons.1 h with rfl | h
    · exact occurs_cons.2 (Or.inl rfl)
    · exact occurs_cons.2 (Or.inr (Or.inr (ih h)))

mutual
theorem visit_ok (h : Hook A ε) (d : Node A → Option (List A)) (n : Node A)
    (hd : ∀ m, Occurs [n] m → h m = .ok (d m)) : visit h n = .ok (prune d n) := by
  match n with
  | .elem nm as ks =>
    have h1 : h (.elem nm as ks) = .ok (d (.elem nm as ks)) := hd _ (occurs_cons.2 (Or.inl rfl))
    have h2 := visitAll_ok h d ks fun m hm => hd m (occurs_cons.2 (Or.inr (Or.inl hm)))
    simp only [visit, prune, h1, h2]
    rfl
  | .text s => simp only [visit, prune, hd (.text s) (occurs_cons.2 (Or.inl rfl))]; rfl
  | .css s => simp only [visit, prune, hd (.css s) (occurs_cons.2 (Or.inl rfl))]; rfl
  | .comment s => simp only [visit, prune, hd (.comment s) (occurs_cons.2 (Or.inl rfl))]; rfl
  | .pi t x => simp only [visit, prune, hd (.pi t x) (occurs_cons.2 (Or.inl rfl))]; rfl
theorem visitAll_ok (h : Hook A ε) (d : Node A → Option (List A)) (ns : List (Node A))
    (hd : ∀ m, Occurs ns m → h m = .ok (d m)) : visitAll h ns = .ok (pruneAll d ns) := by
  match ns with
  | [] => rfl
  | n :: ns =>
    have h1 := visit_ok h d n fun m hm => hd m (by
      rw [occurs_cons] at hm ⊢
      rcases hm with hm | hm | hm
      · exact Or.inl hm
      · exact Or.inr (Or.inl hm)
      · exact absurd hm not_occurs_nil)
    have h2 := visitAll_ok h d ns fun m hm => hd m (occurs_cons.2 (Or.inr (Or.inr hm)))
    simp only [visitAll, pruneAll, h1, h2]
    rfl
end

mutual
theorem visit_fails (h : Hook A ε) (n m : Node A) (e : ε) (hm : Occurs [n] m) (he : h m = .error e) :
    ∃ e', visit h n = .error e' := by
  rw [occurs_cons] at hm
  match n with
  | .elem nm as ks =>
    rcases hm with hm | hm | hm
    · subst hm
      exact ⟨e, by simp only [visit, he]; rfl⟩
    · obtain ⟨e', h'⟩ := visitAll_fails h ks m e hm he
      cases hn : h (.elem nm as ks) with
      | error e'' => exact ⟨e'', by simp only [visit, hn]; rfl⟩
      | ok r => exact ⟨e', by simp only [visit, hn, h']; rfl⟩
    · exact absurd hm not_occurs_nil
  | .text s =>
    rcases hm with hm | hm | hm
    · subst hm; exact ⟨e, by simp only [visit, he]; rfl⟩
    · exact absurd hm not_occurs_nil
    · exact absurd hm not_occurs_nil
  | .css s =>
    rcases hm with hm | hm | hm
    · subst hm; exact ⟨e, by simp only [visit, he]; rfl⟩
    · exact absurd hm not_occurs_nil
    · exact absurd hm not_occurs_nil
  | .comment s =>
    rcases hm with hm | hm | hm
    · subst hm; exact ⟨e, by simp only [visit, he]; rfl⟩
    · exact absurd hm not_occurs_nil
    · exact absurd hm not_occurs_nil
  | .pi t d =>
    rcases hm with hm | hm | hm
    · subst hm; exact ⟨e, by simp only [visit, he]; rfl⟩
    · exact absurd hm not_occurs_nil
    · exact absurd hm not_occurs_nil
theorem visitAll_fails (h : Hook A ε) (ns : List (Node A)) (m : Node A) (e : ε) (hm : Occurs ns m)
    (he : h m = .error e) : ∃ e', visitAll h ns = .error e' := by
  match ns with
  | [] => exact absurd hm not_occurs_nil
  | n :: ns =>
    rw [occurs_cons] at hm
    cases h1 : visit h n with
    | error e' => exact ⟨e', by simp only [visitAll, h1]; rfl⟩
    | ok a =>
      have hm' : Occurs ns m := by
        rcases hm with hm | hm | hm
        · obtain ⟨e', h'⟩ := visit_fails h n m e (occurs_cons.2 (Or.inl hm)) he
          rw [h1] at h'; cases h'
        · obtain ⟨e', h'⟩ := visit_fails h n m e (occurs_cons.2 (Or.inr (Or.inl hm))) he
          rw [h1] at h'; cases h'
        · exact hm
      obtain ⟨e', h'⟩ := visitAll_fails h ns m e hm' he
      exact ⟨e', by simp only [visitAll, h1, h']; rfl⟩
end

/-- A dropped ancestor leaves nothing. -/
theorem filter_dropped {drop : Node A → Bool} {ls : List (List (Node A))} (h : ∀ l ∈ ls, l.any drop = true) :
    (ls.filter fun l => !l.any drop) = [] := by
  rw [List.filter_eq_nil_iff]
  intro l hl
  simp [h l hl]

mutual
theorem lines_suffix (anc : List (Node A)) (n : Node A) : ∀ l ∈ n.lines anc, ∃ p, p ≠ [] ∧ l = p ++ anc := by
  match n with
  | .elem nm as ks =>
    intro l hl
    simp only [Node.lines, List.mem_cons] at hl
    rcases hl with hl | hl
    · exact ⟨[_], by simp, by rw [hl]; rfl⟩
    · obtain ⟨p, hp, e⟩ := linesAll_suffix _ ks l hl
      exact ⟨p ++ [.elem nm as ks], by simp, by rw [e]; simp⟩
  | .text s => intro l hl; exact ⟨[.text s], by simp, by simpa [Node.lines] using hl⟩
  | .css s => intro l hl; exact ⟨[.css s], by simp, by simpa [Node.lines] using hl⟩
  | .comment s => intro l hl; exact ⟨[.comment s], by simp, by simpa [Node.lines] using hl⟩
  | .pi t d => intro l hl; exact ⟨[.pi t d], by simp, by simpa [Node.lines] using hl⟩
theorem linesAll_suffix (anc ns : List (Node A)) : ∀ l ∈ linesAll anc ns, ∃ p, p ≠ [] ∧ l = p ++ anc := by
  match ns with
  | [] => intro l hl; simp [linesAll] at hl
  | n :: ns =>
    intro l hl
    simp only [linesAll, List.mem_append] at hl
    rcases hl with hl | hl
    · exact lines_suffix anc n l hl
    · exact linesAll_suffix anc ns l hl
end

theorem entry_cons (f : Node A → Node A) (n : Node A) (anc : List (Node A)) :
    entry f (n :: anc) = some (anc.length + 1, f n.bare) := by simp [entry]

/-- What the decision `d` makes of a node, apart from its children. -/
structure Edits (d : Node A → Option (List A)) (f : Node A → Node A) : Prop where
  elem : ∀ n as ks as', d (.elem n as ks) = some as' → f (.elem n as []) = .elem n as' []
  leaf : ∀ x, (∀ n as ks, x ≠ .elem n as ks) → f x = x

theorem leaf_remaining {d : Node A → Option (List A)} {f : Node A → Node A} (hf : Edits d f) (x : Node A)
    (hx : ∀ n as ks, x ≠ .elem n as ks) (hl : ∀ anc, x.lines anc = [x :: anc]) (hb : x.bare = x)
    (anc anc' : List (Node A)) (hlen : anc.length = anc'.length)
    (ha : anc.any (fun n => (d n).isNone) = false) :
    (linesAll anc' (keepLeaf x (d x))).filterMap (entry id) =
      ((x.lines anc).filter fun l => !l.any fun n => (d n).isNone).filterMap (entry f) := by
  rw [hl]
  cases h : d x with
  | none => simp [keepLeaf, linesAll, h]
  | some as => simp [keepLeaf, linesAll, hl, h, ha, entry, hb, hf.leaf x hx, hlen]

mutual
theorem prune_remaining {d : Node A → Option (List A)} {f : Node A → Node A} (hf : Edits d f) (n : Node A)
    (anc anc' : List (Node A)) (hlen : anc.length = anc'.length)
    (ha : anc.any (fun n => (d n).isNone) = false) :
    (linesAll anc' (prune d n)).filterMap (entry id) =
      ((n.lines anc).filter fun l => !l.any fun n => (d n).isNone).filterMap (entry f) := by
  match n with
  | .elem nm as ks =>
    cases h : d (.elem nm as ks) with
    | none =>
      rw [filter_dropped]
      · simp [prune, h, rebuild, linesAll]
      · intro l hl
        simp only [Node.lines, List.mem_cons] at hl
        rcases hl with hl | hl
        · simp [hl, h]
        · obtain ⟨p, -, e⟩ := linesAll_suffix _ ks l hl
          simp [e, h]
    | some as' =>
      have ih := pruneAll_remaining hf ks (.elem nm as ks :: anc) (.elem nm as' (pruneAll d ks) :: anc')
        (by simp [hlen]) (by simp [h, ha])
      simp only [prune, h, rebuild, linesAll, Node.lines, List.append_nil, List.filterMap_cons, entry_cons]
      rw [ih, List.filter_cons_of_pos (by simp [h, ha]), List.filterMap_cons, entry_cons]
      simp only [Node.bare, id, hf.elem _ _ _ _ h, hlen]
  | .text s => exact leaf_remaining hf _ (by intros; simp) (fun _ => rfl) rfl anc anc' hlen ha
  | .css s => exact leaf_remaining hf _ (by intros; simp) (fun _ => rfl) rfl anc anc' hlen ha
  | .comment s => exact leaf_remaining hf _ (by intros; simp) (fun _ => rfl) rfl anc anc' hlen ha
  | .pi t x => exact leaf_remaining hf _ (by intros; simp) (fun _ => rfl) rfl anc anc' hlen ha
theorem pruneAll_remaining {d : Node A → Option (List A)} {f : Node A → Node A} (hf : Edits d f)
    (ns : List (Node A)) (anc anc' : List (Node A)) (hlen : anc.length = anc'.length)
    (ha : anc.any (fun n => (d n).isNone) = false) :
    (linesAll anc' (pruneAll d ns)).filterMap (entry id) =
      ((linesAll anc ns).filter fun l => !l.any fun n => (d n).isNone).filterMap (entry f) := by
  match ns with
  | [] => simp [pruneAll, linesAll]
  | n :: ns =>
    have h1 := prune_remaining hf n anc anc' hlen ha
    have h2 := pruneAll_remaining hf ns anc anc' hlen ha
    have happ : ∀ (a b : List (Node A)), linesAll anc' (a ++ b) = linesAll anc' a ++ linesAll anc' b := by
      intro a b
      induction a with
      | nil => simp [linesAll]
      | cons x xs ih => simp [linesAll, ih]
    simp only [pruneAll, linesAll, happ, List.filterMap_append, List.filter_append, h1, h2]
end

theorem outline_prune {d : Node A → Option (List A)} {f : Node A → Node A} (hf : Edits d f)
    (doc : List (Node A)) : outline (pruneAll d doc) = remaining (fun n => (d n).isNone) f doc := by
  rw [outline_eq, remaining_eq]
  exact pruneAll_remaining hf doc [] [] rfl rfl

theorem pruneAll_append (d : Node A → Option (List A)) (a b : List (Node A)) :
    pruneAll d (a ++ b) = pruneAll d a ++ pruneAll d b := by
  induction a with
  | nil => simp [pruneAll]
  | cons x xs ih => simp [pruneAll, ih]

theorem prune_leaf_idem (d : Node A → Option (List A)) (x : Node A) (hx : prune d x = keepLeaf x (d x)) :
    pruneAll d (keepLeaf x (d x)) = keepLeaf x (d x) := by
  cases h : d x with
  | none => simp [keepLeaf, pruneAll]
  | some as => simp [keepLeaf, pruneAll, hx, h]

mutual
theorem prune_idem (d : Node A → Option (List A)) (n : Node A)
    (hd : ∀ nm as ks as', Occurs [n] (.elem nm as ks) → d (.elem nm as ks) = some as' →
      d (.elem nm as' (pruneAll d ks)) = some as') : pruneAll d (prune d n) = prune d n := by
  match n with
  | .elem nm as ks =>
    have ih := pruneAll_idem d ks fun nm' as' ks' as'' hm =>
      hd nm' as' ks' as'' (occurs_cons.2 (Or.inr (Or.inl hm)))
    cases h : d (.elem nm as ks) with
    | none => simp [prune, h, rebuild, pruneAll]
    | some as' =>
      have := hd nm as ks as' (occurs_cons.2 (Or.inl rfl)) h
      simp [prune, h, rebuild, pruneAll, this, ih]
  | .text s => exact prune_leaf_idem d _ rfl
  | .css s => exact prune_leaf_idem d _ rfl
  | .comment s => exact prune_leaf_idem d _ rfl
  | .pi t x => exact prune_leaf_idem d _ rfl
theorem pruneAll_idem (d : Node A → Option (List A)) (ns : List (Node A))
    (hd : ∀ nm as ks as', Occurs ns (.elem nm as ks) → d (.elem nm as ks) = some as' →
      d (.elem nm as' (pruneAll d ks)) = some as') : pruneAll d (pruneAll d ns) = pruneAll d ns := by
  match ns with
  | [] => rfl
  | n :: ns =>
    have h1 := prune_idem d n fun nm as ks as' hm => hd nm as ks as' (by
      rw [occurs_cons] at hm ⊢
      rcases hm with hm | hm | hm
      · exact Or.inl hm
      · exact Or.inr (Or.inl hm)
      · exact absurd hm not_occurs_nil)
    have h2 := pruneAll_idem d ns fun nm as ks as' hm => hd nm as ks as' (occurs_cons.2 (Or.inr (Or.inr hm)))
    simp only [pruneAll, pruneAll_append, h1, h2]
end

/-- The entries of lists of nodes at depth `k`. -/
def outlineAt (k : Nat) (ns : List (Node A)) : List (Nat × Node A) :=
  (linesAll (List.replicate k (.text [])) ns).filterMap (entry id)

mutual
theorem lines_depth (n : Node A) (a b : List (Node A)) (h : a.length = b.length) :
    (n.lines a).filterMap (entry id) = (n.lines b).filterMap (entry id) := by
  match n with
  | .elem nm as ks =>
    have ih := linesAll_depth ks (.elem nm as ks :: a) (.elem nm as ks :: b) (by simp [h])
    simp only [Node.lines, List.filterMap_cons, entry_cons, ih, h]
  | .text s => simp [Node.lines, entry, h]
  | .css s => simp [Node.lines, entry, h]
  | .comment s => simp [Node.lines, entry, h]
  | .pi t d => simp [Node.lines, entry, h]
theorem linesAll_depth (ns : List (Node A)) (a b : List (Node A)) (h : a.length = b.length) :
    (linesAll a ns).filterMap (entry id) = (linesAll b ns).filterMap (entry id) := by
  match ns with
  | [] => rfl
  | n :: ns => simp only [linesAll, List.filterMap_append, lines_depth n a b h, linesAll_depth ns a b h]
end

theorem outlineAt_cons (k : Nat) (n : Node A) (ns : List (Node A)) :
    outlineAt k (n :: ns) = (k + 1, n.bare) :: (outlineAt (k + 1) n.kids ++ outlineAt k ns) := by
  cases n with
  | elem nm as ks =>
    have := linesAll_depth ks (.elem nm as ks :: List.replicate k (.text [])) (List.replicate (k + 1) (.text []))
      (by simp)
    simp only [outlineAt, linesAll, Node.lines, Node.kids, List.cons_append, List.filterMap_cons, entry_cons,
      List.filterMap_append, this]
    simp
  | _ => simp [outlineAt, linesAll, Node.lines, Node.kids, entry]

theorem outlineAt_deep (k : Nat) (ns : List (Node A)) : ∀ e ∈ outlineAt k ns, k < e.1 := by
  intro e he
  simp only [outlineAt, List.mem_filterMap] at he
  obtain ⟨l, hl, h⟩ := he
  obtain ⟨p, hp, rfl⟩ := linesAll_suffix _ ns l hl
  cases p with
  | nil => exact absurd rfl hp
  | cons x p =>
    rw [List.cons_append, entry_cons] at h
    cases h
    simp only [List.length_append, List.length_replicate]
    omega

theorem outlineAt_starts (k : Nat) (ns : List (Node A)) (e : Nat × Node A) (h : (outlineAt k ns).head? = some e) :
    e.1 = k + 1 := by
  cases ns with
  | nil => simp [outlineAt, linesAll] at h
  | cons n ns =>
    rw [outlineAt_cons] at h
    simp only [List.head?_cons, Option.some.injEq] at h
    rw [← h]

/-- Two lists of entries, all deeper than `k` up to where the second part starts at depth `k`. -/
theorem split_depth {a a' b b' : List (Nat × Node A)} (k : Nat) (ha : ∀ e ∈ a, k < e.1) (ha' : ∀ e ∈ a', k < e.1)
    (hb : ∀ e, b.head? = some e → e.1 = k) (hb' : ∀ e, b'.head? = some e → e.1 = k)
    (h : a ++ b = a' ++ b') : a = a' ∧ b = b' := by
  induction a generalizing a' with
  | nil =>
    cases a' with
    | nil => exact ⟨rfl, h⟩
    | cons x a' =>
      simp only [List.nil_append, List.cons_append] at h
      have := hb x (by rw [h]; rfl)
      have := ha' x (by simp)
      omega
  | cons x a ih =>
    cases a' with
    | nil =>
      simp only [List.nil_append, List.cons_append] at h
      have := hb' x (by rw [← h]; rfl)
      have := ha x (by simp)
      omega
    | cons y a' =>
      simp only [List.cons_append, List.cons.injEq] at h
      obtain ⟨h1, h2⟩ := ih (a' := a') (fun e he => ha e (by simp [he])) (fun e he => ha' e (by simp [he])) h.2
      exact ⟨by rw [h.1, h1], h2⟩

mutual
theorem node_inj (n m : Node A) (k : Nat) (h1 : n.bare = m.bare)
    (h2 : outlineAt k n.kids = outlineAt k m.kids) : n = m := by
  match n, m with
  | .elem a b ks, .elem a' b' ks' =>
    simp only [Node.bare, Node.elem.injEq, and_true] at h1
    have := outlineAt_inj ks ks' k h2
    rw [h1.1, h1.2, this]
  | .elem a b ks, .text s => simp [Node.bare] at h1
  | .elem a b ks, .css s => simp [Node.bare] at h1
  | .elem a b ks, .comment s => simp [Node.bare] at h1
  | .elem a b ks, .pi t d => simp [Node.bare] at h1
  | .text s, m => cases m <;> simp_all [Node.bare]
  | .css s, m => cases m <;> simp_all [Node.bare]
  | .comment s, m => cases m <;> simp_all [Node.bare]
  | .pi t d, m => cases m <;> simp_all [Node.bare]
theorem outlineAt_inj (a b : List (Node A)) (k : Nat) (h : outlineAt k a = outlineAt k b) : a = b := by
  match a, b with
  | [], [] => rfl
  | [], m :: b => rw [outlineAt_cons] at h; simp [outlineAt, linesAll] at h
  | n :: a, [] => rw [outlineAt_cons] at h; simp [outlineAt, linesAll] at h
  | n :: a, m :: b =>
    rw [outlineAt_cons, outlineAt_cons] at h
    simp only [List.cons.injEq, Prod.mk.injEq, true_and] at h
    obtain ⟨h0, h⟩ := h
    obtain ⟨h1, h2⟩ := split_depth (k + 1) (outlineAt_deep (k + 1) n.kids) (outlineAt_deep (k + 1) m.kids)
      (outlineAt_starts k a) (outlineAt_starts k b) h
    rw [node_inj n m (k + 1) h0 h1, outlineAt_inj a b k h2]
end

/-- A document is determined by its outline. -/
theorem outline_inj {a b : List (Node A)} (h : outline a = outline b) : a = b :=
  outlineAt_inj a b 0 h

end Verif.Tree
