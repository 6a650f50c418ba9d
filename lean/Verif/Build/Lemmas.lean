import Verif.Build.Model

/-! # What the parser has built after any input -/

namespace Verif.Build

open Verif.Dom Verif.Arena

variable {L : Type}

/-- The heap with the sibling links of these nodes cleared. -/
def unloop (S : List Handle) (h : Heap) : Heap :=
  { h with prev := fun x => if x ∈ S then none else h.prev x, next := fun x => if x ∈ S then none else h.next x }

mutual
/-- The node `a` and what is below it are the nodes of the reader, `S` being the style sheets among them. -/
def Shows (S : List Handle) (ch : Kids) (label : Handle → Option L) (a : Handle) : Src L → Prop
  | .node l style kids => label a = some l ∧ a ∉ S ∧ match style with
    | some r => ∃ s, ch a = [s] ∧ label s = some r ∧ ch s = [] ∧ s ∈ S
    | none => ShowsAll S ch label (ch a) kids
/-- The same for a list of nodes. -/
def ShowsAll (S : List Handle) (ch : Kids) (label : Handle → Option L) : List Handle → List (Src L) → Prop
  | [], [] => True
  | a :: as, k :: ks => Shows S ch label a k ∧ ShowsAll S ch label as ks
  | _, _ => False
end

mutual
/-- The number of levels of nodes. -/
def height : Src L → Nat
  | .node _ style kids => match style with
    | some _ => 1
    | none => heightAll kids + 1
def heightAll : List (Src L) → Nat
  | [] => 0
  | k :: ks => max (height k) (heightAll ks)
end

mutual
/-- Whether there is no style sheet. -/
def plain : Src L → Bool
  | .node _ style kids => match style with
    | some _ => false
    | none => plainAll kids
def plainAll : List (Src L) → Bool
  | [] => true
  | k :: ks => plain k && plainAll ks
end

/-- What holds of the nodes made so far. -/
structure Good (b : Made L) (S : List Handle) (ch : Kids) : Prop where
  made : b.store.made = List.range b.store.made.length
  table : b.indices = b.store.made
  ids : ∀ x : Nat, x < b.store.made.length → b.store.heap.id x = x
  tree : Tree (unloop S b.store.heap) ch
  inside : ∀ p c : Nat, c ∈ ch p → p < c ∧ c < b.store.made.length
  loops : ∀ s : Nat, s ∈ S → s < b.store.made.length ∧ b.store.heap.next s = some s ∧ b.store.heap.prev s = some s ∧
    ∃ p, ch p = [s]

/-- Child lists, labels and style sheets agree on the nodes from `lo` to `hi`. -/
def Agree (lo hi : Nat) (S S' : List Handle) (ch ch' : Kids) (label label' : Handle → Option L) : Prop :=
  ∀ x : Nat, lo ≤ x → x < hi → ch' x = ch x ∧ label' x = label x ∧ (x ∈ S' ↔ x ∈ S)

theorem attachChild_cells (h : Heap) (p c : Handle) :
    (∀ x, (attachChild h p c).parent x = if x = c then some p else h.parent x) ∧
    (∀ x, (attachChild h p c).prev x = if x = c then h.last p else h.prev x) ∧
    (∀ x, (attachChild h p c).next x = if h.last p = some x then some c else h.next x) ∧
    (∀ x, (attachChild h p c).first x = if x = p ∧ h.first p = none then some c else h.first x) ∧
    (∀ x, (attachChild h p c).last x = if x = p then some c else h.last x) ∧
    (attachChild h p c).id = h.id := by
  refine ⟨?_, ?_, ?_, ?_, ?_, ?_⟩ <;> try intro x
  all_goals
    simp only [attachChild, Heap.setParent, Heap.setLast, Heap.setPrev, Heap.setNext, Heap.setFirst]
    cases h.last p <;> by_cases hf : h.first p = none <;> simp [hf, upd_apply] <;> grind

/-- Attaching a node that is nobody's child appends it. -/
theorem attachChild_tree {h : Heap} {ch : Kids} (t : Tree h ch) {p c : Handle} (free : ∀ q, c ∉ ch q) :
    Tree (attachChild h p c) (upd ch p (ch p ++ [c])) := by
  obtain ⟨c1, c2, c3, c4, c5, _⟩ := attachChild_cells h p c
  have dc := t.rest c free
  have hl := (t.links p).last
  have hf := (t.links p).first
  refine insert_tree t free (by simp) ?_ ?_ ?_ ?_ ?_ <;> intro x
  · exact c1 x
  · rw [c2, hl]; simp
  · rw [c3, hl]
    have : (ch p).getLast? = some c → False := fun e => free p (List.mem_of_getLast? e)
    have := dc.2.2
    by_cases hx : x = c
    · subst hx
      simp only [List.head?_nil, if_true]
      split
      · simp_all
      · assumption
    · simp [hx]
  · rw [c4, hf]
    cases ch p <;> simp
  · rw [c5]; simp

/-- Clearing the sibling links of nodes that are not touched commutes with attaching. -/
theorem unloop_attach {S : List Handle} {h : Heap} {p c : Handle} (hc : c ∉ S)
    (hl : ∀ a, h.last p = some a → a ∉ S) : unloop S (attachChild h p c) = attachChild (unloop S h) p c := by
  obtain ⟨c1, c2, c3, c4, c5, c6⟩ := attachChild_cells h p c
  obtain ⟨d1, d2, d3, d4, d5, d6⟩ := attachChild_cells (unloop S h) p c
  have key : ∀ {a b : Heap}, a.parent = b.parent → a.next = b.next → a.prev = b.prev → a.first = b.first →
      a.last = b.last → a.id = b.id → a = b := by
    intro a b; cases a; cases b; simp_all
  apply key
  · funext x; rw [d1]; simpa [unloop] using c1 x
  · funext x; rw [d3]; simp only [unloop, c3]; grind
  · funext x; rw [d2]; simp only [unloop, c2]; grind
  · funext x; rw [d4]; simp only [unloop, c4]; grind
  · funext x; rw [d5]; simpa [unloop] using c5 x
  · rw [d6]; simpa [unloop] using c6

/-- A second attachment of the only child makes it its own sibling; apart from that nothing changes. -/
theorem unloop_twice {S : List Handle} {h : Heap} {p s : Handle} (hl : h.last p = none)
    (hn : h.next s = none) (hf : h.first p = none) :
    unloop (s :: S) (attachChild (attachChild h p s) p s) = attachChild (unloop S h) p s ∧
    (attachChild (attachChild h p s) p s).next s = some s ∧
    (attachChild (attachChild h p s) p s).prev s = some s ∧
    (∀ x, x ≠ s → (attachChild (attachChild h p s) p s).next x = h.next x ∧
      (attachChild (attachChild h p s) p s).prev x = h.prev x) ∧
    (attachChild (attachChild h p s) p s).id = h.id := by
  obtain ⟨c1, c2, c3, c4, c5, c6⟩ := attachChild_cells h p s
  obtain ⟨e1, e2, e3, e4, e5, e6⟩ := attachChild_cells (attachChild h p s) p s
  obtain ⟨d1, d2, d3, d4, d5, d6⟩ := attachChild_cells (unloop S h) p s
  have key : ∀ {a b : Heap}, a.parent = b.parent → a.next = b.next → a.prev = b.prev → a.first = b.first →
      a.last = b.last → a.id = b.id → a = b := by
    intro a b; cases a; cases b; simp_all
  refine ⟨?_, ?_, ?_, ?_, ?_⟩
  · apply key
    · funext x; rw [d1]; simp only [unloop, e1, c1]; grind
    · funext x; rw [d3]; simp only [unloop, e3, c3, c5]; grind
    · funext x; rw [d2]; simp only [unloop, e2, c2, c5]; grind
    · funext x; rw [d4]; simp only [unloop, e4, c4]; grind
    · funext x; rw [d5]; simp only [unloop, e5, c5]; grind
    · rw [d6]; simp only [unloop, e6, c6]
  · rw [e3, c5]; simp
  · rw [e2, c5]; simp
  · intro x hx
    rw [e3, e2, c5, c3, c2, hl]
    simp [hx, Ne.symm hx]
  · rw [e6, c6]

theorem alloc_good {b : Made L} {S : List Handle} {ch : Kids} (g : Good b S ch) (l : L) :
    (b.alloc l).1 = b.store.made.length ∧ Good (b.alloc l).2 S ch ∧
    (b.alloc l).2.store.made.length = b.store.made.length + 1 ∧
    (∀ x : Nat, (b.alloc l).2.label x = if x = b.store.made.length then some l else b.label x) := by
  have hS : b.store.made.length ∉ S := fun h => Nat.lt_irrefl _ (g.loops _ h).1
  have free : ∀ p, b.store.made.length ∉ ch p := fun p h => Nat.lt_irrefl _ (g.inside _ _ h).2
  have hk : ch b.store.made.length = [] := by
    cases e : ch b.store.made.length with
    | nil => rfl
    | cons c l =>
      have := g.inside b.store.made.length c (by simp [e])
      omega
  have hdet := g.tree.rest _ free
  have h1 : b.store.heap.parent b.store.made.length = none := hdet.1
  have h2 : b.store.heap.prev b.store.made.length = none := by simpa [unloop, hS] using hdet.2.1
  have h3 : b.store.heap.next b.store.made.length = none := by simpa [unloop, hS] using hdet.2.2
  have hf : b.store.heap.first b.store.made.length = none := by
    have := (g.tree.links b.store.made.length).first; simpa [hk, unloop] using this
  have hl : b.store.heap.last b.store.made.length = none := by
    have := (g.tree.links b.store.made.length).last; simpa [hk, unloop] using this
  have e : (b.alloc l).2.store.heap =
      { b.store.heap with id := upd b.store.heap.id b.store.made.length b.store.made.length } := by
    simp only [Made.alloc, Arena.alloc, nodeNew]
    rw [upd_same _ _ _ h1, upd_same _ _ _ h2, upd_same _ _ _ h3, upd_same _ _ _ hf, upd_same _ _ _ hl, g.table]
  have hlen : (b.alloc l).2.store.made.length = b.store.made.length + 1 := by simp [Made.alloc, Arena.alloc]
  refine ⟨rfl, ⟨?_, ?_, ?_, ?_, ?_, ?_⟩, hlen, ?_⟩
  · rw [hlen, List.range_succ, ← g.made]
    simp [Made.alloc, Arena.alloc]
  · simp [Made.alloc, Arena.alloc, g.table]
  · intro x hx
    rw [e]
    simp only [upd]
    split
    · simp [*]
    · next hne =>
      have hne : ¬ (x : Nat) = b.store.made.length := hne
      exact g.ids x (by omega)
  · rw [e]
    exact ⟨fun p => ⟨(g.tree.links p).nodup, (g.tree.links p).first, (g.tree.links p).last, (g.tree.links p).child⟩,
      g.tree.rest⟩
  · intro p c hc
    have := g.inside p c hc
    omega
  · intro s hs
    obtain ⟨a1, a2, a3, a4⟩ := g.loops s hs
    rw [e, hlen]
    exact ⟨by omega, a2, a3, a4⟩
  · intro x
    simp [Made.alloc, upd]

/-- Attaching a finished node to a node that has no style sheet among its children. -/
theorem attach_good {b : Made L} {S : List Handle} {ch : Kids} (g : Good b S ch) {p c : Nat} (hpc : p < c)
    (hc : c < b.store.made.length) (free : ∀ q, c ∉ ch q) (hcS : c ∉ S) (hp : ∀ x ∈ ch p, x ∉ S) :
    Good (b.attach p c) S (upd ch p (ch p ++ [c])) := by
  have hlast : ∀ a, b.store.heap.last p = some a → a ∉ S := by
    intro a ha
    have := (g.tree.links p).last
    exact hp a (List.mem_of_getLast? (this ▸ ha))
  obtain ⟨c1, c2, c3, c4, c5, c6⟩ := attachChild_cells b.store.heap p c
  refine ⟨g.made, g.table, ?_, ?_, ?_, ?_⟩
  · intro x hx
    simp only [Made.attach, c6]
    exact g.ids x hx
  · simp only [Made.attach]
    rw [unloop_attach hcS hlast]
    exact attachChild_tree g.tree free
  · intro q x hx
    simp only [upd] at hx
    split at hx
    · next e =>
      subst e
      rw [List.mem_append] at hx
      rcases hx with hx | hx
      · exact g.inside q x hx
      · simp at hx
        subst hx
        exact ⟨hpc, hc⟩
    · exact g.inside q x hx
  · intro s hs
    obtain ⟨a1, a2, a3, q, a4⟩ := g.loops s hs
    refine ⟨a1, ?_, ?_, q, ?_⟩
    · simp only [Made.attach, c3]
      rw [if_neg (fun e => hlast s e hs)]
      exact a2
    · simp only [Made.attach, c2]
      rw [if_neg (show ¬ s = c from fun e => hcS (e ▸ hs))]
      exact a3
    · simp only [upd]
      split
      · next e => exact absurd hs (hp s (by rw [← e, a4]; simp))
      · exact a4

/-- Making and attaching a style sheet. -/
theorem style_good {b : Made L} {S : List Handle} {ch : Kids} (g : Good b S ch) {c : Nat} (r : L)
    (hc : c < b.store.made.length) (hk : ch c = []) :
    Good (b.style c r) (b.store.made.length :: S) (upd ch c [b.store.made.length]) ∧
    (b.style c r).store.made.length = b.store.made.length + 1 ∧
    (∀ x : Nat, (b.style c r).label x = if x = b.store.made.length then some r else b.label x) := by
  obtain ⟨e1, g1, e2, e3⟩ := alloc_good g r
  have free : ∀ p, b.store.made.length ∉ ch p := fun p h => Nat.lt_irrefl _ (g.inside _ _ h).2
  have hS : b.store.made.length ∉ S := fun h => Nat.lt_irrefl _ (g.loops _ h).1
  have hl : (b.alloc r).2.store.heap.last c = none := by
    have := (g1.tree.links c).last; simpa [hk, unloop] using this
  have hf : (b.alloc r).2.store.heap.first c = none := by
    have := (g1.tree.links c).first; simpa [hk, unloop] using this
  have hn : (b.alloc r).2.store.heap.next b.store.made.length = none := by
    have := (g1.tree.rest _ free).2.2; simpa [hS, unloop] using this
  obtain ⟨t1, t2, t3, t4, t5⟩ := unloop_twice (S := S) hl hn hf
  have es : b.style c r = (((b.alloc r).2.attach c b.store.made.length).attach c b.store.made.length) := rfl
  have eheap : (b.style c r).store.heap =
    attachChild (attachChild (b.alloc r).2.store.heap c b.store.made.length) c b.store.made.length := by
    rw [es]; rfl
  have emade : (b.style c r).store.made = (b.alloc r).2.store.made := by rw [es]; rfl
  refine ⟨⟨?_, ?_, ?_, ?_, ?_, ?_⟩, by rw [emade]; exact e2, ?_⟩
  · rw [emade]; exact g1.made
  · rw [emade, es]; exact g1.table
  · rw [emade, eheap, t5]; exact g1.ids
  · rw [eheap, t1]
    have := attachChild_tree (p := c) g1.tree free
    rwa [hk] at this
  · rw [emade, e2]
    intro q x hx
    simp only [upd] at hx
    split at hx
    · next hq =>
      have hq : (q : Nat) = c := hq
      simp at hx
      omega
    · have := g.inside q x hx; omega
  · rw [emade, e2, eheap]
    intro s hs
    rw [List.mem_cons] at hs
    rcases hs with rfl | hs
    · exact ⟨by omega, t2, t3, c, by simp [upd]⟩
    · obtain ⟨a1, a2, a3, q, a4⟩ := g1.loops s hs
      have hne : s ≠ b.store.made.length := fun e => hS (e ▸ hs)
      refine ⟨by omega, ?_, ?_, q, ?_⟩
      · rw [(t4 s hne).1]; exact a2
      · rw [(t4 s hne).2]; exact a3
      · simp only [upd]
        split
        · next e => rw [e, hk] at a4; simp at a4
        · exact a4
  · intro x
    rw [es]
    exact e3 x

/-- What the parser has done with a node. -/
def NodeDone (b b' : Made L) (S S' : List Handle) (ch ch' : Kids) (c : Handle) (src : Src L) : Prop :=
  Good b' S' ch' ∧ c = b.store.made.length ∧ b.store.made.length < b'.store.made.length ∧
  (∀ x : Nat, x < b.store.made.length → ch' x = ch x ∧ b'.label x = b.label x ∧ (x ∈ S' ↔ x ∈ S)) ∧
  (∀ p, c ∉ ch' p) ∧ c ∉ S' ∧
  (∀ S'' ch'' label'', Agree b.store.made.length b'.store.made.length S' S'' ch' ch'' b'.label label'' →
    Shows S'' ch'' label'' c src ∧
    Spans ch'' [c] (List.range' b.store.made.length (b'.store.made.length - b.store.made.length))) ∧
  (plain src = true → S' = S)

/-- What the parser has done with the children of a node. -/
def KidsDone (b b' : Made L) (S S' : List Handle) (ch ch' : Kids) (p : Handle) (as : List Handle) (ks : List (Src L)) :
    Prop :=
  Good b' S' ch' ∧ b.store.made.length ≤ b'.store.made.length ∧
  (∀ x : Nat, x < b.store.made.length → x ≠ p → ch' x = ch x) ∧ ch' p = ch p ++ as ∧
  (∀ x : Nat, x < b.store.made.length → b'.label x = b.label x ∧ (x ∈ S' ↔ x ∈ S)) ∧
  (∀ S'' ch'' label'', Agree b.store.made.length b'.store.made.length S' S'' ch' ch'' b'.label label'' →
    ShowsAll S'' ch'' label'' as ks ∧
    Spans ch'' as (List.range' b.store.made.length (b'.store.made.length - b.store.made.length))) ∧
  (plainAll ks = true → S' = S)

mutual
theorem parseNode_good (src : Src L) : ∀ (depth : Nat) (b : Made L) (S : List Handle) (ch : Kids) (c : Nat)
    (b' : Made L), Good b S ch → parseNode depth b src = some (c, b') →
    ∃ S' ch', NodeDone b b' S S' ch ch' c src := by
  cases src with
  | node l style kids =>
    intro depth b S ch c b' g e
    rw [parseNode.eq_def] at e
    dsimp only at e
    split at e
    · exact absurd e (by simp)
    · obtain ⟨e1, g1, e2, e3⟩ := alloc_good g l
      have free : ∀ p, b.store.made.length ∉ ch p := fun p h => Nat.lt_irrefl _ (g.inside _ _ h).2
      have hS : b.store.made.length ∉ S := fun h => Nat.lt_irrefl _ (g.loops _ h).1
      have hk : ch b.store.made.length = [] := by
        cases e : ch b.store.made.length with
        | nil => rfl
        | cons c l =>
          have := g.inside b.store.made.length c (by simp [e])
          omega
      cases style with
      | some r =>
        simp only [Option.some.injEq, Prod.mk.injEq] at e
        obtain ⟨rfl, rfl⟩ := e
        rw [e1]
        obtain ⟨g2, f1, f2⟩ := style_good g1 (c := b.store.made.length) r (by omega) hk
        rw [e2] at g2 f1 f2
        have hk2 : ch (b.store.made.length + 1) = [] := by
          cases e : ch (b.store.made.length + 1) with
          | nil => rfl
          | cons c l =>
            have := g.inside (b.store.made.length + 1) c (by simp [e])
            omega
        refine ⟨_, _, g2, rfl, by omega, ?_, ?_, ?_, ?_, ?_⟩
        · intro x hx
          refine ⟨?_, ?_, ?_⟩
          · simp [upd, Nat.ne_of_lt hx]
          · rw [f2, if_neg (by omega), e3, if_neg (by omega)]
          · simp; omega
        · intro p hp
          simp only [upd] at hp
          split at hp
          · simp at hp
          · exact free p hp
        · simp; exact hS
        · intro S'' ch'' label'' ag
          rw [f1] at ag
          obtain ⟨a1, a2, a3⟩ := ag b.store.made.length (by omega) (by omega)
          obtain ⟨b1, b2, b3⟩ := ag (b.store.made.length + 1) (by omega) (by omega)
          have k1 : ch'' b.store.made.length = [b.store.made.length + 1] := by rw [a1]; simp [upd]
          have k2 : ch'' (b.store.made.length + 1) = [] := by rw [b1]; simpa [upd] using hk2
          refine ⟨?_, ?_⟩
          · rw [Shows]
            refine ⟨?_, ?_, _, k1, ?_, k2, ?_⟩
            · rw [a2, f2, if_neg (by omega), e3, if_pos rfl]
            · rw [a3]; simp; exact hS
            · rw [b2, f2, if_pos rfl]
            · rw [b3]; simp
          · rw [f1]
            have : List.range' b.store.made.length (b.store.made.length + 1 + 1 - b.store.made.length) =
                b.store.made.length :: ([b.store.made.length + 1] ++ []) := by
              rw [show b.store.made.length + 1 + 1 - b.store.made.length = 2 by omega]; rfl
            rw [this]
            refine .cons ?_ .nil
            rw [k1]
            exact .cons (l := []) (m := []) (by rw [k2]; exact .nil) .nil
        · intro h
          simp [plain] at h
      | none =>
        simp only [Option.map_eq_some_iff, Prod.mk.injEq] at e
        obtain ⟨b2, e, rfl, rfl⟩ := e
        rw [e1] at e ⊢
        obtain ⟨S', ch', as, g2, n2, k1, k2, k3, k4, k5⟩ :=
          parseKids_good kids (depth + 1) b.store.made.length _ S ch b2 g1 (by omega) (by simp [hk]) e
        rw [e2] at n2 k1 k3 k4
        rw [hk, List.nil_append] at k2
        refine ⟨S', ch', g2, rfl, by omega, ?_, ?_, ?_, ?_, ?_⟩
        · intro x hx
          have := k3 x (by omega)
          refine ⟨k1 x (by omega) (by omega), ?_, this.2⟩
          rw [this.1, e3, if_neg (by omega)]
        · intro q hq
          have hlt := (g2.inside _ _ hq).1
          rw [k1 q (by omega) (by omega)] at hq
          exact free q hq
        · rw [(k3 _ (by omega)).2]; exact hS
        · intro S'' ch'' label'' ag
          obtain ⟨a1, a2, a3⟩ := ag b.store.made.length (by omega) (by omega)
          obtain ⟨s1, s2⟩ := k4 S'' ch'' label'' (fun x hx hx' => ag x (by omega) hx')
          have kk : ch'' b.store.made.length = as := by rw [a1, k2]
          refine ⟨?_, ?_⟩
          · rw [Shows]
            refine ⟨?_, ?_, ?_⟩
            · rw [a2, (k3 _ (by omega)).1, e3, if_pos rfl]
            · rw [a3, (k3 _ (by omega)).2]; exact hS
            · rw [kk]; exact s1
          · have : List.range' b.store.made.length (b2.store.made.length - b.store.made.length) =
                b.store.made.length :: (List.range' (b.store.made.length + 1)
                  (b2.store.made.length - (b.store.made.length + 1)) ++ []) := by
              rw [show b2.store.made.length - b.store.made.length =
                (b2.store.made.length - (b.store.made.length + 1)) + 1 by omega, List.range'_succ, List.append_nil]
            rw [this]
            exact .cons (by rw [kk]; exact s2) .nil
        · intro h
          exact k5 (by simpa [plain] using h)
theorem parseKids_good (ks : List (Src L)) : ∀ (depth : Nat) (p : Nat) (b : Made L) (S : List Handle) (ch : Kids)
    (b' : Made L), Good b S ch → p < b.store.made.length → (∀ x ∈ ch p, x ∉ S) → parseKids depth p b ks = some b' →
    ∃ S' ch' as, KidsDone b b' S S' ch ch' p as ks := by
  cases ks with
  | nil =>
    intro depth p b S ch b' g hp hS e
    rw [parseKids] at e
    simp only [Option.some.injEq] at e
    subst e
    refine ⟨S, ch, [], g, Nat.le_refl _, fun _ _ _ => rfl, by simp, fun _ _ => ⟨rfl, Iff.rfl⟩, ?_, fun _ => rfl⟩
    intro S'' ch'' label'' ag
    refine ⟨by simp [ShowsAll], ?_⟩
    rw [Nat.sub_self]
    exact .nil
  | cons k ks =>
    intro depth p b S ch b' g hp hS e
    rw [parseKids] at e
    split at e
    · exact absurd e (by simp)
    · next r hr =>
      obtain ⟨c, b1⟩ := r
      obtain ⟨S1, ch1, g1, rfl, n1, o1, o2, o3, o4, o5⟩ := parseNode_good k depth b S ch c b1 g hr
      simp only at e
      have hp1 : ∀ x ∈ ch1 p, x ∉ S1 := by
        intro x hx
        rw [(o1 p hp).1] at hx
        rw [(o1 x (g.inside p x hx).2).2.2]
        exact hS x hx
      have g2 := attach_good g1 (p := p) (c := b.store.made.length) hp n1 o2 o3 hp1
      obtain ⟨S', ch', as, g3, n3, k1, k2, k3, k4, k5⟩ := parseKids_good ks depth p
        (b1.attach p b.store.made.length) S1 _ b' g2 (Nat.lt_trans hp n1) (by
          intro x hx
          simp only [upd, if_true] at hx
          rw [List.mem_append] at hx
          rcases hx with hx | hx
          · exact hp1 x hx
          · simp at hx; subst hx; exact o3) e
      have em : (b1.attach p b.store.made.length).store.made = b1.store.made := rfl
      have el : (b1.attach p b.store.made.length).label = b1.label := rfl
      rw [em] at n3 k1 k3 k4
      rw [el] at k3
      simp only [upd, if_true] at k2
      refine ⟨S', ch', b.store.made.length :: as, g3, by omega, ?_, ?_, ?_, ?_, ?_⟩
      · intro x hx hxp
        rw [k1 x (by omega) hxp]
        simp only [upd, if_neg hxp]
        exact (o1 x hx).1
      · rw [k2, (o1 p hp).1]; simp
      · intro x hx
        have a := k3 x (by omega)
        have b := o1 x hx
        exact ⟨a.1.trans b.2.1, a.2.trans b.2.2⟩
      · intro S'' ch'' label'' ag
        obtain ⟨s1, s2⟩ := o4 S'' ch'' label'' (by
          intro x hx hx'
          obtain ⟨a1, a2, a3⟩ := ag x hx (by omega)
          have hxp : x ≠ p := by omega
          refine ⟨?_, ?_, ?_⟩
          · rw [a1, k1 x hx' hxp]; simp [upd, hxp]
          · rw [a2, (k3 x hx').1]
          · rw [a3, (k3 x hx').2])
        obtain ⟨s3, s4⟩ := k4 S'' ch'' label'' (fun x hx hx' => ag x (by omega) hx')
        refine ⟨by rw [ShowsAll]; exact ⟨s1, s3⟩, ?_⟩
        have := Spans.append s2 s4
        rw [show b.store.made.length :: as = [b.store.made.length] ++ as from rfl,
          show List.range' b.store.made.length (b'.store.made.length - b.store.made.length) =
            List.range' b.store.made.length (b1.store.made.length - b.store.made.length) ++
            List.range' b1.store.made.length (b'.store.made.length - b1.store.made.length) by
            rw [show b'.store.made.length - b.store.made.length =
              (b1.store.made.length - b.store.made.length) + (b'.store.made.length - b1.store.made.length) by omega,
              ← List.range'_append]
            congr 2
            omega]
        exact this
      · intro h
        simp only [plainAll, Bool.and_eq_true] at h
        rw [k5 h.2, o5 h.1]
end

mutual
theorem parseNode_none (src : Src L) : ∀ (depth : Nat) (b : Made L),
    (parseNode depth b src).isNone = true ↔ depth + height src > 1025 := by
  cases src with
  | node l style kids =>
    intro depth b
    rw [parseNode.eq_def, height.eq_def]
    dsimp only
    split
    · cases style <;> simp <;> omega
    · cases style with
      | some r => simp; omega
      | none =>
        simp only [Option.isNone_map]
        rw [parseKids_none kids (depth + 1)]
        omega
theorem parseKids_none (ks : List (Src L)) : ∀ (depth : Nat) (p : Handle) (b : Made L),
    (parseKids depth p b ks).isNone = true ↔ depth + heightAll ks > 1025 ∧ heightAll ks > 0 := by
  cases ks with
  | nil => intro depth p b; simp [parseKids, heightAll]
  | cons k ks =>
    intro depth p b
    rw [parseKids, heightAll]
    have h0 : height k > 0 := by cases k with | node l s ks => cases s <;> simp [height]
    have h1 := parseNode_none k depth b
    split
    · next e =>
      rw [e] at h1
      simp at h1 ⊢
      omega
    · next r e =>
      rw [e] at h1
      rw [parseKids_none ks depth]
      simp at h1 ⊢
      omega
end

end Verif.Build
