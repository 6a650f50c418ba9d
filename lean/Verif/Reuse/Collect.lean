import Verif.Reuse.Image

/-! # The paths that are collected -/

namespace Verif.Reuse

variable {D P A E : Type} [DecidableEq D] [DecidableEq P]

/-- What paths are compared by. -/
def keyOf (heap : Nat → El D P A) (h : Nat) : Option (Key D P) :=
  if (heap h).kind = .path then (heap h).d.map fun d => (d, (heap h).stroke, (heap h).fill) else none

/-- The lists are the paths with the same key, in the order of the document. -/
structure Grouped (key : Nat → Option (Key D P)) (V : List Nat) (paths : List (Key D P × List Nat)) : Prop where
  lists : ∀ g ∈ paths, g.2 = V.filter fun h => key h = some g.1
  nonempty : ∀ g ∈ paths, g.2 ≠ []
  keys : (paths.map Prod.fst).Nodup
  all : ∀ h ∈ V, ∀ k, key h = some k → ∃ g ∈ paths, g.1 = k

theorem insertKey_fst (k : Key D P) (h : Nat) (p : List (Key D P × List Nat)) :
    (insertKey k h p).map Prod.fst = if k ∈ p.map Prod.fst then p.map Prod.fst else p.map Prod.fst ++ [k] := by
  induction p with
  | nil => simp [insertKey]
  | cons g p ih =>
    obtain ⟨k', l⟩ := g
    rw [insertKey]
    by_cases hk : k' = k
    · simp [hk]
    · rw [if_neg hk, List.map_cons, ih]
      have : ¬ k = k' := fun h => hk h.symm
      by_cases hm : k ∈ p.map Prod.fst
      · rw [if_pos hm, if_pos (by simp [hm])]; rfl
      · rw [if_neg hm, if_neg (by simpa [this] using hm)]; rfl

theorem mem_insertKey (k : Key D P) (h : Nat) (p : List (Key D P × List Nat)) (hn : (p.map Prod.fst).Nodup)
    (g : Key D P × List Nat) (hg : g ∈ insertKey k h p) :
    (g ∈ p ∧ g.1 ≠ k) ∨ (g.1 = k ∧ ((∃ l, (k, l) ∈ p ∧ g.2 = l ++ [h]) ∨ (k ∉ p.map Prod.fst ∧ g.2 = [h]))) := by
  induction p with
  | nil => simp [insertKey] at hg; simp [hg]
  | cons a p ih =>
    obtain ⟨k', l⟩ := a
    rw [List.map_cons, List.nodup_cons] at hn
    rw [insertKey] at hg
    by_cases hk : k' = k
    · rw [if_pos hk, List.mem_cons] at hg
      subst hk
      rcases hg with rfl | hg
      · exact .inr ⟨rfl, .inl ⟨l, by simp, rfl⟩⟩
      · refine .inl ⟨by simp [hg], fun he => hn.1 ?_⟩
        rw [← he]
        exact List.mem_map.2 ⟨g, hg, rfl⟩
    · rw [if_neg hk, List.mem_cons] at hg
      rcases hg with rfl | hg
      · exact .inl ⟨by simp, hk⟩
      · rcases ih hn.2 hg with ⟨h1, h2⟩ | ⟨h1, ⟨l', h2, h3⟩ | ⟨h2, h3⟩⟩
        · exact .inl ⟨by simp [h1], h2⟩
        · exact .inr ⟨h1, .inl ⟨l', by simp [h2], h3⟩⟩
        · refine .inr ⟨h1, .inr ⟨?_, h3⟩⟩
          rw [List.map_cons, List.mem_cons]
          rintro (h | h)
          · exact hk h.symm
          · exact h2 h

theorem Grouped.insert {key : Nat → Option (Key D P)} {V : List Nat} {p : List (Key D P × List Nat)}
    (G : Grouped key V p) {h : Nat} {k : Key D P} (hk : key h = some k) :
    Grouped key (V ++ [h]) (insertKey k h p) where
  lists := by
    intro g hg
    rw [List.filter_append]
    rcases mem_insertKey k h p G.keys g hg with ⟨h1, h2⟩ | ⟨h1, ⟨l, h2, h3⟩ | ⟨h2, h3⟩⟩
    · rw [G.lists g h1]
      have : ¬ k = g.1 := fun h => h2 h.symm
      simp [hk, this]
    · have : l = V.filter fun h => key h = some k := G.lists _ h2
      rw [h3, this, h1]
      simp [hk]
    · rw [h3, h1]
      have : V.filter (fun h => decide (key h = some k)) = [] := by
        rw [List.filter_eq_nil_iff]
        intro x hx hkx
        obtain ⟨g', hg', rfl⟩ := G.all x hx k (by simpa using hkx)
        exact h2 (List.mem_map.2 ⟨g', hg', rfl⟩)
      rw [this]
      simp [hk]
  nonempty := by
    intro g hg
    rcases mem_insertKey k h p G.keys g hg with ⟨h1, h2⟩ | ⟨h1, ⟨l, h2, h3⟩ | ⟨h2, h3⟩⟩
    · exact G.nonempty g h1
    · simp [h3]
    · simp [h3]
  keys := by
    rw [insertKey_fst]
    split
    · exact G.keys
    · rename_i hn
      rw [List.nodup_append]
      exact ⟨G.keys, by simp, by
        intro a ha b hb he
        rw [List.mem_singleton] at hb
        exact hn (by rw [← hb, ← he]; exact ha)⟩
  all := by
    have hkeys : ∀ k', (∃ g ∈ insertKey k h p, g.1 = k') ↔ k' ∈ (insertKey k h p).map Prod.fst := by
      intro k'; simp
    intro x hx k' hk'
    rw [hkeys, insertKey_fst]
    rw [List.mem_append, List.mem_singleton] at hx
    rcases hx with hx | rfl
    · obtain ⟨g, hg, rfl⟩ := G.all x hx k' hk'
      have : g.1 ∈ p.map Prod.fst := List.mem_map.2 ⟨g, hg, rfl⟩
      split
      · exact this
      · exact List.mem_append_left _ this
    · rw [hk] at hk'
      cases hk'
      split
      · assumption
      · simp

theorem Grouped.skip {key : Nat → Option (Key D P)} {V : List Nat} {p : List (Key D P × List Nat)}
    (G : Grouped key V p) {h : Nat} (hk : key h = none) : Grouped key (V ++ [h]) p where
  lists := by
    intro g hg
    rw [List.filter_append, G.lists g hg]
    simp [hk]
  nonempty := G.nonempty
  keys := G.keys
  all := by
    intro x hx k' hk'
    rw [List.mem_append, List.mem_singleton] at hx
    rcases hx with hx | rfl
    · exact G.all x hx k' hk'
    · rw [hk] at hk'; cases hk'

/-- The state while elements are met. -/
structure Collected (s0 : State D P A) (V : List Nat) (s : State D P A) : Prop where
  root : s.root = s0.root
  heap : s.heap = s0.heap
  next : s.next = s0.next
  paths : Grouped (keyOf s0.heap) V s.paths
  defs : ∀ hd, s.defs = some hd → hd ∈ V ∧ (s0.heap hd).kind = .defs
  hrefs : ∀ x ∈ s.hrefs, isFragment x = true

theorem Collected.enter {s0 s : State D P A} {V : List Nat} (c : Collected s0 V s) (p : Option Nat) (h : Nat) :
    Collected s0 (V ++ [h]) (enter s p h) := by
  have hdefs : ∀ hd, s.defs = some hd → hd ∈ V ++ [h] ∧ (s0.heap hd).kind = .defs := fun hd hs =>
    ⟨by simp [(c.defs hd hs).1], (c.defs hd hs).2⟩
  have hskip : (s0.heap h).kind ≠ .path → Grouped (keyOf s0.heap) (V ++ [h]) s.paths := fun hk =>
    c.paths.skip (by simp [keyOf, hk])
  have hheap := c.heap
  cases hk : (s0.heap h).kind with
  | path =>
    simp only [Reuse.enter, hheap, hk, addPath]
    cases hd : (s0.heap h).d with
    | none => exact ⟨c.root, hheap, c.next, c.paths.skip (by simp [keyOf, hd]), hdefs, c.hrefs⟩
    | some d => exact ⟨c.root, rfl, c.next, c.paths.insert (by simp [keyOf, hk, hd]), hdefs, c.hrefs⟩
  | defs =>
    have hs := hskip (by simp [hk])
    simp only [Reuse.enter, hheap, hk]
    split
    · split
      · refine ⟨c.root, rfl, c.next, hs, fun hd h' => ?_, c.hrefs⟩
        cases h'
        exact ⟨by simp, hk⟩
      · exact ⟨c.root, hheap, c.next, hs, hdefs, c.hrefs⟩
    · exact ⟨c.root, hheap, c.next, hs, hdefs, c.hrefs⟩
  | use =>
    simp only [Reuse.enter, hheap, hk]
    refine ⟨c.root, rfl, c.next, hskip (by simp [hk]), hdefs, fun x hx => ?_⟩
    rw [List.mem_append, List.mem_filter] at hx
    exact hx.elim (c.hrefs x) And.right
  | svg =>
    simp only [Reuse.enter, hheap, hk]
    exact ⟨c.root, hheap, c.next, hskip (by simp [hk]), hdefs, c.hrefs⟩
  | group =>
    simp only [Reuse.enter, hheap, hk]
    exact ⟨c.root, hheap, c.next, hskip (by simp [hk]), hdefs, c.hrefs⟩
  | hidden =>
    simp only [Reuse.enter, hheap, hk]
    exact ⟨c.root, hheap, c.next, hskip (by simp [hk]), hdefs, c.hrefs⟩

variable (sel : Text → Bool) (reuse : Nat → Text)

theorem Collected.leave {s0 s : State D P A} {V : List Nat} (c : Collected s0 V s) (h : Nat)
    (hr : h ≠ s0.root.handle) (hk : (s0.heap h).kind ≠ .svg) : Reuse.leave sel reuse s h = s := by
  unfold Reuse.leave
  rw [c.root, c.heap, if_pos ⟨hr, hk⟩]

mutual
theorem Collected.visit {s0 : State D P A} : ∀ (t : Tree) (p : Option Nat) (V : List Nat) (s : State D P A),
    Collected s0 V s → (∀ u ∈ subs t, u.handle ≠ s0.root.handle ∧ (s0.heap u.handle).kind ≠ .svg) →
    Collected s0 (V ++ (subs t).map Tree.handle) ((events p t).foldl (step sel reuse) s)
  | .node h ks, p, V, s, c, hn => by
    have hh := hn (.node h ks) (by simp [subs])
    simp only [Tree.handle] at hh
    have ih := Collected.visitAll ks h (V ++ [h]) _ (c.enter p h)
      fun u hu => hn u (by simp [subs, hu])
    rw [events, List.foldl_cons, List.foldl_append, List.foldl_cons, List.foldl_nil, step, step,
      ih.leave sel reuse h hh.1 hh.2]
    simpa [subs, Tree.handle] using ih
theorem Collected.visitAll {s0 : State D P A} : ∀ (ts : List Tree) (p : Nat) (V : List Nat) (s : State D P A),
    Collected s0 V s → (∀ u ∈ subsAll ts, u.handle ≠ s0.root.handle ∧ (s0.heap u.handle).kind ≠ .svg) →
    Collected s0 (V ++ (subsAll ts).map Tree.handle) ((eventsAll p ts).foldl (step sel reuse) s)
  | [], p, V, s, c, _ => by simpa [eventsAll, subsAll] using c
  | t :: ts, p, V, s, c, hn => by
    have h1 := Collected.visit t (some p) V s c fun u hu => hn u (by simp [subsAll, hu])
    have h2 := Collected.visitAll ts p _ _ h1 fun u hu => hn u (by simp [subsAll, hu])
    rw [eventsAll, List.foldl_append]
    simpa [subsAll] using h2
end

/-- The start of the job. -/
structure Fresh (s : State D P A) : Prop where
  paths : s.paths = []
  defs : s.defs = none
  hrefs : s.hrefs = []

/-- The job on a document with one `svg` element at its root: the elements are met, then the lists are treated. -/
theorem run_eq (s : State D P A) (hs : Fresh s)
    (hsvg : ∀ u ∈ subsAll s.root.kids, u.handle ≠ s.root.handle ∧ (s.heap u.handle).kind ≠ .svg) :
    ∃ s1, Collected s ((subs s.root).map Tree.handle) s1 ∧ run sel reuse s = Reuse.leave sel reuse s1 s.root.handle := by
  have c0 : Collected s [] s := by
    refine ⟨rfl, rfl, rfl, ?_, ?_, ?_⟩
    · rw [hs.paths]
      exact ⟨by simp, by simp, by simp, by simp⟩
    · simp [hs.defs]
    · simp [hs.hrefs]
  unfold run
  cases hr : s.root with
  | node h ks =>
    rw [hr] at hsvg
    simp only [Tree.kids] at hsvg
    have h1 := c0.enter none h
    have h2 := Collected.visitAll sel reuse ks h _ _ h1 (by rw [hr]; exact hsvg)
    refine ⟨(eventsAll h ks).foldl (step sel reuse) (Reuse.enter s none h), ?_, ?_⟩
    · simpa [subs, Tree.handle] using h2
    · rw [events, List.foldl_cons, List.foldl_append, List.foldl_cons, List.foldl_nil, step, step]
      rfl

end Verif.Reuse
