import Verif.Build.Lemmas

/-! # C41: the tree the parser builds -/

namespace Verif.Build

open Verif.Dom Verif.Arena

variable {L : Type}

theorem blank_good : Good (blank : Made L) [] (fun _ => []) := by
  refine ⟨rfl, rfl, ?_, ?_, ?_, ?_⟩
  · intro x hx; simp [blank] at hx
  · have : unloop [] (blank : Made L).store.heap = fresh := by simp [unloop, blank, fresh]
    rw [this]; exact fresh_tree
  · simp
  · simp

/-- What the parser has built, with the style sheets set apart. -/
theorem parse_good {d : L} {doc : List (Src L)} {b : Made L} (e : parseTree d doc = some b) :
    ∃ S ch, Good b S ch ∧ b.label 0 = some d ∧ 0 < b.store.made.length ∧ ShowsAll S ch b.label (ch 0) doc ∧
      Spans ch [0] (List.range b.store.made.length) ∧ (plainAll doc = true → S = []) ∧ 0 ∉ S := by
  obtain ⟨e1, g1, e2, e3⟩ := alloc_good (blank_good (L := L)) d
  have hb : (blank : Made L).store.made.length = 0 := rfl
  rw [hb] at e1 e2 e3
  obtain ⟨S, ch, as, g, n, k1, k2, k3, k4, k5⟩ := parseKids_good doc 0 0 _ [] _ b g1 (by omega) (by simp)
    (by rw [← e]; rfl)
  rw [e2] at n k1 k3 k4
  obtain ⟨s1, s2⟩ := k4 S ch b.label (fun x _ _ => ⟨rfl, rfl, Iff.rfl⟩)
  rw [List.nil_append] at k2
  refine ⟨S, ch, g, ?_, by omega, by rw [k2]; exact s1, ?_, k5, ?_⟩
  · rw [(k3 0 (by omega)).1, e3, if_pos rfl]
  · have : List.range b.store.made.length = 0 :: (List.range' (0 + 1) (b.store.made.length - (0 + 1)) ++ []) := by
      rw [List.append_nil, List.range_eq_range', show b.store.made.length = (b.store.made.length - 1) + 1 by omega,
        List.range'_succ]
      rfl
    rw [this]
    exact .cons (by rw [k2]; exact s2) .nil
  · rw [(k3 0 (by omega)).2]; simp

theorem acyclic_of_up {ch : Kids} (up : ∀ p c : Nat, c ∈ ch p → p < c) : Acyclic ch := by
  have key : ∀ a c : Nat, Desc ch a c → a < c := by
    intro a c h
    induction h with
    | child h => exact up _ _ h
    | step h _ ih => exact Nat.lt_trans (up _ _ h) ih
  intro a h
  exact Nat.lt_irrefl _ (key a a h)

theorem good_dense {b : Made L} {S : List Handle} {ch : Kids} (g : Good b S ch) : Dense b.store b.indices := by
  refine ⟨by rw [g.table], ?_⟩
  intro i a h
  rw [g.table, g.made] at h
  rw [List.getElem?_eq_some_iff] at h
  obtain ⟨h1, h2⟩ := h
  simp at h1 h2
  subst h2
  exact g.ids i h1

theorem good_inside {b : Made L} {S : List Handle} {ch : Kids} (g : Good b S ch) : Inside b.store.made ch := by
  intro p c hc
  have := g.inside p c hc
  rw [g.made]
  simp
  omega

/-- **C41 (partial)** Parsing a document in which no `style` element has readable rules gives a tree whose links
agree and that has no cycle, whose nodes are the nodes of the reader in the same order under the document node,
and whose ids are the places in document order. Missing: documents with style sheets, for which it is false
(`style_links_violated`). -/
theorem parse_spec_partial {d : L} {doc : List (Src L)} {b : Made L} (e : parseTree d doc = some b)
    (hp : plainAll doc = true) :
    ∃ ch, Tree b.store.heap ch ∧ Acyclic ch ∧ Inside b.store.made ch ∧ Dense b.store b.indices ∧
      b.label 0 = some d ∧ ShowsAll [] ch b.label (ch 0) doc ∧
      Spans ch [0] b.store.made ∧ b.indices = b.store.made := by
  obtain ⟨S, ch, g, l0, n0, s1, s2, s3, _⟩ := parse_good e
  have hS := s3 hp
  subst hS
  have ht : unloop [] b.store.heap = b.store.heap := by simp [unloop]
  refine ⟨ch, ht ▸ g.tree, acyclic_of_up (fun p c h => (g.inside p c h).1), good_inside g, good_dense g, l0, s1, ?_,
    g.table⟩
  rw [g.made]
  exact s2

/-- **C41 (limit)** The parser refuses a document if and only if it has more than 1025 levels of nodes, the
children of a `style` element with rules not being counted. -/
theorem parse_limit (d : L) (doc : List (Src L)) : parseTree d doc = none ↔ heightAll doc > 1025 := by
  rw [← Option.isNone_iff_eq_none]
  unfold parseTree
  rw [parseKids_none]
  omega

theorem good_links {b : Made L} {S : List Handle} {ch : Kids} (g : Good b S ch) {p : Handle}
    (h : ∀ x ∈ ch p, x ∉ S) : Links b.store.heap p (ch p) := by
  have l := g.tree.links p
  refine ⟨l.nodup, l.first, l.last, ?_⟩
  intro pre c post e
  obtain ⟨a1, a2, a3⟩ := l.child pre c post e
  have hc : c ∉ S := h c (by rw [e]; simp)
  exact ⟨a1, by simpa [unloop, hc] using a2, by simpa [unloop, hc] using a3⟩

theorem good_single {b : Made L} {S : List Handle} {ch : Kids} (g : Good b S ch) {p s : Handle}
    (hs : s ∈ ch p) (hS : s ∈ S) : ch p = [s] := by
  obtain ⟨_, _, _, q, hq⟩ := g.loops s hS
  have : p = q := g.tree.unique hs (by rw [hq]; simp)
  rw [this]; exact hq

theorem run_done (h : Heap) (w : List Bool) : Iter.run h w Iter.done = deque w [] := by
  induction w with
  | nil => rfl
  | cons a w ih => cases a <;> simp [Iter.run, deque, Iter.next, Iter.nextBack, Iter.done, ← ih]

/-- **C41 (children)** Whatever the document: the children of every node, taken from either end in any
alternation, are the nodes of the reader in order, also for a `style` element, whose only child is its style
sheet. -/
theorem parse_children {d : L} {doc : List (Src L)} {b : Made L} (e : parseTree d doc = some b) :
    ∃ S ch, ShowsAll S ch b.label (ch 0) doc ∧ Acyclic ch ∧
      ∀ p w, Iter.run b.store.heap w (Iter.new b.store.heap p) = deque w (ch p) := by
  obtain ⟨S, ch, g, l0, n0, s1, s2, s3, _⟩ := parse_good e
  refine ⟨S, ch, s1, acyclic_of_up (fun p c h => (g.inside p c h).1), ?_⟩
  intro p w
  by_cases hx : ∃ x ∈ ch p, x ∈ S
  · obtain ⟨s, h1, h2⟩ := hx
    have hk := good_single g h1 h2
    have hf : b.store.heap.first p = some s := by
      have := (g.tree.links p).first; rw [hk] at this; exact this
    have hl : b.store.heap.last p = some s := by
      have := (g.tree.links p).last; rw [hk] at this; exact this
    rw [hk]
    cases w with
    | nil => rfl
    | cons a w =>
      cases a
      · simp only [Iter.run, deque, Iter.new, Iter.nextBack, hf, hl]
        simp [run_done]
      · simp only [Iter.run, deque, Iter.new, Iter.next, hf, hl]
        simp [run_done]
  · have hx' : ∀ x ∈ ch p, x ∉ S := fun x h1 h2 => hx ⟨x, h1, h2⟩
    obtain ⟨f1, f2, f3, f4⟩ := new_front (good_links g hx')
    refine run_deque (good_links g hx') ?_ w [] (ch p) [] _ (by simp) f1 f3 (fun _ => ⟨rfl, rfl⟩)
    intro x hx y hy h
    rw [g.ids x (g.inside p x hx).2, g.ids y (g.inside p y hy).2] at h
    exact h

/-! ## Style sheets -/

mutual
theorem shows_style {S : List Handle} {ch : Kids} {label : Handle → Option L} (src : Src L) : ∀ a,
    Shows S ch label a src → plain src = false → ∃ s, s ∈ S ∧ Desc ch a s := by
  cases src with
  | node l style kids =>
    intro a h hp
    rw [Shows.eq_def] at h
    dsimp only at h
    cases style with
    | some r =>
      obtain ⟨_, _, s, h1, _, _, h2⟩ := h
      exact ⟨s, h2, .child (by rw [h1]; simp)⟩
    | none =>
      obtain ⟨_, _, h⟩ := h
      obtain ⟨x, hx, s, h1, h2⟩ := showsAll_style kids (ch a) h (by simpa [plain] using hp)
      rcases h2 with rfl | h2
      · exact ⟨x, h1, .child hx⟩
      · exact ⟨s, h1, .step hx h2⟩
theorem showsAll_style {S : List Handle} {ch : Kids} {label : Handle → Option L} (ks : List (Src L)) : ∀ as,
    ShowsAll S ch label as ks → plainAll ks = false → ∃ x ∈ as, ∃ s, s ∈ S ∧ (x = s ∨ Desc ch x s) := by
  cases ks with
  | nil => intro as _ h; simp [plainAll] at h
  | cons k ks =>
    intro as h hp
    cases as with
    | nil => simp [ShowsAll] at h
    | cons a as =>
      rw [ShowsAll] at h
      rw [plainAll, Bool.and_eq_false_iff] at hp
      rcases hp with hp | hp
      · obtain ⟨s, h1, h2⟩ := shows_style k a h.1 hp
        exact ⟨a, by simp, s, h1, .inr h2⟩
      · obtain ⟨x, hx, r⟩ := showsAll_style ks as h.2 hp
        exact ⟨x, by simp [hx], r⟩
end

/-- **C41 (violated)** In every document with a style sheet the style sheet is its own previous and next sibling;
removing it leaves it the first and last child of its element, with no parent, and still its own sibling. -/
theorem style_links_violated {d : L} {doc : List (Src L)} {b : Made L} (e : parseTree d doc = some b)
    (hp : plainAll doc = false) :
    ∃ p s, b.store.heap.parent s = some p ∧ b.store.heap.next s = some s ∧ b.store.heap.prev s = some s ∧
      (b.store.heap.remove s).first p = some s ∧ (b.store.heap.remove s).last p = some s ∧
      (b.store.heap.remove s).parent s = none ∧ (b.store.heap.remove s).next s = some s := by
  obtain ⟨S, ch, g, l0, n0, s1, s2, s3, _⟩ := parse_good e
  obtain ⟨x, hx, s, hs, _⟩ := showsAll_style doc _ s1 hp
  obtain ⟨_, h1, h2, p, h3⟩ := g.loops s hs
  have hpar : b.store.heap.parent s = some p := g.tree.parent (by rw [h3]; simp)
  have hf : b.store.heap.first p = some s := by
    have := (g.tree.links p).first; rw [h3] at this; exact this
  have hl : b.store.heap.last p = some s := by
    have := (g.tree.links p).last; rw [h3] at this; exact this
  refine ⟨p, s, hpar, h1, h2, ?_, ?_, ?_, ?_⟩ <;>
  simp [Heap.remove, h1, h2, hpar, hf, hl, Heap.setParent, Heap.setPrev, Heap.setNext, upd]

/-- `c` is met when walking from `a` along first children and next siblings. -/
inductive Walks (h : Heap) : Handle → Handle → Prop
  | here {a} : Walks h a a
  | next {a b c} : h.next a = some b → Walks h b c → Walks h a c
  | first {a b c} : h.first a = some b → Walks h b c → Walks h a c

theorem Walks.trans {h : Heap} {a b c : Handle} (u : Walks h a b) (v : Walks h b c) : Walks h a c := by
  induction u with
  | here => exact v
  | next e _ ih => exact .next e (ih v)
  | first e _ ih => exact .first e (ih v)

theorem Walks.congr {h g : Heap} {a b : Handle} (u : Walks h a b) (hn : g.next = h.next) (hf : g.first = h.first) :
    Walks g a b := by
  induction u with
  | here => exact .here
  | next e _ ih => exact .next (by rw [hn]; exact e) ih
  | first e _ ih => exact .first (by rw [hf]; exact e) ih

mutual
theorem number_links (fuel : Nat) : ∀ (h : Heap) (a : Handle) (i : Nat) (h' : Heap) (j : Nat),
    number fuel h a i = some (h', j) → h'.next = h.next ∧ h'.first = h.first := by
  cases fuel with
  | zero => intro h a i h' j e; simp [number] at e
  | succ fuel =>
    intro h a i h' j e
    rw [number] at e
    split at e
    · simp at e; rw [← e.1]; exact ⟨rfl, rfl⟩
    · have := numberFrom_links fuel _ _ _ _ _ e
      exact this
theorem numberFrom_links (fuel : Nat) : ∀ (h : Heap) (a : Handle) (i : Nat) (h' : Heap) (j : Nat),
    numberFrom fuel h a i = some (h', j) → h'.next = h.next ∧ h'.first = h.first := by
  cases fuel with
  | zero => intro h a i h' j e; simp [numberFrom] at e
  | succ fuel =>
    intro h a i h' j e
    rw [numberFrom] at e
    split at e
    · simp at e
    · next h1 j1 e1 =>
      have l1 := number_links fuel _ _ _ _ _ e1
      split at e
      · simp at e; rw [← e.1]; exact l1
      · have l2 := numberFrom_links fuel _ _ _ _ _ e
        exact ⟨l2.1.trans l1.1, l2.2.trans l1.2⟩
end

/-- Renumbering does not end when it meets a node that is its own next sibling. -/
theorem numberFrom_never {s : Handle} : ∀ (fuel : Nat) (h : Heap) (a : Handle) (i : Nat), h.next s = some s →
    Walks h a s → numberFrom fuel h a i = none := by
  intro fuel
  induction fuel using Nat.strongRecOn with
  | ind fuel ih =>
    intro h a i hs w
    cases fuel with
    | zero => rw [numberFrom]
    | succ fuel =>
      rw [numberFrom]
      cases e : number fuel h a (i + 1) with
      | none => rfl
      | some r =>
        obtain ⟨h1, j1⟩ := r
        obtain ⟨l1, l2⟩ := number_links fuel _ _ _ _ _ e
        dsimp only
        cases w with
        | here =>
          rw [l1, hs]
          exact ih fuel (by omega) _ _ _ (by rw [l1]; exact hs) .here
        | next en w =>
          rw [l1, en]
          exact ih fuel (by omega) _ _ _ (by rw [l1]; exact hs) (w.congr l1 l2)
        | first ef w =>
          exfalso
          cases fuel with
          | zero => simp [number] at e
          | succ fuel =>
            rw [number] at e
            have : (setId h a (i + 1)).first a = some _ := ef
            rw [this] at e
            simp only at e
            rw [ih fuel (by omega) (setId h a (i + 1)) _ _ hs (w.congr rfl rfl)] at e
            simp at e

theorem number_never {s : Handle} {h : Heap} {a f : Handle} (hs : h.next s = some s) (hf : h.first a = some f)
    (w : Walks h f s) (fuel i : Nat) : number fuel h a i = none := by
  cases fuel with
  | zero => rw [number]
  | succ fuel =>
    rw [number]
    have : (setId h a i).first a = some f := hf
    rw [this]
    exact numberFrom_never fuel (setId h a i) f i hs (w.congr rfl rfl)

/-- Every child of a node is met from its first child on. -/
theorem walks_child {b : Made L} {S : List Handle} {ch : Kids} (g : Good b S ch) {p c : Handle} (hc : c ∈ ch p) :
    ∃ f, b.store.heap.first p = some f ∧ Walks b.store.heap f c := by
  by_cases hx : ∃ x ∈ ch p, x ∈ S
  · obtain ⟨s, h1, h2⟩ := hx
    have hk := good_single g h1 h2
    have hf : b.store.heap.first p = some s := by
      have := (g.tree.links p).first; rw [hk] at this; exact this
    rw [hk] at hc
    simp at hc
    subst hc
    exact ⟨c, hf, .here⟩
  · have l := good_links g (p := p) (fun x h1 h2 => hx ⟨x, h1, h2⟩)
    have key : ∀ (pre : List Handle) (f : Handle) (done post : List Handle), ch p = done ++ pre ++ c :: post →
        (pre ++ [c]).head? = some f → Walks b.store.heap f c := by
      intro pre
      induction pre with
      | nil => intro f done post e hf; simp at hf; subst hf; exact .here
      | cons x pre ih =>
        intro f done post e hf
        simp at hf
        subst hf
        have hn := (l.child done x (pre ++ c :: post) (by rw [e]; simp)).2.2
        obtain ⟨y, hy⟩ : ∃ y, (pre ++ [c]).head? = some y := by cases pre <;> simp
        refine .next (b := y) ?_ (ih y (done ++ [x]) post (by rw [e]; simp) hy)
        rw [hn, ← hy]
        cases pre <;> simp
    obtain ⟨pre, post, e⟩ := List.append_of_mem hc
    obtain ⟨f, hf⟩ : ∃ f, (pre ++ [c]).head? = some f := by cases pre <;> simp
    refine ⟨f, ?_, key pre f [] post (by simpa using e) hf⟩
    rw [l.first, e, ← hf]
    cases pre <;> simp

theorem walks_desc {b : Made L} {S : List Handle} {ch : Kids} (g : Good b S ch) {a c : Handle} (h : Desc ch a c) :
    ∃ f, b.store.heap.first a = some f ∧ Walks b.store.heap f c := by
  induction h with
  | child h => exact walks_child g h
  | step h _ ih =>
    obtain ⟨f, h1, h2⟩ := walks_child g h
    obtain ⟨f', h3, h4⟩ := ih
    exact ⟨f, h1, h2.trans (.first h3 h4)⟩

theorem foldl_links (l : List Handle) (v : Nat) (h : Heap) :
    (l.foldl (fun h n => setId h n v) h).next = h.next ∧ (l.foldl (fun h n => setId h n v) h).first = h.first := by
  induction l generalizing h with
  | nil => exact ⟨rfl, rfl⟩
  | cons a l ih => exact ih _

/-- **C41 (renumbering)** Renumbering a freshly parsed document ends if and only if it has no style sheet: with
one, the loop over the siblings never ends, however long it is run. -/
theorem reorder_ends_iff {d : L} {doc : List (Src L)} {b : Made L} (e : parseTree d doc = some b) :
    (∃ fuel, (reorder fuel b.store b.indices 0).isSome = true) ↔ plainAll doc = true := by
  constructor
  · rintro ⟨fuel, hf⟩
    cases hp : plainAll doc with
    | true => rfl
    | false =>
      exfalso
      obtain ⟨S, ch, g, l0, n0, s1, s2, s3, _⟩ := parse_good e
      obtain ⟨x, hx, s, hs, hxs⟩ := showsAll_style doc _ s1 hp
      obtain ⟨_, h1, h2, p, h3⟩ := g.loops s hs
      have hd : Desc ch 0 s := by
        rcases hxs with rfl | hxs
        · exact .child hx
        · exact .step hx hxs
      obtain ⟨f, hf1, hf2⟩ := walks_desc g hd
      obtain ⟨k1, k2⟩ := foldl_links b.indices b.store.made.length b.store.heap
      have := number_never (s := s) (a := 0) (f := f) (h := b.indices.foldl (fun h n => setId h n b.store.made.length)
        b.store.heap) (by rw [k1]; exact h1) (by rw [k2]; exact hf1) (hf2.congr k1 k2) fuel 0
      simp [reorder, this] at hf
  · intro hp
    obtain ⟨ch, t, ac, ins, dn, l0, s1, s2, s3⟩ := parse_spec_partial e hp
    have h0 : 0 ∈ b.store.made := by
      have := (s2.mem_iff 0).mpr (.inl (by simp))
      exact this
    obtain ⟨doc', s', ind', N, _, h, _⟩ := reorder_spec t ac ins dn h0
    exact ⟨N, by rw [h N (Nat.le_refl _)]; rfl⟩

/-! ## Examples -/

/-- A document `<svg>…<style>…</style><g><path/>…</g></svg>` by names; the texts are labels too. -/
def sample : List (Src String) :=
  [.node "svg" none [.node "style" (some "rules") [.node "text" none []], .node "g" none [.node "path" none []]]]

/-- The same without the style sheet. -/
def sample' : List (Src String) :=
  [.node "!" none [], .node "svg" none [.node "title" none [.node "text" none []], .node "g" none [.node "path" none []]]]

/-- The labels of the children of a node of the parsed document. -/
def below (doc : List (Src String)) (p : Handle) : Option (List (Option String)) :=
  (parseTree "document" doc).map fun b => (Verif.Dom.seen b.store.heap p).map b.label

example : below sample' 0 = some [some "!", some "svg"] ∧ below sample' 2 = some [some "title", some "g"] ∧
    below sample' 3 = some [some "text"] ∧ below sample' 5 = some [some "path"] ∧ plainAll sample' = true := by
  decide +kernel

example : below sample 1 = some [some "style", some "g"] ∧ below sample 2 = some [some "rules"] ∧
    plainAll sample = false := by
  decide +kernel

example : ∃ b, parseTree "document" sample' = some b ∧
    (reorder 100 b.store b.indices 0).isSome = true := by
  refine ⟨_, rfl, ?_⟩
  decide +kernel

example : ∃ b, parseTree "document" sample = some b ∧ b.store.heap.next 3 = some 3 ∧
    (∀ fuel, reorder fuel b.store b.indices 0 = none) := by
  obtain ⟨b, h⟩ : ∃ b, parseTree "document" sample = some b := ⟨_, rfl⟩
  refine ⟨b, h, ?_, ?_⟩
  · have : (parseTree "document" sample).bind (fun b => b.store.heap.next 3) = some 3 := by decide +kernel
    rw [h] at this
    exact this
  · intro fuel
    have := (not_congr (reorder_ends_iff h)).mpr (by decide +kernel)
    cases e : reorder fuel b.store b.indices 0 with
    | none => rfl
    | some r => exact absurd ⟨fuel, by rw [e]; rfl⟩ this

end Verif.Build
