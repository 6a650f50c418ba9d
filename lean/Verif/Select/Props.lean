import Verif.Select.Lemmas

/-! # C67: what a selector selects -/

namespace Verif.Select

open Verif.CleanAttrs (white splitWhitespace)

/-! ## The elements that are tested -/

theorem children_iff (r l : Loc) : l ∈ r.children ↔ IsChild r l := by
  simp only [Loc.children, goRight_iff, List.append_nil, IsChild, IsParent]
  refine and_congr_right fun _ => ⟨?_, fun h => ⟨_, h, by simp⟩⟩
  rintro ⟨mid, h, e⟩
  rw [e]; simpa using h

theorem Below.first {r c l : Loc} {n : Nat} (hc : c ∈ r.children) (h : Below c n l) : Below r (n + 1) l := by
  induction h with
  | child h => exact .deeper (.child ((children_iff _ _).1 hc)) h
  | deeper _ h ih => exact .deeper ih h

theorem Below.cases_first {r l : Loc} {n : Nat} (h : Below r n l) : ∃ c ∈ r.children, l = c ∨ ∃ m, Below c m l := by
  induction h with
  | child h => exact ⟨_, (children_iff _ _).2 h, .inl rfl⟩
  | deeper _ h ih =>
    obtain ⟨c, hc, rfl | ⟨m, hm⟩⟩ := ih
    · exact ⟨_, hc, .inr ⟨1, .child h⟩⟩
    · exact ⟨c, hc, .inr ⟨m + 1, .deeper hm h⟩⟩

def weight : List Loc → Nat
  | [] => 0
  | l :: ls => l.here.node.size + weight ls

theorem weight_append (a b : List Loc) : weight (a ++ b) = weight a + weight b := by
  induction a with
  | nil => simp [weight]
  | cons x a ih => simp only [List.cons_append, weight, ih]; omega

theorem goRight_weight (up : List Frame) (b af : List Node) : weight (goRight up b af) ≤ sizeAll af := by
  induction af generalizing b with
  | nil => simp [goRight, weight]
  | cons x af ih =>
    cases x with
    | elem n as ks => simp only [goRight, weight, sizeAll, Frame.node]; have := ih (.elem n as ks :: b); omega
    | text t => simp only [goRight, sizeAll, Node.size]; have := ih (.text t :: b); omega
    | other => simp only [goRight, sizeAll, Node.size]; have := ih (.other :: b); omega

theorem queue_iff (l : Loc) (fuel : Nat) (q : List Loc) (h : weight q ≤ fuel) :
    l ∈ queue fuel q ↔ ∃ x ∈ q, l = x ∨ ∃ n, Below x n l := by
  induction fuel generalizing q with
  | zero =>
    cases q with
    | nil => simp [queue]
    | cons x q => simp only [weight, Frame.node, Node.size] at h; omega
  | succ fuel ih =>
    cases q with
    | nil => simp [queue]
    | cons x q =>
      have w : weight (q ++ x.children) ≤ fuel := by
        have := goRight_weight (x.here :: x.up) [] x.here.kids
        rw [weight_append]
        simp only [weight, Frame.node, Node.size] at h
        simp only [Loc.children]
        omega
      simp only [queue, List.mem_cons, ih _ w, List.mem_append]
      constructor
      · rintro (rfl | ⟨y, hy | hy, e⟩)
        · exact ⟨_, .inl rfl, .inl rfl⟩
        · exact ⟨y, .inr hy, e⟩
        · refine ⟨x, .inl rfl, .inr ?_⟩
          rcases e with rfl | ⟨n, e⟩
          · exact ⟨1, .child ((children_iff _ _).1 hy)⟩
          · exact ⟨n + 1, e.first hy⟩
      · rintro ⟨y, rfl | hy, e⟩
        · rcases e with rfl | ⟨n, e⟩
          · exact .inl rfl
          · obtain ⟨c, hc, e⟩ := e.cases_first
            exact .inr ⟨c, .inr hc, e⟩
        · exact .inr ⟨y, .inl hy, e⟩

theorem below_iff (r l : Loc) : l ∈ r.below ↔ ∃ n, Below r n l := by
  rw [Loc.below, queue_iff _ _ _ (by exact goRight_weight _ _ _)]
  constructor
  · rintro ⟨x, hx, rfl | ⟨n, e⟩⟩
    · exact ⟨1, .child ((children_iff _ _).1 hx)⟩
    · exact ⟨n + 1, e.first hx⟩
  · rintro ⟨n, h⟩
    exact h.cases_first

/-- The places of an element and its ancestors among their siblings, from the top. -/
def Loc.path (l : Loc) : List Nat := ((l.here :: l.up).map fun f => f.before.length).reverse

/-- Fewer levels first, and document order in a level. -/
def Sooner (a b : Loc) : Prop := a.up.length < b.up.length ∨ (a.up.length = b.up.length ∧ a.path < b.path)

theorem path_length (l : Loc) : l.path.length = l.up.length + 1 := by simp [Loc.path]

theorem child_path {r l : Loc} (h : IsParent r l) : l.path = r.path ++ [l.here.before.length] := by
  simp only [Loc.path, List.map_cons, List.reverse_cons]
  rw [h]
  simp

theorem child_depth {r l : Loc} (h : IsParent r l) : l.up.length = r.up.length + 1 := by rw [h]; simp

theorem lt_append {a b : List Nat} (x y : List Nat) (hl : a.length = b.length) (h : a < b) : a ++ x < b ++ y := by
  induction a generalizing b with
  | nil => cases b with
    | nil => exact absurd h (List.lt_irrefl _)
    | cons _ _ => simp at hl
  | cons c a ih => cases b with
    | nil => simp at hl
    | cons d b =>
      simp only [List.cons_append, List.cons_lt_cons_iff] at h ⊢
      rcases h with h | ⟨h, h'⟩
      · exact .inl h
      · exact .inr ⟨h, ih (by simpa using hl) h'⟩

theorem append_lt (a : List Nat) {i j : Nat} (h : i < j) : a ++ [i] < a ++ [j] := by
  induction a with
  | nil => rw [List.nil_append, List.nil_append, List.cons_lt_cons_iff]; exact .inl h
  | cons c a ih => rw [List.cons_append, List.cons_append, List.cons_lt_cons_iff]; exact .inr ⟨rfl, ih⟩

theorem goRight_before (up : List Frame) (b af : List Node) {l : Loc} (h : l ∈ goRight up b af) : b.length ≤ l.here.before.length := by
  obtain ⟨_, m, _, e⟩ := (goRight_iff l up b af).1 h
  rw [e]; simp

theorem goRight_sorted (up : List Frame) (b af : List Node) :
    (goRight up b af).Pairwise fun x y => x.here.before.length < y.here.before.length := by
  induction af generalizing b with
  | nil => simp [goRight]
  | cons x af ih =>
    cases x with
    | elem n as ks =>
      simp only [goRight, List.pairwise_cons]
      refine ⟨fun l hl => ?_, ih _⟩
      have := goRight_before _ _ _ hl
      simp only [List.length_cons] at this ⊢
      omega
    | text t => exact ih _
    | other => exact ih _

theorem children_sorted (r : Loc) : r.children.Pairwise Sooner := by
  refine (goRight_sorted (r.here :: r.up) [] r.here.kids).imp_of_mem ?_
  intro a b ha hb h
  have ha := ((children_iff r a).1 ha).1
  have hb := ((children_iff r b).1 hb).1
  refine .inr ⟨by rw [child_depth ha, child_depth hb], ?_⟩
  rw [child_path ha, child_path hb]
  exact append_lt _ h

theorem Sooner.trans {a b c : Loc} (h : Sooner a b) (k : Sooner b c) : Sooner a c := by
  rcases h with h | ⟨h, h'⟩ <;> rcases k with k | ⟨k, k'⟩
  · exact .inl (by omega)
  · exact .inl (by omega)
  · exact .inl (by omega)
  · exact .inr ⟨by omega, List.lt_trans h' k'⟩

theorem Below.depth {r l : Loc} {n : Nat} (h : Below r n l) : l.up.length = r.up.length + n := by
  induction h with
  | child h => exact child_depth h.1
  | deeper _ h ih => rw [child_depth h.1, ih]; omega

/-- The queue: in order, and those of the next level are children of elements before the first one. -/
def Queued : List Loc → Prop
  | [] => True
  | l :: q => (l :: q).Pairwise Sooner ∧
    ∀ x ∈ q, x.up.length = l.up.length ∨ ∃ p, IsParent p x ∧ p.up.length = l.up.length ∧ p.path < l.path

theorem queued_step {l : Loc} {q : List Loc} (h : Queued (l :: q)) : Queued (q ++ l.children) := by
  obtain ⟨hs, hq⟩ := h
  have hs' := List.pairwise_cons.1 hs
  have hc : ∀ x ∈ l.children, IsParent l x := fun x hx => ((children_iff l x).1 hx).1
  have sorted : (q ++ l.children).Pairwise Sooner := by
    rw [List.pairwise_append]
    refine ⟨hs'.2, children_sorted l, fun x hx y hy => ?_⟩
    have hy := hc y hy
    rcases hq x hx with e | ⟨p, hp, hd, hlt⟩
    · exact .inl (by rw [child_depth hy]; omega)
    · refine .inr ⟨by rw [child_depth hp, child_depth hy, hd], ?_⟩
      rw [child_path hp, child_path hy]
      exact lt_append _ _ (by rw [path_length, path_length, hd]) hlt
  cases q with
  | nil =>
    cases e : l.children with
    | nil => exact True.intro
    | cons c cs =>
      rw [e] at sorted hc
      refine ⟨sorted, fun x hx => .inl ?_⟩
      rw [child_depth (hc x (by simp [hx])), child_depth (hc c (by simp))]
  | cons m q =>
    refine ⟨sorted, fun x hx => ?_⟩
    have hm := hs'.1 m (by simp)
    rcases hq m (by simp) with e | ⟨p, hp, hd, hlt⟩
    · -- the next one is in the same level
      have hml : l.path < m.path := by
        rcases hm with hm | ⟨_, hm⟩
        · omega
        · exact hm
      rcases List.mem_append.1 hx with hx | hx
      · rcases hq x (by simp [hx]) with e' | ⟨p, hp, hd, hlt⟩
        · exact .inl (by omega)
        · exact .inr ⟨p, hp, by omega, List.lt_trans hlt hml⟩
      · exact .inr ⟨l, hc x hx, by omega, hml⟩
    · -- the next one is in the next level
      left
      have hmd := child_depth hp
      rcases List.mem_append.1 hx with hx | hx
      · have : Sooner m x := (List.pairwise_cons.1 hs'.2).1 x hx
        rcases hq x (by simp [hx]) with e' | ⟨p', hp', hd', _⟩
        · rcases this with h | ⟨h, _⟩ <;> omega
        · have := child_depth hp'; omega
      · have := child_depth (hc x hx); omega

theorem queue_sorted (fuel : Nat) (q : List Loc) (h : weight q ≤ fuel) (hq : Queued q) : (queue fuel q).Pairwise Sooner := by
  induction fuel generalizing q with
  | zero => simp [queue]
  | succ fuel ih =>
    cases q with
    | nil => simp [queue]
    | cons l q =>
      have w : weight (q ++ l.children) ≤ fuel := by
        have := goRight_weight (l.here :: l.up) [] l.here.kids
        rw [weight_append]
        simp only [weight, Frame.node, Node.size] at h
        simp only [Loc.children]
        omega
      simp only [queue, List.pairwise_cons]
      refine ⟨fun y hy => ?_, ih _ w (queued_step hq)⟩
      obtain ⟨x, hx, e⟩ := (queue_iff y fuel _ w).1 hy
      have hlx : Sooner l x := by
        rcases List.mem_append.1 hx with hx | hx
        · exact (List.pairwise_cons.1 hq.1).1 x hx
        · exact .inl (by rw [child_depth ((children_iff l x).1 hx).1]; omega)
      rcases e with rfl | ⟨n, e⟩
      · exact hlx
      · refine hlx.trans (.inl ?_)
        have := e.depth
        cases e <;> omega

theorem below_sorted (r : Loc) : r.below.Pairwise Sooner := by
  refine queue_sorted _ _ (goRight_weight _ _ _) ?_
  cases e : r.children with
  | nil => exact True.intro
  | cons c cs =>
    have hc : ∀ x ∈ r.children, IsParent r x := fun x hx => ((children_iff r x).1 hx).1
    have hs := children_sorted r
    rw [e] at hc hs
    refine ⟨hs, fun x hx => .inl ?_⟩
    rw [child_depth (hc x (by simp [hx])), child_depth (hc c (by simp))]

/-! ## Documents and selectors that are treated as CSS says -/

mutual
/-- All elements in the tree have the property. -/
def Node.All (P : Name → List Attr → Prop) : Node → Prop
  | .elem n as ks => P n as ∧ AllOf P ks
  | _ => True
def AllOf (P : Name → List Attr → Prop) : List Node → Prop
  | [] => True
  | n :: ns => n.All P ∧ AllOf P ns
end

theorem allOf_iff {P : Name → List Attr → Prop} {ns : List Node} : AllOf P ns ↔ ∀ n ∈ ns, n.All P := by
  induction ns with
  | nil => simp [AllOf]
  | cons n ns ih => simp [AllOf, ih]

/-- All elements around, above and below have the property. -/
def Throughout (P : Name → List Attr → Prop) (l : Loc) : Prop :=
  ∀ f ∈ l.here :: l.up, f.node.All P ∧ AllOf P f.before ∧ AllOf P f.after

theorem Throughout.parent {P : Name → List Attr → Prop} {p l : Loc} (h : Throughout P l) (hp : IsParent p l) : Throughout P p := by
  intro f hf
  apply h
  rw [hp]
  exact List.mem_cons_of_mem _ hf

theorem Throughout.ancestor {P : Name → List Attr → Prop} {p l : Loc} (h : Throughout P l) (hp : IsAncestor p l) : Throughout P p := by
  induction hp with
  | parent hp => exact h.parent hp
  | above _ hp ih => exact ih (h.parent hp)

theorem Throughout.earlier {P : Name → List Attr → Prop} {a l : Loc} (h : Throughout P l) (e : IsEarlier a l) : Throughout P a := by
  obtain ⟨mid, hu, hb, ha⟩ := e
  intro f hf
  rcases List.mem_cons.1 hf with rfl | hf
  · have := h l.here (by simp)
    rw [allOf_iff, allOf_iff, hb] at this
    rw [allOf_iff, allOf_iff, ha]
    refine ⟨this.2.1 _ (by simp), fun n hn => this.2.1 n (by simp [hn]), fun n hn => ?_⟩
    simp only [List.mem_append, List.mem_reverse, List.mem_cons] at hn
    rcases hn with hn | rfl | hn
    · exact this.2.1 n (by simp [hn])
    · exact this.1
    · exact this.2.2 n hn
  · exact h f (by rw [← hu]; exact List.mem_cons_of_mem _ hf)

theorem Throughout.child {P : Name → List Attr → Prop} {r l : Loc} (h : Throughout P r) (hc : IsChild r l) : Throughout P l := by
  obtain ⟨hp, hk⟩ := hc
  have hr := (h r.here (by simp)).1
  simp only [Frame.node, Node.All, hk, allOf_iff] at hr
  intro f hf
  rcases List.mem_cons.1 hf with rfl | hf
  · rw [allOf_iff, allOf_iff]
    exact ⟨hr.2 _ (by simp [Frame.node]), fun n hn => hr.2 n (by simp [hn]), fun n hn => hr.2 n (by simp [hn])⟩
  · exact h f (by rw [← hp]; exact hf)

theorem Throughout.below {P : Name → List Attr → Prop} {r l : Loc} {n : Nat} (h : Throughout P r) (hb : Below r n l) : Throughout P l := by
  induction hb with
  | child hc => exact h.child hc
  | deeper _ hc ih => exact ih.child hc

theorem Single.child {r l : Loc} (h : Single r) (hc : IsChild r l) : Single l := by
  have hp := hc.1
  intro f hf
  apply h f
  rw [hp] at hf
  simpa using hf

theorem Single.below {r l : Loc} {n : Nat} (h : Single r) (hb : Below r n l) : Single l := by
  induction hb with
  | child hc => exact h.child hc
  | deeper _ hc ih => exact ih.child hc

/-- Attributes are there once, are written as they are in the document, and classes are separated by whitespace of CSS. -/
def Faithful (E : Env) (n : Name) (as : List Attr) : Prop :=
  (∀ a ∈ as, ∀ b ∈ as, a.pre = b.pre → a.loc = b.loc → a = b) ∧ (∀ a ∈ as, E.print n a = some a.val) ∧
    ∀ a ∈ as, a.pre = none → a.loc = lit "class" → ∀ c ∈ a.val, white c = space c

mutual
/-- Selectors that ask for names in lower case, and for no more than names, ids, classes, attributes without a namespace, the root and
places; other places than the first and last only if no two wrappers are ever at the same address. -/
def Sel.Plain (E : Env) : Sel → Prop
  | .one c => c.Plain E
  | .join s _ c => s.Plain E ∧ c.Plain E
def Comp.Plain (E : Env) : Comp → Prop
  | .nil => True
  | .cons s c => s.Plain E ∧ c.Plain E
def Simple.Plain (E : Env) : Simple → Prop
  | .any => True
  | .name n => lower n = n
  | .id _ => True
  | .cls _ => True
  | .attr w n _ f => w = false ∧ lower n = n ∧ (f = .auto → E.noCase n = false)
  | .root => True
  | .empty => False
  | .link => False
  | .scope => False
  | .nth t _ a b => (t = false ∧ a = 0 ∧ b = 1) ∨ ∀ x y, E.addr x = E.addr y → x = y
  | .neg ss => ss.Plain E
  | .isAny ss => ss.Plain E
def Sels.Plain (E : Env) : Sels → Prop
  | .nil => True
  | .cons s ss => s.Plain E ∧ ss.Plain E
end

theorem getLocal_iff {E : Env} {nm : Name} {as : List Attr} (h : Faithful E nm as) (n : Str) (a : Attr) :
    getLocal as n = some a ↔ a ∈ as ∧ a.pre = none ∧ a.loc = n := by
  constructor
  · intro e
    have hm := List.mem_of_find?_eq_some e
    have hp := List.find?_some e
    simp only [Bool.and_eq_true, Option.isNone_iff_eq_none, decide_eq_true_eq] at hp
    exact ⟨hm, hp⟩
  · rintro ⟨hm, hp, hl⟩
    cases e : getLocal as n with
    | none =>
      have := List.find?_eq_none.1 e a hm
      simp [hp, hl] at this
    | some b =>
      have hm' := List.mem_of_find?_eq_some e
      have hp' := List.find?_some e
      simp only [Bool.and_eq_true, Option.isNone_iff_eq_none, decide_eq_true_eq] at hp'
      rw [h.1 a hm b hm' (by rw [hp, hp'.1]) (by rw [hl, hp'.2])]

theorem piece_congr {p q : Nat → Bool} {w v : Str} (h : ∀ c ∈ v, p c = q c) : Piece p w v ↔ Piece q w v := by
  have key : ∀ {p q : Nat → Bool}, (∀ c ∈ v, p c = q c) → Piece p w v → Piece q w v := by
    rintro p q h ⟨hw, a, b, e, ha, hb⟩
    refine ⟨fun c hc => by rw [← h c (by rw [e]; simp [hc])]; exact hw c hc, a, b, e, ?_, ?_⟩
    · rcases ha with ha | ⟨a', c, rfl, hc⟩
      · exact .inl ha
      · exact .inr ⟨a', c, rfl, by rw [← h c (by rw [e]; simp)]; exact hc⟩
    · rcases hb with hb | ⟨c, b', rfl, hc⟩
      · exact .inl hb
      · exact .inr ⟨c, b', rfl, by rw [← h c (by rw [e]; simp)]; exact hc⟩
  exact ⟨key h, key fun c hc => (h c hc).symm⟩

theorem faithful {E : Env} {l : Loc} (h : Throughout (Faithful E) l) : Faithful E l.here.name l.here.attrs :=
  (h l.here (by simp)).1.1

mutual
theorem sel_right {E : Env} {sc : Option Nat} {sc' : Option Loc} : ∀ {s : Sel} {l : Loc}, s.Plain E → Single l → Throughout (Faithful E) l →
    Right E (sel E sc s l) (Matches sc' s l)
  | .one c, l, hp, h1, h2 => by
    simp only [sel, Matches]
    exact comp_right hp h1 h2
  | .join s .child c, l, hp, h1, h2 => by
    simp only [sel, Matches]
    refine (comp_right hp.2 h1 h2).and ?_
    refine (Right.any (P := Matches sc' s) fun p hp' => sel_right hp.1 ?_ ?_).of ?_
    · exact h1.parent ((parent_iff p l).1 hp')
    · exact h2.parent ((parent_iff p l).1 hp')
    · simp only [parent_iff]
  | .join s .descendant c, l, hp, h1, h2 => by
    simp only [sel, Matches]
    refine (comp_right hp.2 h1 h2).and ?_
    refine (Right.any (P := Matches sc' s) fun p hp' => sel_right hp.1 ?_ ?_).of ?_
    · exact h1.ancestor ((ancestors_iff p l).1 hp')
    · exact h2.ancestor ((ancestors_iff p l).1 hp')
    · simp only [ancestors_iff]
  | .join s .next c, l, hp, h1, h2 => by
    simp only [sel, Matches]
    refine (comp_right hp.2 h1 h2).and ?_
    refine (Right.any (P := Matches sc' s) fun p hp' => sel_right hp.1 ?_ ?_).of ?_
    · exact h1.earlier ((left_iff h1).1 hp').earlier
    · exact h2.earlier ((left_iff h1).1 hp').earlier
    · simp only [left_iff h1]
  | .join s .later c, l, hp, h1, h2 => by
    simp only [sel, Matches]
    refine (comp_right hp.2 h1 h2).and ?_
    refine (Right.any (P := Matches sc' s) fun p hp' => sel_right hp.1 ?_ ?_).of ?_
    · exact h1.earlier ((lefts_iff h1).1 hp')
    · exact h2.earlier ((lefts_iff h1).1 hp')
    · simp only [lefts_iff h1]
theorem comp_right {E : Env} {sc : Option Nat} {sc' : Option Loc} : ∀ {s : Comp} {l : Loc}, s.Plain E → Single l → Throughout (Faithful E) l →
    Right E (comp E sc s l) (MatchesComp sc' s l)
  | .nil, l, _, _, _ => by simp only [comp, MatchesComp]; exact .ret (by simp)
  | .cons s c, l, hp, h1, h2 => by
    simp only [comp, MatchesComp]
    exact (simple_right hp.1 h1 h2).and (comp_right hp.2 h1 h2)
theorem simple_right {E : Env} {sc : Option Nat} {sc' : Option Loc} : ∀ {s : Simple} {l : Loc}, s.Plain E → Single l → Throughout (Faithful E) l →
    Right E (simple E sc s l) (MatchesSimple sc' s l)
  | .any, l, _, _, _ => by simp only [simple, MatchesSimple]; exact .ret (by simp)
  | .name n, l, hp, _, _ => by
    simp only [simple, MatchesSimple]
    refine .ret ?_
    simp only [Simple.Plain] at hp
    simp [hasLocalName, selectName, isHtml, hp]
  | .id n, l, _, _, h2 => by
    simp only [simple, MatchesSimple]
    refine .ret ?_
    have hg := getLocal_iff (faithful h2) (lit "id")
    unfold hasId
    cases e : getLocal l.here.attrs (lit "id") with
    | none =>
      simp only [Bool.false_eq_true, false_iff]
      rintro ⟨a, ha, hp, hl, _⟩
      have := (hg a).2 ⟨ha, hp, hl⟩
      rw [e] at this; cases this
    | some b =>
      simp only [decide_eq_true_eq]
      constructor
      · intro hv; exact ⟨b, ((hg b).1 e).1, ((hg b).1 e).2.1, ((hg b).1 e).2.2, hv⟩
      · rintro ⟨a, ha, hp, hl, hv⟩
        have := (hg a).2 ⟨ha, hp, hl⟩
        rw [e] at this; cases this; exact hv
  | .cls n, l, _, _, h2 => by
    simp only [simple, MatchesSimple]
    refine .ret ?_
    have hg := getLocal_iff (faithful h2) (lit "class")
    have hw : ∀ a ∈ l.here.attrs, a.pre = none → a.loc = lit "class" → ((splitWhitespace a.val).contains n = true ↔ IsWord n a.val) := by
      intro a ha hp hl
      rw [List.contains_iff_mem, splitWhite_iff, isWord_iff, piece_congr ((faithful h2).2.2 a ha hp hl)]
    unfold hasClass
    cases e : getLocal l.here.attrs (lit "class") with
    | none =>
      simp only [Bool.false_eq_true, false_iff]
      rintro ⟨a, ha, hp, hl, _⟩
      have := (hg a).2 ⟨ha, hp, hl⟩
      rw [e] at this; cases this
    | some b =>
      have hb := (hg b).1 e
      simp only
      rw [hw b hb.1 hb.2.1 hb.2.2]
      constructor
      · intro hv; exact ⟨b, hb.1, hb.2.1, hb.2.2, hv⟩
      · rintro ⟨a, ha, hp, hl, hv⟩
        have := (hg a).2 ⟨ha, hp, hl⟩
        rw [e] at this; cases this; exact hv
  | .attr w n o f, l, hp, _, h2 => by
    simp only [simple, MatchesSimple]
    refine .ret ?_
    obtain ⟨rfl, hn, hf⟩ := hp
    have hg := getLocal_iff (faithful h2) n
    have hs : selectName l n = n := by simp [selectName, isHtml, hn]
    have hv : ∀ v, (if caseless E l n f = true then eval o.lower (lower v) else eval o v) = true ↔ SaysFlag f o v := by
      intro v
      cases f with
      | i => simp only [caseless, if_true, SaysFlag, eval_iff]
      | s => simp only [caseless, Bool.false_eq_true, if_false, SaysFlag, eval_iff]
      | auto =>
        have : caseless E l n .auto = false := by simp [caseless, isHtml, hn, hf rfl]
        simp only [this, Bool.false_eq_true, if_false, SaysFlag, eval_iff]
    unfold attrMatches
    rw [hs]
    cases e : getLocal l.here.attrs n with
    | none =>
      simp only [Bool.false_eq_true, false_or, false_iff]
      rintro ⟨a, ha, hp, hl, _⟩
      have := (hg a).2 ⟨ha, hp, hl⟩
      rw [e] at this; cases this
    | some b =>
      have hb := (hg b).1 e
      simp only [(faithful h2).2.1 b hb.1, Bool.false_eq_true, false_or]
      rw [hv]
      constructor
      · intro hv; exact ⟨b, hb.1, hb.2.1, hb.2.2, hv⟩
      · rintro ⟨a, ha, hp, hl, hv⟩
        have := (hg a).2 ⟨ha, hp, hl⟩
        rw [e] at this; cases this; exact hv
  | .root, l, _, _, _ => by simp only [simple, MatchesSimple]; exact .ret (by simp [isRoot])
  | .empty, l, hp, _, _ => by simp [Simple.Plain] at hp
  | .link, l, hp, _, _ => by simp [Simple.Plain] at hp
  | .scope, l, hp, _, _ => by simp [Simple.Plain] at hp
  | .nth t e a b, l, hp, h1, _ => by
    simp only [simple, MatchesSimple]
    rcases hp with ⟨rfl, rfl, rfl⟩ | hp
    · exact nth_edge h1 e
    · exact nth_any hp h1 t e a b
  | .neg ss, l, hp, h1, h2 => by
    simp only [simple, MatchesSimple]
    exact (sels_right hp h1 h2).neg
  | .isAny ss, l, hp, h1, h2 => by
    simp only [simple, MatchesSimple]
    exact sels_right hp h1 h2
theorem sels_right {E : Env} {sc : Option Nat} {sc' : Option Loc} : ∀ {s : Sels} {l : Loc}, s.Plain E → Single l → Throughout (Faithful E) l →
    Right E (sels E sc s l) (MatchesSels sc' s l)
  | .nil, l, _, _, _ => by simp only [sels, MatchesSels]; exact .ret (by simp)
  | .cons s ss, l, hp, h1, h2 => by
    simp only [sels, MatchesSels]
    exact (sel_right hp.1 h1 h2).or (sels_right hp.2 h1 h2)
end

theorem pick_mem {E : Env} {sc : Option Nat} {ss : Sels} {P : Loc → Prop} {ls : List Loc} (h : ∀ l ∈ ls, Right E (sels E sc ss l) (P l))
    {c : Cache} (g : Good E c) (x : Loc) : x ∈ pick E sc ss ls c ↔ x ∈ ls ∧ P x := by
  induction ls generalizing c with
  | nil => simp [pick]
  | cons l ls ih =>
    obtain ⟨h1, h2⟩ := h l (by simp) c g
    have ih := ih (fun l hl => h l (by simp [hl])) h2
    simp only [pick]
    cases e : (sels E sc ss l c).1 with
    | true =>
      simp only [if_true, List.mem_cons, ih]
      constructor
      · rintro (rfl | ⟨hx, hp⟩)
        · exact ⟨.inl rfl, h1.1 e⟩
        · exact ⟨.inr hx, hp⟩
      · rintro ⟨rfl | hx, hp⟩
        · exact .inl rfl
        · exact .inr ⟨hx, hp⟩
    | false =>
      simp only [Bool.false_eq_true, if_false, ih, List.mem_cons]
      constructor
      · rintro ⟨hx, hp⟩; exact ⟨.inr hx, hp⟩
      · rintro ⟨rfl | hx, hp⟩
        · have := h1.2 hp; rw [e] at this; cases this
        · exact ⟨hx, hp⟩

theorem pick_sublist (E : Env) (sc : Option Nat) (ss : Sels) (ls : List Loc) (c : Cache) : (pick E sc ss ls c).Sublist ls := by
  induction ls generalizing c with
  | nil => exact .slnil
  | cons l ls ih =>
    simp only [pick]
    split
    · exact (ih _).cons_cons _
    · exact (ih _).cons _

/-! ## The claims -/

/-- **C67 (order)** Whatever the selector, elements are given level by level and in document order within a level, all of them below the
element that is asked, and none twice. -/
theorem select_order (E : Env) (addr : Nat) (root : Loc) (ss : Sels) :
    (select E addr root ss).Pairwise Sooner ∧ ∀ l ∈ select E addr root ss, ∃ n, Below root n l :=
  ⟨(below_sorted root).sublist (pick_sublist ..), fun l hl => (below_iff root l).1 ((pick_sublist ..).subset hl)⟩

theorem sooner_ne {a b : Loc} (h : Sooner a b) : a ≠ b := by
  rintro rfl
  rcases h with h | ⟨_, h⟩
  · omega
  · exact List.lt_irrefl _ h

/-- **C67 (each once)** -/
theorem select_nodup (E : Env) (addr : Nat) (root : Loc) (ss : Sels) : (select E addr root ss).Pairwise (· ≠ ·) :=
  (select_order E addr root ss).1.imp sooner_ne

/-- **C67 (which)** For all documents whose attributes are written as they are, and all selectors that ask for names in lower case, ids,
classes, attributes without a namespace, the root, first and last children (and other places, if addresses are not used twice), with
combinators, `:not` and `:is`: exactly the elements below the element asked are given that match by the rules of CSS. -/
theorem select_partial {E : Env} {addr : Nat} {root : Loc} {ss : Sels} (hp : ss.Plain E) (h1 : Single root)
    (h2 : Throughout (Faithful E) root) (sc : Option Loc) (l : Loc) :
    l ∈ select E addr root ss ↔ (∃ n, Below root n l) ∧ MatchesSels sc ss l := by
  unfold select
  rw [pick_mem (P := MatchesSels sc ss) _ (good_nil E), below_iff]
  intro l hl
  obtain ⟨n, hb⟩ := (below_iff root l).1 hl
  exact sels_right hp (h1.below hb) (h2.below hb)

/-- **C67 (one element)** `matches_naive` says whether such a selector matches an element. -/
theorem naive_partial {E : Env} {ss : Sels} (hp : ss.Plain E) {l : Loc} (h1 : Single l) (h2 : Throughout (Faithful E) l) (sc : Option Loc) :
    matchesNaive E ss l = true ↔ MatchesSels sc ss l :=
  (sels_right hp h1 h2 [] (good_nil E)).1

/-- A selector of one part. -/
def only (s : Simple) : Sels := .cons (.one (.cons s .nil)) .nil

theorem select_ret {E : Env} {addr : Nat} {s : Simple} {p : Loc → Bool} (h : ∀ l, simple E (some addr) s l = .ret (p l)) (root l : Loc) :
    l ∈ select E addr root (only s) ↔ (∃ n, Below root n l) ∧ p l = true := by
  unfold select
  rw [pick_mem (P := fun l => p l = true) _ (good_nil E), below_iff]
  intro l _
  simp only [only, sels, sel, comp, h]
  have := ((Right.ret (E := E) (b := p l) Iff.rfl).and (Right.ret (E := E) (b := true) (P := True) (by simp))).or
    (Right.ret (E := E) (b := false) (P := False) (by simp))
  exact this.of (by simp)

/-- **C67 (names, exactly)** A name selects the elements that have this name in lower case. -/
theorem name_iff (E : Env) (addr : Nat) (root l : Loc) (n : Str) :
    l ∈ select E addr root (only (.name n)) ↔ (∃ k, Below root k l) ∧ l.here.name.loc = lower n := by
  rw [select_ret (p := fun l => hasLocalName l (selectName l n)) fun l => by simp only [simple]]
  simp [hasLocalName, selectName, isHtml]

/-- **C67 (attributes, exactly)** An attribute selector selects the elements whose first attribute without a prefix that has this name in
lower case is written with a value that is asked for; `*|` in front makes no difference. -/
theorem attr_iff (E : Env) (addr : Nat) (root l : Loc) (w : Bool) (n : Str) (o : Op) (f : Flag) :
    l ∈ select E addr root (only (.attr w n o f)) ↔ (∃ k, Below root k l) ∧
      ∃ pre a rest v, l.here.attrs = pre ++ a :: rest ∧ (a.pre = none ∧ a.loc = lower n) ∧ (∀ b ∈ pre, ¬ (b.pre = none ∧ b.loc = lower n)) ∧
        E.print l.here.name a = some v ∧
        if f = .i ∨ (f = .auto ∧ E.noCase (lower n) = true) then Says o.lower (lower v) else Says o v := by
  rw [select_ret (p := fun l => attrMatches E l w (selectName l n) (caseless E l n f) o) fun l => by simp only [simple]]
  refine and_congr_right fun _ => ?_
  have hv : ∀ v, (if caseless E l n f = true then eval o.lower (lower v) else eval o v) = true ↔
      if f = .i ∨ (f = .auto ∧ E.noCase (lower n) = true) then Says o.lower (lower v) else Says o v := by
    intro v
    cases f <;> simp [caseless, isHtml, eval_iff]
  have hs : selectName l n = lower n := by simp [selectName, isHtml]
  unfold attrMatches
  rw [hs]
  cases e : getLocal l.here.attrs (lower n) with
  | none =>
    simp only [Bool.false_eq_true, false_iff]
    rintro ⟨pre, a, rest, v, ha, hp, _⟩
    have := List.find?_eq_none.1 e a (by simp [ha])
    simp [hp.1, hp.2] at this
  | some b =>
    obtain ⟨hb, pre, rest, ha, hpre⟩ := List.find?_eq_some_iff_append.1 e
    simp only [Bool.and_eq_true, Option.isNone_iff_eq_none, decide_eq_true_eq] at hb
    simp only [Bool.not_eq_true', Bool.and_eq_false_iff, decide_eq_false_iff_not] at hpre
    have hpre' : ∀ x ∈ pre, ¬ (x.pre = none ∧ x.loc = lower n) := by
      intro x hx ⟨h1, h2⟩
      rcases hpre x hx with h | h
      · simp [h1] at h
      · exact h h2
    constructor
    · intro h
      cases ep : E.print l.here.name b with
      | none => simp [ep] at h
      | some v => simp only [ep] at h; exact ⟨pre, b, rest, v, ha, hb, hpre', ep, (hv v).1 h⟩
    · rintro ⟨pre', a, rest', v, ha', hp, hpre'', ep, h⟩
      have : getLocal l.here.attrs (lower n) = some a := by
        rw [getLocal, List.find?_eq_some_iff_append]
        refine ⟨by simp [hp.1, hp.2], pre', rest', ha', fun x hx => ?_⟩
        have := hpre'' x hx
        cases hx' : x.pre <;> simp_all
      rw [this] at e; cases e
      simp only [ep]; exact (hv v).2 h

/-- **C67 (empty elements, exactly)** `:empty` selects the elements with nothing in them but text of Unicode whitespace. -/
theorem empty_iff (E : Env) (addr : Nat) (root l : Loc) :
    l ∈ select E addr root (only .empty) ↔ (∃ k, Below root k l) ∧ ∀ k ∈ l.here.kids, ∃ t, k = .text t ∧ ∀ c ∈ t, white c = true := by
  rw [select_ret (p := isEmpty) fun l => by simp only [simple]]
  refine and_congr_right fun _ => ?_
  simp only [isEmpty, List.all_eq_true]
  refine forall_congr' fun k => forall_congr' fun _ => ?_
  cases k <;> simp

/-- **C67 (links, exactly)** -/
theorem link_iff (E : Env) (addr : Nat) (root l : Loc) :
    l ∈ select E addr root (only .link) ↔ (∃ k, Below root k l) ∧
      (l.here.name = ⟨svgNs, lit "a"⟩ ∨ l.here.name.loc = lit "area" ∨ l.here.name.loc = lit "link") ∧
      ∃ a ∈ l.here.attrs, a.pre = none ∧ a.loc = lit "href" := by
  rw [select_ret (p := isLink) fun l => by simp only [simple]]
  refine and_congr_right fun _ => ?_
  simp only [isLink, getLocal, Bool.and_eq_true, Bool.or_eq_true, decide_eq_true_eq, List.find?_isSome, Option.isNone_iff_eq_none]
  rw [or_assoc]

end Verif.Select
