import Verif.RemoveAttrs.Spec

/-! # C69: removing attributes by patterns -/

namespace Verif.RemoveAttrs

/-! ## Expressions -/

theorem finds_one (r : Re) (s : Str) : Finds (anchored [r]) s ↔ Mat r [] s [] := by
  constructor
  · rintro ⟨x, m, y, rfl, a, ha, h⟩
    rw [List.mem_singleton.1 ha] at h
    cases h with
    | cat h1 h2 =>
      cases h2
      cases h1 with
      | cat h3 h4 => cases h3; simpa using h4
  · intro h
    refine ⟨[], s, [], by simp, _, List.mem_singleton.2 rfl, ?_⟩
    have h1 : Mat (.cat .start r) [] ([] ++ s) [] := .cat (.start _) (by simpa using h)
    have h2 : Mat (.cat (.cat .start r) .stop) [] (([] ++ s) ++ []) [] := .cat (by simpa using h1) (.stop _)
    simpa using h2

theorem mem_stopLast (ms : List Re) (l a : Re) : a ∈ anchored.stopLast (ms ++ [l]) ↔ a ∈ ms ∨ a = .cat l .stop := by
  induction ms with
  | nil => simp [anchored.stopLast]
  | cons m ms ih =>
    cases ms with
    | nil => simp [anchored.stopLast]
    | cons k ms =>
      simp only [List.cons_append, anchored.stopLast, List.mem_cons] at ih ⊢
      rw [ih]
      simp only [or_assoc]

theorem anchored_many (r l : Re) (ms : List Re) : anchored (r :: (ms ++ [l])) = .cat .start r :: anchored.stopLast (ms ++ [l]) := by
  cases ms <;> rfl

/-- **C69 (alternatives, exactly)** With `|` outside of parentheses, only the first alternative is tied to the beginning of the text and only the last one to
its end; those between are looked for anywhere. -/
theorem finds_many (r l : Re) (ms : List Re) (s : Str) : Finds (anchored (r :: (ms ++ [l]))) s ↔
    (∃ m y, s = m ++ y ∧ Mat r [] m y) ∨ Finds ms s ∨ ∃ x m, s = x ++ m ∧ Mat l x m [] := by
  rw [anchored_many]
  constructor
  · rintro ⟨x, m, y, rfl, a, ha, h⟩
    rcases List.mem_cons.1 ha with rfl | ha
    · cases h with
      | @cat _ _ _ _ k _ h1 h2 => cases h1; exact .inl ⟨k, y, by simp, by simpa using h2⟩
    · rcases (mem_stopLast ms l a).1 ha with ha | rfl
      · exact .inr (.inl ⟨x, m, y, rfl, a, ha, h⟩)
      · cases h with
        | @cat _ _ _ k _ _ h1 h2 => cases h2; exact .inr (.inr ⟨x, k, by simp, by simpa using h1⟩)
  · rintro (⟨m, y, rfl, h⟩ | ⟨x, m, y, rfl, a, ha, h⟩ | ⟨x, m, rfl, h⟩)
    · refine ⟨[], m, y, by simp, _, List.mem_cons_self, ?_⟩
      have : Mat (.cat .start r) [] ([] ++ m) y := .cat (.start _) (by simpa using h)
      simpa using this
    · exact ⟨x, m, y, rfl, a, List.mem_cons_of_mem _ ((mem_stopLast ms l a).2 (.inl ha)), h⟩
    · refine ⟨x, m, [], by simp, _, List.mem_cons_of_mem _ ((mem_stopLast ms l _).2 (.inr rfl)), ?_⟩
      have : Mat (.cat l .stop) x (m ++ []) [] := .cat (by simpa using h) (.stop _)
      simpa using this

/-! ## Parts -/

theorem splitOnce_none {sep s : Str} : splitOnce sep s = none ↔ ¬ Contains sep s := by
  induction s with
  | nil =>
    simp only [splitOnce]
    by_cases h : sep = []
    · subst h; simp [Contains]
    · simp [h, Contains]
  | cons c s ih =>
    simp only [splitOnce]
    by_cases h : sep.isPrefixOf (c :: s) = true
    · rw [if_pos h]
      obtain ⟨t, ht⟩ := List.isPrefixOf_iff_prefix.1 h
      simp only [reduceCtorEq, false_iff, Classical.not_not]
      exact ⟨[], t, by simpa using ht.symm⟩
    · rw [if_neg h, Option.map_eq_none_iff, ih]
      refine not_congr ⟨?_, ?_⟩
      · rintro ⟨x, y, rfl⟩; exact ⟨c :: x, y, rfl⟩
      · rintro ⟨x, y, e⟩
        cases x with
        | nil => exact absurd (List.isPrefixOf_iff_prefix.2 ⟨y, by simpa using e.symm⟩) h
        | cons d x => simp only [List.cons_append, List.cons.injEq] at e; exact ⟨x, y, e.2⟩

theorem splitOnce_first {sep s a b : Str} (h : splitOnce sep s = some (a, b)) : FirstAt sep s a b := by
  induction s generalizing a b with
  | nil =>
    simp only [splitOnce] at h
    split at h
    · next e => cases h; subst e; exact ⟨rfl, fun _ _ _ => Nat.zero_le _⟩
    · cases h
  | cons c s ih =>
    simp only [splitOnce] at h
    split at h
    · next e =>
      cases h
      obtain ⟨t, ht⟩ := List.isPrefixOf_iff_prefix.1 e
      refine ⟨?_, fun _ _ _ => Nat.zero_le _⟩
      rw [← ht]; simp
    · next e =>
      simp only [Option.map_eq_some_iff, Prod.mk.injEq] at h
      obtain ⟨⟨p, q⟩, h1, rfl, rfl⟩ := h
      obtain ⟨h2, h3⟩ := ih h1
      refine ⟨by simp [h2], fun x y hxy => ?_⟩
      cases x with
      | nil => exact absurd (List.isPrefixOf_iff_prefix.2 ⟨y, by simpa using hxy.symm⟩) e
      | cons d x =>
        simp only [List.cons_append, List.cons.injEq] at hxy
        have := h3 x y hxy.2
        simpa using this

theorem first_unique {sep s a b a' b' : Str} (h : FirstAt sep s a b) (h' : FirstAt sep s a' b') : a = a' ∧ b = b' := by
  have l : a.length = a'.length := Nat.le_antisymm (h.2 _ _ h'.1) (h'.2 _ _ h.1)
  have e := h.1.symm.trans h'.1
  simp only [List.append_assoc] at e
  obtain ⟨e1, e2⟩ := List.append_inj e l
  exact ⟨e1, List.append_cancel_left e2⟩

theorem splitOnce_some {sep s a b : Str} : splitOnce sep s = some (a, b) ↔ FirstAt sep s a b := by
  refine ⟨splitOnce_first, fun h => ?_⟩
  cases e : splitOnce sep s with
  | none => exact absurd ⟨a, b, h.1⟩ (splitOnce_none.1 e)
  | some p =>
    obtain ⟨p, q⟩ := p
    obtain ⟨rfl, rfl⟩ := first_unique h (splitOnce_first e)
    rfl

/-- **C69 (parts)** Every pattern has three parts, in one way, whatever the separator. -/
theorem parts_unique (sep p : Str) : ∃ q, Parts sep p q ∧ ∀ q', Parts sep p q' → q' = q := by
  cases e : splitOnce sep p with
  | none =>
    have e := splitOnce_none.1 e
    refine ⟨_, .one e, fun q' h => ?_⟩
    cases h with
    | one => rfl
    | two h => exact absurd ⟨_, _, h.1⟩ e
    | three h => exact absurd ⟨_, _, h.1⟩ e
  | some x =>
    obtain ⟨a, r⟩ := x
    have e := splitOnce_some.1 e
    cases e' : splitOnce sep r with
    | none =>
      have e' := splitOnce_none.1 e'
      refine ⟨_, .two e e', fun q' h => ?_⟩
      cases h with
      | one h => exact absurd ⟨_, _, e.1⟩ h
      | two h =>
        obtain ⟨rfl, rfl⟩ := first_unique e h
        rfl
      | three h h' =>
        obtain ⟨rfl, rfl⟩ := first_unique e h
        exact absurd ⟨_, _, h'.1⟩ e'
    | some y =>
      obtain ⟨b, c⟩ := y
      have e' := splitOnce_some.1 e'
      refine ⟨_, .three e e', fun q' h => ?_⟩
      cases h with
      | one h => exact absurd ⟨_, _, e.1⟩ h
      | two h h' =>
        obtain ⟨rfl, rfl⟩ := first_unique e h
        exact absurd ⟨_, _, e'.1⟩ h'
      | three h h' =>
        obtain ⟨rfl, rfl⟩ := first_unique e h
        obtain ⟨rfl, rfl⟩ := first_unique e' h'
        rfl

/-! ## What a pattern does -/

/-- What the code asks of a part: it is left out or an asterisk, or the expression between `^` and `$` finds something. -/
def Hit (parse : Str → Option Src) (part : Option Str) (s : Str) : Prop :=
  ∀ p, part = some p → p = ['*'] ∨ p = ['.', '*'] ∨ ∃ r, parse ('^' :: (p ++ ['$'])) = some r ∧ Finds r s

/-- The part is no expression. -/
def Bad (parse : Str → Option Src) (part : Option Str) : Prop :=
  ∃ p, part = some p ∧ p ≠ ['*'] ∧ p ≠ ['.', '*'] ∧ parse ('^' :: (p ++ ['$'])) = none

/-- The attributes that go. -/
def Gone (parse : Str → Option Src) (cfg : Config) (name : Str) (a : Attr) : Prop :=
  ¬ (cfg.preserve = true ∧ a.current = true ∧ (a.name = "fill".toList ∨ a.name = "stroke".toList)) ∧
  ∃ p ∈ cfg.attrs, ∃ q, Parts cfg.sep p q ∧ Hit parse q.1 name ∧ Hit parse (some q.2.1) a.name ∧ Hit parse q.2.2 a.value

theorem create_some {parse : Str → Option Src} {p : Str} {o : Option Src} (h : createRegex parse p = some o) (s : Str) :
    noneOr o s = true ↔ Hit parse (some p) s := by
  unfold createRegex at h
  split at h
  · next e => cases h; simp only [noneOr, true_iff]; rintro q ⟨⟩; exact e.elim .inl (fun e => .inr (.inl e))
  · next e =>
    rw [Option.map_eq_some_iff] at h
    obtain ⟨r, hr, rfl⟩ := h
    simp only [noneOr, isMatch, decide_eq_true_eq]
    constructor
    · rintro h q ⟨⟩; exact .inr (.inr ⟨r, hr, h⟩)
    · intro h
      rcases h p rfl with h | h | ⟨r', hr', h⟩
      · exact absurd (.inl h) e
      · exact absurd (.inr h) e
      · rw [hr] at hr'; cases hr'; exact h

theorem create_none {parse : Str → Option Src} {p : Str} : createRegex parse p = none ↔ Bad parse (some p) := by
  unfold createRegex
  by_cases e : p = ['*'] ∨ p = ['.', '*']
  · rw [if_pos e]
    simp only [reduceCtorEq, false_iff]
    rintro ⟨q, hq, h1, h2, _⟩
    cases hq
    exact e.elim h1 h2
  · rw [if_neg e, Option.map_eq_none_iff]
    constructor
    · intro h; exact ⟨p, rfl, fun h => e (.inl h), fun h => e (.inr h), h⟩
    · rintro ⟨q, hq, _, _, h⟩; cases hq; exact h

theorem hit_none (parse : Str → Option Src) (s : Str) : Hit parse none s := fun _ h => by cases h

theorem not_bad_none (parse : Str → Option Src) : ¬ Bad parse none := fun ⟨_, h, _⟩ => by cases h

theorem pattern_some {parse : Str → Option Src} {sep p : Str} {t : Option Src × Option Src × Option Src} (h : parsePattern parse sep p = some t) :
    ∃ q, Parts sep p q ∧ (∀ s, noneOr t.1 s = true ↔ Hit parse q.1 s) ∧ (∀ s, noneOr t.2.1 s = true ↔ Hit parse (some q.2.1) s) ∧
      (∀ s, noneOr t.2.2 s = true ↔ Hit parse q.2.2 s) ∧ ¬ Bad parse q.1 ∧ ¬ Bad parse (some q.2.1) ∧ ¬ Bad parse q.2.2 := by
  have good : ∀ {p o}, createRegex parse p = some o → ¬ Bad parse (some p) := fun h hb => by
    rw [create_none.2 hb] at h; cases h
  unfold parsePattern at h
  cases e : splitOnce sep p with
  | none =>
    rw [e] at h
    simp only at h
    cases h1 : createRegex parse p with
    | none => rw [h1] at h; cases h
    | some o =>
      rw [h1] at h; cases h
      exact ⟨_, .one (splitOnce_none.1 e), fun s => iff_of_true rfl (hit_none parse s), create_some h1, fun s => iff_of_true rfl (hit_none parse s),
        not_bad_none _, good h1, not_bad_none _⟩
  | some x =>
    obtain ⟨a, r⟩ := x
    rw [e] at h
    simp only at h
    cases e' : splitOnce sep r with
    | none =>
      rw [e'] at h
      simp only at h
      cases h1 : createRegex parse a with
      | none => rw [h1] at h; cases h
      | some o =>
        cases h2 : createRegex parse r with
        | none => rw [h1, h2] at h; cases h
        | some o' =>
          rw [h1, h2] at h; cases h
          exact ⟨_, .two (splitOnce_some.1 e) (splitOnce_none.1 e'), create_some h1, create_some h2, fun s => iff_of_true rfl (hit_none parse s),
            good h1, good h2, not_bad_none _⟩
    | some y =>
      obtain ⟨b, c⟩ := y
      rw [e'] at h
      simp only at h
      cases h1 : createRegex parse a with
      | none => rw [h1] at h; cases h
      | some o =>
        cases h2 : createRegex parse b with
        | none => rw [h1, h2] at h; cases h
        | some o' =>
          cases h3 : createRegex parse c with
          | none => rw [h1, h2, h3] at h; cases h
          | some o'' =>
            rw [h1, h2, h3] at h; cases h
            exact ⟨_, .three (splitOnce_some.1 e) (splitOnce_some.1 e'), create_some h1, create_some h2, create_some h3, good h1, good h2, good h3⟩

theorem pattern_none {parse : Str → Option Src} {sep p : Str} (h : parsePattern parse sep p = none) :
    ∃ q, Parts sep p q ∧ (Bad parse q.1 ∨ Bad parse (some q.2.1) ∨ Bad parse q.2.2) := by
  unfold parsePattern at h
  cases e : splitOnce sep p with
  | none =>
    rw [e] at h
    simp only at h
    cases h1 : createRegex parse p with
    | none => exact ⟨_, .one (splitOnce_none.1 e), .inr (.inl (create_none.1 h1))⟩
    | some o => rw [h1] at h; cases h
  | some x =>
    obtain ⟨a, r⟩ := x
    rw [e] at h
    simp only at h
    cases e' : splitOnce sep r with
    | none =>
      rw [e'] at h
      simp only at h
      refine ⟨_, .two (splitOnce_some.1 e) (splitOnce_none.1 e'), ?_⟩
      cases h1 : createRegex parse a with
      | none => exact .inl (create_none.1 h1)
      | some o =>
        cases h2 : createRegex parse r with
        | none => exact .inr (.inl (create_none.1 h2))
        | some o' => rw [h1, h2] at h; cases h
    | some y =>
      obtain ⟨b, c⟩ := y
      rw [e'] at h
      simp only at h
      refine ⟨_, .three (splitOnce_some.1 e) (splitOnce_some.1 e'), ?_⟩
      cases h1 : createRegex parse a with
      | none => exact .inl (create_none.1 h1)
      | some o =>
        cases h2 : createRegex parse b with
        | none => exact .inr (.inl (create_none.1 h2))
        | some o' =>
          cases h3 : createRegex parse c with
          | none => exact .inr (.inr (create_none.1 h3))
          | some o'' => rw [h1, h2, h3] at h; cases h

/-- The attribute goes because of one of these patterns. -/
def GoneBy (parse : Str → Option Src) (sep : Str) (name : Str) (a : Attr) (p : Str) : Prop :=
  ∃ q, Parts sep p q ∧ Hit parse q.1 name ∧ Hit parse (some q.2.1) a.name ∧ Hit parse q.2.2 a.value

theorem retains_iff {parse : Str → Option Src} {sep p name : Str} {t : Option Src × Option Src × Option Src} (h : parsePattern parse sep p = some t)
    (preserve : Bool) (a : Attr) (hn : noneOr t.1 name = true) : retains preserve t a = true ↔
      (preserve = true ∧ a.current = true ∧ (a.name = "fill".toList ∨ a.name = "stroke".toList)) ∨ ¬ GoneBy parse sep name a p := by
  obtain ⟨q, hq, h1, h2, h3, _⟩ := pattern_some h
  have hg : GoneBy parse sep name a p ↔ Hit parse q.1 name ∧ Hit parse (some q.2.1) a.name ∧ Hit parse q.2.2 a.value := by
    constructor
    · rintro ⟨q', hq', h⟩
      obtain ⟨r, _, hr⟩ := parts_unique sep p
      rw [hr q hq, ← hr q' hq']
      exact h
    · exact fun h => ⟨q, hq, h⟩
  rw [hg, ← h1, ← h2, ← h3, hn]
  have hp : (preserve && (a.current && paints.contains a.name)) = true ↔
      preserve = true ∧ a.current = true ∧ (a.name = "fill".toList ∨ a.name = "stroke".toList) := by
    simp [paints, Bool.and_eq_true]
  unfold retains
  by_cases e : (preserve && (a.current && paints.contains a.name)) = true
  · rw [if_pos e]; exact iff_of_true rfl (.inl (hp.1 e))
  · rw [if_neg e, ← hp]
    simp only [e, false_or, true_and]
    cases noneOr t.2.2 a.value <;> cases noneOr t.2.1 a.name <;> simp

open Classical in
theorem strip_eq {parse : Str → Option Src} {sep : Str} (preserve : Bool) (name : Str) : ∀ {ps : List Str} {ts}, parseAll parse sep ps = some ts →
    ∀ as, strip preserve name ts as = as.filter (fun a => decide
      ((preserve = true ∧ a.current = true ∧ (a.name = "fill".toList ∨ a.name = "stroke".toList)) ∨ ∀ p ∈ ps, ¬ GoneBy parse sep name a p))
  | [], ts, h, as => by
    simp only [parseAll, Option.some.injEq] at h
    subst h
    simp only [strip, List.not_mem_nil, false_implies, implies_true, or_true, decide_true]
    exact (List.filter_eq_self.2 fun _ _ => rfl).symm
  | p :: ps, ts, h, as => by
    simp only [parseAll] at h
    cases h1 : parsePattern parse sep p with
    | none => rw [h1] at h; cases h
    | some t =>
      cases h2 : parseAll parse sep ps with
      | none => rw [h1, h2] at h; cases h
      | some ts' =>
        rw [h1, h2] at h
        cases h
        simp only [strip]
        by_cases hn : noneOr t.1 name = true
        · rw [if_neg (by simp [hn]), strip_eq preserve name h2, List.filter_filter]
          apply List.filter_congr
          intro a _
          rw [Bool.eq_iff_iff, Bool.and_eq_true, retains_iff h1 preserve a hn]
          simp only [decide_eq_true_eq, List.mem_cons, forall_eq_or_imp]
          grind
        · rw [if_pos (by simp [hn]), strip_eq preserve name h2]
          apply List.filter_congr
          intro a _
          obtain ⟨q, hq, hh, _⟩ := pattern_some h1
          have : ¬ GoneBy parse sep name a p := by
            rintro ⟨q', hq', h, _⟩
            obtain ⟨r, _, hr⟩ := parts_unique sep p
            rw [hr q' hq', ← hr q hq] at h
            exact hn ((hh name).2 h)
          simp [this]

open Classical in
/-- **C69 (exactly these attributes)** Attributes stay in order; exactly those go that a pattern matches in all three parts, but for `fill` and `stroke` with
`currentColor` if these are to be preserved. -/
theorem removed_iff {parse : Str → Option Src} {cfg : Config} {name : Str} {as out : List Attr} (h : element parse cfg name as = some out) :
    out = as.filter fun a => decide (¬ Gone parse cfg name a) := by
  unfold element at h
  cases e : parseAll parse cfg.sep cfg.attrs with
  | none => rw [e] at h; cases h
  | some ts =>
    rw [e] at h
    cases h
    rw [strip_eq cfg.preserve name e]
    apply List.filter_congr
    intro a _
    rw [Bool.eq_iff_iff]
    simp only [decide_eq_true_eq, Gone, GoneBy]
    grind

/-- **C69 (errors, exactly)** There is an error if and only if a part of a pattern is no expression. -/
theorem error_iff (parse : Str → Option Src) (cfg : Config) (name : Str) (as : List Attr) : element parse cfg name as = none ↔
    ∃ p ∈ cfg.attrs, ∃ q, Parts cfg.sep p q ∧ (Bad parse q.1 ∨ Bad parse (some q.2.1) ∨ Bad parse q.2.2) := by
  have key : ∀ ps : List Str, parseAll parse cfg.sep ps = none ↔
      ∃ p ∈ ps, ∃ q, Parts cfg.sep p q ∧ (Bad parse q.1 ∨ Bad parse (some q.2.1) ∨ Bad parse q.2.2) := by
    intro ps
    induction ps with
    | nil => simp [parseAll]
    | cons p ps ih =>
      simp only [parseAll, List.mem_cons, exists_eq_or_imp, ← ih]
      cases h1 : parsePattern parse cfg.sep p with
      | none => exact iff_of_true (by simp) (.inl (pattern_none h1))
      | some t =>
        have : ¬ ∃ q, Parts cfg.sep p q ∧ (Bad parse q.1 ∨ Bad parse (some q.2.1) ∨ Bad parse q.2.2) := by
          rintro ⟨q', hq', hb⟩
          obtain ⟨q, hq, _, _, _, b1, b2, b3⟩ := pattern_some h1
          obtain ⟨r, _, hr⟩ := parts_unique cfg.sep p
          rw [hr q' hq', ← hr q hq] at hb
          exact hb.elim b1 fun hb => hb.elim b2 b3
        cases h2 : parseAll parse cfg.sep ps <;> simp [this]
  rw [← key]
  unfold element
  cases parseAll parse cfg.sep cfg.attrs <;> simp

/-! ## Documents -/

variable {L : Type}

mutual
/-- All elements, in the order of the document, with their attributes. -/
def Node.elements : Node L → List (Str × List Attr)
  | .leaf _ => []
  | .elem n as ks => (n, as) :: elementsAll ks
def elementsAll : List (Node L) → List (Str × List Attr)
  | [] => []
  | n :: ns => n.elements ++ elementsAll ns
end

mutual
/-- The document without attributes. -/
def Node.bare : Node L → Node L
  | .leaf l => .leaf l
  | .elem n _ ks => .elem n [] (bareAll ks)
def bareAll : List (Node L) → List (Node L)
  | [] => []
  | n :: ns => n.bare :: bareAll ns
end

open Classical in
mutual
/-- **C69 (the document)** This is what happens to every element; nothing else changes. -/
theorem run_exact {parse : Str → Option Src} {cfg : Config} : ∀ {n out : Node L}, run parse cfg n = some out →
    out.bare = n.bare ∧ out.elements = n.elements.map fun e => (e.1, e.2.filter fun a => decide (¬ Gone parse cfg e.1 a))
  | .leaf l, out, h => by
    simp only [run, Option.some.injEq] at h
    subst h
    simp [Node.bare, Node.elements]
  | .elem n as ks, out, h => by
    simp only [run] at h
    cases h1 : element parse cfg n as with
    | none => rw [h1] at h; cases h
    | some as' =>
      cases h2 : runAll parse cfg ks with
      | none => rw [h1, h2] at h; cases h
      | some ks' =>
        rw [h1, h2] at h
        simp only [Option.some.injEq] at h
        subst h
        obtain ⟨e1, e2⟩ := runAll_exact h2
        simp [Node.bare, Node.elements, e1, e2, removed_iff h1]
theorem runAll_exact {parse : Str → Option Src} {cfg : Config} : ∀ {ns out : List (Node L)}, runAll parse cfg ns = some out →
    bareAll out = bareAll ns ∧ elementsAll out = (elementsAll ns).map fun e => (e.1, e.2.filter fun a => decide (¬ Gone parse cfg e.1 a))
  | [], out, h => by
    simp only [runAll, Option.some.injEq] at h
    subst h
    simp [bareAll, elementsAll]
  | n :: ns, out, h => by
    simp only [runAll] at h
    cases h1 : run parse cfg n with
    | none => rw [h1] at h; cases h
    | some n' =>
      cases h2 : runAll parse cfg ns with
      | none => rw [h1, h2] at h; cases h
      | some ns' =>
        rw [h1, h2] at h
        simp only [Option.some.injEq] at h
        subst h
        obtain ⟨e1, e2⟩ := run_exact h1
        obtain ⟨e3, e4⟩ := runAll_exact h2
        simp [bareAll, elementsAll, e1, e2, e3, e4]
end

mutual
theorem run_error {parse : Str → Option Src} {cfg : Config} : ∀ {n : Node L}, run parse cfg n = none →
    n.elements ≠ [] ∧ ∃ p ∈ cfg.attrs, ∃ q, Parts cfg.sep p q ∧ (Bad parse q.1 ∨ Bad parse (some q.2.1) ∨ Bad parse q.2.2)
  | .leaf l, h => by simp [run] at h
  | .elem n as ks, h => by
    simp only [run] at h
    cases h1 : element parse cfg n as with
    | none => exact ⟨by simp [Node.elements], (error_iff ..).1 h1⟩
    | some as' =>
      cases h2 : runAll parse cfg ks with
      | none => exact ⟨by simp [Node.elements], (runAll_error h2).2⟩
      | some ks' => rw [h1, h2] at h; cases h
theorem runAll_error {parse : Str → Option Src} {cfg : Config} : ∀ {ns : List (Node L)}, runAll parse cfg ns = none →
    elementsAll ns ≠ [] ∧ ∃ p ∈ cfg.attrs, ∃ q, Parts cfg.sep p q ∧ (Bad parse q.1 ∨ Bad parse (some q.2.1) ∨ Bad parse q.2.2)
  | [], h => by simp [runAll] at h
  | n :: ns, h => by
    simp only [runAll] at h
    cases h1 : run parse cfg n with
    | none =>
      obtain ⟨h2, h3⟩ := run_error h1
      exact ⟨by simp [elementsAll, h2], h3⟩
    | some n' =>
      cases h2 : runAll parse cfg ns with
      | none =>
        obtain ⟨h4, h3⟩ := runAll_error h2
        exact ⟨by simp [elementsAll, h4], h3⟩
      | some ns' => rw [h1, h2] at h; cases h
end

/-! ## The documentation -/

/-- An expression without `|` outside of parentheses, or an asterisk. -/
def Simple (parse : Str → Option Src) (part : Option Str) : Prop :=
  ∀ p, part = some p → p = ['*'] ∨ p = ['.', '*'] ∨ p ≠ [] ∧ ∃ r, parse p = some [r]

theorem hit_covers {parse : Str → Option Src} (hg : Grammar parse) {part : Option Str} (h : Simple parse part) (s : Str) :
    Hit parse part s ↔ Covers parse part s := by
  refine forall_congr' fun p => imp_congr_right fun hp => ?_
  rcases h p hp with e | e | ⟨e, r, hr⟩
  · exact iff_of_true (.inl e) (.inr (.inl e))
  · exact iff_of_true (.inr (.inl e)) (.inr (.inr (.inl e)))
  · obtain ⟨_, r', hr', hf⟩ := hg p _ hr
    simp only [e, false_or, hr', hr, Option.some.injEq, exists_eq_left', hf, finds_one]
    refine or_congr_right (or_congr_right ?_)
    simp [Whole]

open Classical in
/-- **C69 (what the documentation says, partial)** The attributes that match a pattern go and all others stay. Missing: parts that are empty, parts with
`|` outside of parentheses, and other attributes than `fill` and `stroke` with `currentColor` that are to be preserved. -/
theorem documented_partial {parse : Str → Option Src} (hg : Grammar parse) {cfg : Config} (hs : ∀ p ∈ cfg.attrs, ∀ q, Parts cfg.sep p q →
    Simple parse q.1 ∧ Simple parse (some q.2.1) ∧ Simple parse q.2.2) {n out : Node L}
    (hc : ∀ e ∈ n.elements, ∀ a ∈ e.2, a.current = true → a.name = "fill".toList ∨ a.name = "stroke".toList) (h : run parse cfg n = some out) :
    out.bare = n.bare ∧ out.elements = n.elements.map fun e => (e.1, e.2.filter fun a => decide (¬ Selected parse cfg e.1 a)) := by
  obtain ⟨h1, h2⟩ := run_exact h
  refine ⟨h1, h2.trans ?_⟩
  apply List.map_congr_left
  intro e he
  refine congrArg _ (List.filter_congr fun a ha => ?_)
  rw [Bool.eq_iff_iff, decide_eq_true_eq, decide_eq_true_eq]
  apply not_congr
  unfold Gone Selected
  refine and_congr (not_congr ⟨fun h => ⟨h.1, h.2.1⟩, fun h => ⟨h.1, h.2, hc e he a ha h.2⟩⟩) ?_
  refine exists_congr fun p => and_congr_right fun hp => exists_congr fun q => and_congr_right fun hq => ?_
  obtain ⟨s1, s2, s3⟩ := hs p hp q hq
  rw [hit_covers hg s1, hit_covers hg s2, hit_covers hg s3]

end Verif.RemoveAttrs
