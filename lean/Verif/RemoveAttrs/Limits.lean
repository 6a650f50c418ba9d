import Verif.RemoveAttrs.Props

/-! # C69: where the documentation is wrong, and examples -/

namespace Verif.RemoveAttrs

/-! ## A parser as it is asked for -/

/-- Expressions that match the same. -/
def Same (a b : Re) : Prop := ∀ x m y, Mat a x m y ↔ Mat b x m y

theorem Same.cat {a a' b b' : Re} (h : Same a a') (h' : Same b b') : Same (.cat a b) (.cat a' b') := by
  intro x m y
  constructor
  · intro k; cases k with | cat k1 k2 => exact .cat ((h ..).1 k1) ((h' ..).1 k2)
  · intro k; cases k with | cat k1 k2 => exact .cat ((h ..).2 k1) ((h' ..).2 k2)

theorem Same.assoc (a b c : Re) : Same (.cat (.cat a b) c) (.cat a (.cat b c)) := by
  intro x m y
  constructor
  · intro k
    cases k with
    | @cat _ _ _ m n _ k1 k2 =>
      cases k1 with
      | @cat _ _ _ m1 m2 _ k3 k4 =>
        rw [List.append_assoc]
        refine .cat (by simpa using k3) (.cat k4 (by simpa using k2))
  · intro k
    cases k with
    | @cat _ _ _ m n _ k1 k2 =>
      cases k2 with
      | @cat _ _ _ n1 n2 _ k3 k4 =>
        rw [← List.append_assoc]
        refine .cat (.cat (by simpa using k1) k3) (by simpa using k4)

theorem Same.epsStart : Same (.cat .eps .start) (.cat .start .eps) := by
  intro x m y
  constructor
  · intro k; cases k with | cat k1 k2 => cases k1; generalize e : x ++ [] = x' at k2; cases k2; simp only [List.append_nil] at e; subst e; exact .cat (.start _) (.eps _ _)
  · intro k; cases k with | cat k1 k2 => cases k2; cases k1; exact .cat (.eps _ _) (.start _)

theorem Same.trans {a b c : Re} (h : Same a b) (h' : Same b c) : Same a c := fun x m y => (h x m y).trans (h' x m y)

theorem Same.rfl {a : Re} : Same a a := fun _ _ _ => Iff.rfl

theorem Same.symm {a b : Re} (h : Same a b) : Same b a := fun x m y => (h x m y).symm

theorem branches_shape (s : Str) : ∃ (f : Re → Re) (rest : Src), (∀ cur, branches cur s = f cur :: rest) ∧ (∀ a b, Same a b → Same (f a) (f b)) ∧
    ∀ a b, Same (f (.cat a b)) (.cat a (f b)) := by
  induction s with
  | nil => exact ⟨id, [], fun _ => rfl, fun _ _ h => h, fun _ _ => .rfl⟩
  | cons c s ih =>
    obtain ⟨f, rest, h1, h2, h3⟩ := ih
    by_cases hc : c = '|'
    · exact ⟨id, branches .eps s, fun cur => by simp [branches, hc], fun _ _ h => h, fun _ _ => .rfl⟩
    · exact ⟨fun cur => f (.cat cur (atom c)), rest, fun cur => by simp [branches, hc, h1], fun a b h => h2 _ _ (h.cat .rfl),
        fun a b => (h2 _ _ (.assoc _ _ _)).trans (h3 _ _)⟩

theorem branches_stop (s : Str) (cur : Re) : branches cur (s ++ ['$']) = anchored.stopLast (branches cur s) := by
  induction s generalizing cur with
  | nil => rfl
  | cons c s ih =>
    by_cases hc : c = '|'
    · simp only [List.cons_append, branches, hc, if_true, ih]
      obtain ⟨f, rest, h1, _⟩ := branches_shape s
      rw [h1]; rfl
    · simp only [List.cons_append, branches, hc, if_false, ih]

theorem finds_cons (r : Re) (rs : Src) (t : Str) : Finds (r :: rs) t ↔ Finds [r] t ∨ Finds rs t := by
  constructor
  · rintro ⟨x, m, y, e, a, ha, h⟩
    rcases List.mem_cons.1 ha with rfl | ha
    · exact .inl ⟨x, m, y, e, a, by simp, h⟩
    · exact .inr ⟨x, m, y, e, a, ha, h⟩
  · rintro (⟨x, m, y, e, a, ha, h⟩ | ⟨x, m, y, e, a, ha, h⟩)
    · exact ⟨x, m, y, e, a, by simp at ha; simp [ha], h⟩
    · exact ⟨x, m, y, e, a, by simp [ha], h⟩

theorem finds_same {r r' : Re} (h : Same r r') (t : Str) : Finds [r] t ↔ Finds [r'] t := by
  constructor
  · rintro ⟨x, m, y, e, a, ha, k⟩
    rw [List.mem_singleton.1 ha] at k
    exact ⟨x, m, y, e, r', by simp, (h ..).1 k⟩
  · rintro ⟨x, m, y, e, a, ha, k⟩
    rw [List.mem_singleton.1 ha] at k
    exact ⟨x, m, y, e, r, by simp, (h ..).2 k⟩

/-- What is used about parsers holds for one that knows `|`, `.`, `^` and `$`. -/
theorem simple_grammar : Grammar simpleParse := by
  intro s r hr
  simp only [simpleParse, Option.some.injEq] at hr
  subst hr
  obtain ⟨f, rest, h1, h2, h3⟩ := branches_shape s
  refine ⟨by rw [h1]; simp, _, rfl, fun t => ?_⟩
  have hb : branches .eps ('^' :: (s ++ ['$'])) = anchored.stopLast (branches (.cat .eps .start) s) := by
    rw [← branches_stop]; simp [branches, atom]
  have hf : Same (f (.cat .eps .start)) (.cat .start (f .eps)) := (h2 _ _ .epsStart).trans (h3 _ _)
  rw [hb, h1, h1]
  cases rest with
  | nil => exact finds_same (hf.cat .rfl) t
  | cons q qs =>
    show Finds (f _ :: anchored.stopLast (q :: qs)) t ↔ Finds (.cat .start (f .eps) :: anchored.stopLast (q :: qs)) t
    rw [finds_cons, finds_cons (.cat .start _), finds_same hf]

/-! ## Words -/

/-- The expression of a text. -/
def word : Str → Re
  | [] => .eps
  | c :: s => .cat (.chr (· = c)) (word s)

theorem mat_word (w x y : Str) : ∀ m, Mat (word w) x m y ↔ m = w := by
  induction w generalizing x with
  | nil =>
    intro m
    constructor
    · intro h; cases h; rfl
    · rintro rfl; exact .eps _ _
  | cons c w ih =>
    intro m
    constructor
    · intro h
      cases h with
      | cat h1 h2 =>
        cases h1 with
        | chr _ _ hc => rw [(ih _ _).1 h2]; simp at hc; simp [hc]
    · rintro rfl
      exact .cat (m := [c]) (.chr _ _ (by simp)) ((ih _ _).2 rfl)

theorem no_parts {sep p : Str} (h : ¬ Contains sep p) {q} (hq : Parts sep p q) : q = (none, p, none) := by
  cases hq with
  | one => rfl
  | two k => exact absurd ⟨_, _, k.1⟩ h
  | three k => exact absurd ⟨_, _, k.1⟩ h

/-! ## Violations -/

/-- **C69 (violated: omission)** A pattern whose first part is left out, as `:fill`, is to match all elements; it removes nothing from any element. -/
theorem omission_violated {parse : Str → Option Src} (hg : Grammar parse) (he : parse [] = some [.eps]) {sep b : Str} (hb : ¬ Contains sep b)
    (preserve : Bool) {name : Str} (hn : name ≠ []) {as out : List Attr} (h : element parse ⟨[sep ++ b], sep, preserve⟩ name as = some out) :
    out = as ∧ ∀ r, parse b = some r → ∀ a ∈ as, a.current = false → Whole r a.name → Selected parse ⟨[sep ++ b], sep, preserve⟩ name a := by
  have hp : Parts sep (sep ++ b) (some [], b, none) := .two ⟨by simp, fun _ _ _ => Nat.zero_le _⟩ hb
  constructor
  · rw [removed_iff h, List.filter_eq_self]
    intro a _
    simp only [decide_eq_true_eq]
    rintro ⟨_, p, hpm, q, hq, h1, _⟩
    rw [List.mem_singleton.1 hpm] at hq
    obtain ⟨r, _, hr⟩ := parts_unique sep (sep ++ b)
    rw [hr q hq, ← hr _ hp] at h1
    rcases h1 [] rfl with e | e | ⟨r, e, hf⟩
    · cases e
    · cases e
    · obtain ⟨_, r', hr', hf'⟩ := hg [] _ he
      rw [hr'] at e
      cases e
      rw [hf', finds_one] at hf
      cases hf
      exact hn rfl
  · intro r hr a _ hc hw
    exact ⟨by simp [hc], _, List.mem_singleton.2 rfl, _, hp, (fun p hp => by cases hp; exact .inl rfl),
      (fun p hp => by cases hp; exact .inr (.inr (.inr ⟨r, hr, hw⟩))), (fun p hp => by cases hp)⟩

/-- **C69 (violated: alternatives)** A pattern such as `fill|stroke` is to match two names; it also removes every attribute whose name begins with the first
or ends with the second. -/
theorem alternatives_violated {parse : Str → Option Src} (hg : Grammar parse) {sep p u w : Str} {a1 a2 : Re} (ha1 : Same a1 (word u)) (ha2 : Same a2 (word w))
    (hp : parse p = some [a1, a2]) (hs : ¬ Contains sep p)
    (h1 : p ≠ []) (h2 : p ≠ ['*']) (h3 : p ≠ ['.', '*']) (name : Str) {as out : List Attr} (h : element parse ⟨[p], sep, false⟩ name as = some out) (a : Attr) :
    (a ∈ out ↔ a ∈ as ∧ ¬ (u <+: a.name ∨ w <:+ a.name)) ∧ (Selected parse ⟨[p], sep, false⟩ name a ↔ a.name = u ∨ a.name = w) := by
  constructor
  · rw [removed_iff h, List.mem_filter]
    simp only [decide_eq_true_eq]
    refine and_congr_right fun _ => not_congr ?_
    obtain ⟨_, r', hr', hf⟩ := hg p _ hp
    have hh : Hit parse (some p) a.name ↔ u <+: a.name ∨ w <:+ a.name := by
      have : Finds r' a.name ↔ u <+: a.name ∨ w <:+ a.name := by
        rw [hf, show [a1, a2] = a1 :: ([] ++ [a2]) from rfl, finds_many]
        constructor
        · rintro (⟨m, y, e, k⟩ | ⟨_, _, _, _, _, k, _⟩ | ⟨x, m, e, k⟩)
          · rw [ha1, mat_word] at k; subst k; exact .inl ⟨y, e.symm⟩
          · cases k
          · rw [ha2, mat_word] at k; subst k; exact .inr ⟨x, e.symm⟩
        · rintro (⟨y, e⟩ | ⟨x, e⟩)
          · exact .inl ⟨u, y, e.symm, (ha1 ..).2 ((mat_word ..).2 rfl)⟩
          · exact .inr (.inr ⟨x, w, e.symm, (ha2 ..).2 ((mat_word ..).2 rfl)⟩)
      rw [← this]
      constructor
      · intro k
        rcases k p rfl with e | e | ⟨r, e, k⟩
        · exact absurd e h2
        · exact absurd e h3
        · rw [hr'] at e; cases e; exact k
      · rintro k q ⟨⟩; exact .inr (.inr ⟨r', hr', k⟩)
    rw [← hh]
    constructor
    · rintro ⟨_, q, hq, t, ht, _, k, _⟩
      rw [List.mem_singleton.1 hq] at ht
      rw [no_parts hs ht] at k
      exact k
    · intro k
      exact ⟨by simp, p, by simp, _, .one hs, hit_none _ _, k, hit_none _ _⟩
  · constructor
    · rintro ⟨_, q, hq, t, ht, _, k, _⟩
      rw [List.mem_singleton.1 hq] at ht
      rw [no_parts hs ht] at k
      rcases k p rfl with e | e | e | ⟨r, e, b, hb, k⟩
      · exact absurd e h1
      · exact absurd e h2
      · exact absurd e h3
      · rw [hp] at e
        cases e
        simp only [List.mem_cons, List.not_mem_nil, or_false] at hb
        rcases hb with rfl | rfl
        · exact .inl ((mat_word ..).1 ((ha1 ..).1 k))
        · exact .inr ((mat_word ..).1 ((ha2 ..).1 k))
    · intro k
      refine ⟨by simp, p, by simp, _, .one hs, (fun _ h => by cases h), ?_, (fun _ h => by cases h)⟩
      rintro q ⟨⟩
      refine .inr (.inr (.inr ⟨_, hp, ?_⟩))
      rcases k with k | k
      · exact ⟨a1, by simp, (ha1 ..).2 ((mat_word ..).2 k)⟩
      · exact ⟨a2, by simp, (ha2 ..).2 ((mat_word ..).2 k)⟩

/-- **C69 (violated: currentColor)** With `preserveCurrentColor`, an attribute other than `fill` and `stroke`, such as `stop-color`, is removed though it is
`currentColor`. -/
theorem preserve_violated {parse : Str → Option Src} {sep p : Str} {out : List Attr} (name : Str) (a : Attr) (hn : a.name ≠ "fill".toList ∧ a.name ≠ "stroke".toList)
    (hc : a.current = true) (hs : ¬ Contains sep p) (hp : p = ['*'] ∨ p = ['.', '*'])
    (h : element parse ⟨[p], sep, true⟩ name [a] = some out) : out = [] ∧ ¬ Selected parse ⟨[p], sep, true⟩ name a := by
  constructor
  · rw [removed_iff h, List.filter_eq_nil_iff]
    intro b hb
    rw [List.mem_singleton.1 hb]
    simp only [decide_eq_true_eq, Classical.not_not]
    refine ⟨fun k => k.2.2.elim hn.1 hn.2, p, by simp, _, .one hs, hit_none _ _, ?_, hit_none _ _⟩
    rintro q ⟨⟩
    exact hp.elim .inl fun h => .inr (.inl h)
  · rintro ⟨k, _⟩
    exact k ⟨rfl, hc⟩

/-! ## Examples -/

def t (s : String) : Str := s.toList

theorem contains_colon {s : Str} : Contains [':'] s ↔ ':' ∈ s := by
  constructor
  · rintro ⟨x, y, rfl⟩; simp
  · intro h
    obtain ⟨x, y, rfl⟩ := List.append_of_mem h
    exact ⟨x, y, by simp⟩

example : Parts (t ":") (t "path:fill:a:b") (some (t "path"), t "fill", some (t "a:b")) :=
  .three (r := t "fill:a:b") (splitOnce_some.1 (by decide +kernel)) (splitOnce_some.1 (by decide +kernel))

/-- Characters that stand for themselves. -/
def plainChar (c : Char) : Bool := c ≠ '|' && c ≠ '^' && c ≠ '$' && c ≠ '.'

/-- What the parser makes of a text of such characters. -/
def lefts : Re → Str → Re
  | cur, [] => cur
  | cur, c :: s => lefts (.cat cur (.chr (· = c))) s

theorem lefts_same (s : Str) : ∀ cur, Same (lefts cur s) (.cat cur (word s)) := by
  induction s with
  | nil =>
    intro cur x m y
    constructor
    · intro h
      have : Mat (.cat cur (word [])) x (m ++ []) y := .cat (by simpa [lefts] using h) (.eps _ _)
      simpa using this
    · intro h
      cases h with
      | cat h1 h2 => cases h2; simpa [lefts] using h1
  | cons c s ih => intro cur; exact (ih _).trans (.assoc _ _ _)

theorem eps_cat (a : Re) : Same (.cat .eps a) a := by
  intro x m y
  constructor
  · intro h
    cases h with
    | cat h1 h2 => cases h1; simpa using h2
  · intro h
    have : Mat (.cat .eps a) x ([] ++ m) y := .cat (.eps _ _) (by simpa using h)
    simpa using this

theorem branches_plain {s : Str} (h : ∀ c ∈ s, plainChar c = true) (s' : Str) : ∀ cur, branches cur (s ++ s') = branches (lefts cur s) s' := by
  induction s with
  | nil => intro cur; rfl
  | cons c s ih =>
    intro cur
    have hc := h c (by simp)
    simp only [plainChar, Bool.and_eq_true, decide_eq_true_eq, ne_eq] at hc
    simp only [List.cons_append, branches, hc, if_false, atom, lefts]
    exact ih (fun d hd => h d (by simp [hd])) _

/-- Two texts with `|` between them, as the parser gives them. -/
theorem simple_two {u w : Str} (hu : ∀ c ∈ u, plainChar c = true) (hw : ∀ c ∈ w, plainChar c = true) :
    simpleParse (u ++ '|' :: w) = some [lefts .eps u, lefts .eps w] := by
  have : branches .eps w = [lefts .eps w] := by
    have := branches_plain hw [] .eps
    simpa [branches] using this
  simp [simpleParse, branches_plain hu, branches, this]

/-- `fill-opacity` and `data-stroke` are removed by `fill|stroke`, `id` stays. -/
example (name : Str) (out : List Attr)
    (h : element simpleParse ⟨[t "fill|stroke"], t ":", false⟩ name [⟨t "fill-opacity", t "1", false⟩, ⟨t "id", t "i", false⟩, ⟨t "data-stroke", t "", false⟩] = some out) :
    ⟨t "fill-opacity", t "1", false⟩ ∉ out ∧ ⟨t "data-stroke", t "", false⟩ ∉ out ∧ ⟨t "id", t "i", false⟩ ∈ out := by
  have hs : ¬ Contains (t ":") (t "fill|stroke") := by
    show ¬ Contains [':'] _
    rw [contains_colon]; decide +kernel
  have hp : simpleParse (t "fill|stroke") = some [lefts .eps (t "fill"), lefts .eps (t "stroke")] :=
    simple_two (u := t "fill") (w := t "stroke") (by decide +kernel) (by decide +kernel)
  have key := fun a => (alternatives_violated simple_grammar ((lefts_same _ _).trans (eps_cat _)) ((lefts_same _ _).trans (eps_cat _)) hp hs
    (by decide +kernel) (by decide +kernel) (by decide +kernel) name h a).1
  refine ⟨fun k => ((key _).1 k).2 (.inl ?_), fun k => ((key _).1 k).2 (.inr ?_), (key _).2 ⟨by simp, ?_⟩⟩ <;> decide +kernel

/-- `:fill` removes nothing. -/
example (as out : List Attr) (h : element simpleParse ⟨[t ":fill"], t ":", false⟩ (t "path") as = some out) : out = as :=
  (omission_violated simple_grammar (sep := t ":") (b := t "fill") rfl (by show ¬ Contains [':'] _; rw [contains_colon]; decide +kernel) false (by decide +kernel) h).1

end Verif.RemoveAttrs
