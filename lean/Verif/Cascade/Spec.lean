import Verif.Cascade.Model

/-!
# What the value of a property is

By the rules of CSS, for given truth of the conditions of at-rules: among the declarations of rules that apply and
match, important before not important, the one of the highest specificity and then the latest; the `style` attribute
before rules of the same importance; then the presentation attribute; then, for a property that is inherited, the value
of the parent.
-/

namespace Verif.Cascade

variable {K V Sel C N : Type} [DecidableEq K]

mutual
/-- The blocks of the rules that apply to `n`, with the specificity of a selector that matches. -/
def applied (test : List Sel → N → Option Bool) (holds : C → Bool) (n : N) : Rule K V Sel C → List (Nat × Block K V)
  | .style ss b => (ss.filter fun s => test [s.1] n == some true).map fun s => (s.2, b)
  | .media c rs => if holds c then appliedAll test holds n rs else []
  | .other c rs => if holds c then appliedAll test holds n rs else []
def appliedAll (test : List Sel → N → Option Bool) (holds : C → Bool) (n : N) :
    List (Rule K V Sel C) → List (Nat × Block K V)
  | [] => []
  | r :: rs => applied test holds n r ++ appliedAll test holds n rs
end

/-- The values given to a property, in order. -/
def valuesOf (k : K) (l : List (K × V)) : List V := l.filterMap fun d => if d.1 = k then some d.2 else none

/-- The candidates for a property, from the declarations or from the important declarations. -/
def candidates (pick : Block K V → List (K × V)) (k : K) (es : List (Nat × Block K V)) : List (Nat × V) :=
  es.flatMap fun e => (valuesOf k (pick e.2)).map fun v => (e.1, v)

/-- The candidate of the highest specificity, the latest among equals. -/
def winner : List (Nat × V) → Option (Nat × V)
  | [] => none
  | a :: l => match winner l with
    | none => some a
    | some b => if a.1 ≤ b.1 then some b else some a

/-- The value that is specified for a property on an element. -/
def specified (test : List Sel → N → Option Bool) (look : N → Level K V) (rules : List (Rule K V Sel C))
    (holds : C → Bool) (n : N) (k : K) : Option V :=
  (valuesOf k (((look n).inline.map (·.important)).getD [])).getLast?.or
    (((winner (candidates (·.important) k (appliedAll test holds n rules))).map (·.2)).or
      ((valuesOf k (((look n).inline.map (·.declarations)).getD [])).getLast?.or
        (((winner (candidates (·.declarations) k (appliedAll test holds n rules))).map (·.2)).or
          (valuesOf k (look n).attr).head?)))

/-- The value a property has on an element with these ancestors. -/
def value (test : List Sel → N → Option Bool) (look : N → Level K V) (rules : List (Rule K V Sel C))
    (inheritable : K → Bool) (holds : C → Bool) : N → List N → K → Option V
  | n, [], k => specified test look rules holds n k
  | n, p :: ps, k => (specified test look rules holds n k).or
      (if inheritable k then value test look rules inheritable holds p ps k else none)

/-- The winner is a candidate, no candidate is more specific, and no later one is as specific. -/
theorem winner_spec (l : List (Nat × V)) (a : Nat × V) (h : winner l = some a) :
    ∃ pre post, l = pre ++ a :: post ∧ (∀ x ∈ pre, x.1 ≤ a.1) ∧ (∀ x ∈ post, x.1 < a.1) := by
  induction l generalizing a with
  | nil => simp [winner] at h
  | cons b l ih =>
    simp only [winner] at h
    cases hw : winner l with
    | none =>
      rw [hw] at h
      simp at h
      subst h
      have : l = [] := by
        cases l with
        | nil => rfl
        | cons c l =>
          simp only [winner] at hw
          split at hw
          · simp at hw
          · split at hw <;> simp at hw
      subst this
      exact ⟨[], [], rfl, by simp, by simp⟩
    | some c =>
      rw [hw] at h
      obtain ⟨pre, post, rfl, h1, h2⟩ := ih c hw
      dsimp only at h
      split at h
      · next hle =>
        simp at h
        subst h
        exact ⟨b :: pre, post, rfl, by simpa using ⟨hle, fun a b hab => h1 (a, b) hab⟩, h2⟩
      · next hgt =>
        simp at h
        subst h
        refine ⟨[], pre ++ c :: post, rfl, by simp, ?_⟩
        intro x hx
        rw [List.mem_append, List.mem_cons] at hx
        rcases hx with hx | rfl | hx
        · have := h1 x hx; omega
        · omega
        · have := h2 x hx; omega

theorem winner_none (l : List (Nat × V)) : winner l = none ↔ l = [] := by
  cases l with
  | nil => simp [winner]
  | cons a l =>
    simp only [winner, reduceCtorEq, iff_false]
    split
    · simp
    · split <;> simp

/-- Among candidates of rising specificity the last one wins. -/
theorem winner_sorted (l : List (Nat × V)) (h : l.Pairwise (fun a b => a.1 ≤ b.1)) : winner l = l.getLast? := by
  induction l with
  | nil => rfl
  | cons a l ih =>
    rw [List.pairwise_cons] at h
    simp only [winner, ih h.2]
    cases e : l.getLast? with
    | none =>
      rw [List.getLast?_eq_none_iff] at e
      subst e
      rfl
    | some b =>
      have hb := List.mem_of_getLast? e
      simp only [h.1 b hb, if_true]
      rw [List.getLast?_cons, e]
      rfl

/-! ## When the code follows these rules -/

mutual
/-- The selectors of a rule, in order. -/
def selectorsOf : Rule K V Sel C → List Sel
  | .style ss _ => ss.map (·.1)
  | .media _ rs => selectorsOfAll rs
  | .other _ _ => []
def selectorsOfAll : List (Rule K V Sel C) → List Sel
  | [] => []
  | r :: rs => selectorsOf r ++ selectorsOfAll rs
end

mutual
/-- No rule has a condition other than those of `@media` and `@container`. -/
def onlyMedia : Rule K V Sel C → Prop
  | .style _ _ => True
  | .media _ rs => onlyMediaAll rs
  | .other _ _ => False
def onlyMediaAll : List (Rule K V Sel C) → Prop
  | [] => True
  | r :: rs => onlyMedia r ∧ onlyMediaAll rs
end

/-- All of the selectors can be read and match, but for the last one, which need not match. -/
def AllButLast (test : List Sel → N → Option Bool) (n : N) : List Sel → Prop
  | [] => True
  | [s] => test [s] n ≠ none
  | s :: t :: l => test [s] n = some true ∧ AllButLast test n (t :: l)

/-- The circumstances in which the styles of an element itself are found. -/
structure Fits (test : List Sel → N → Option Bool) (look : N → Level K V) (rules : List (Rule K V Sel C)) (n : N) :
    Prop where
  /-- In no rule does a selector follow one that does not match. -/
  selectors : ∀ r ∈ rules, AllButLast test n (selectorsOf r)
  /-- Only `@media` and `@container` are used. -/
  media : onlyMediaAll rules
  /-- Rules stand in the order of specificity. -/
  ordered : ∀ k, (candidates (·.declarations) k (appliedAll test (fun _ => true) n rules)).Pairwise (fun a b => a.1 ≤ b.1)
  orderedImportant : ∀ k,
    (candidates (·.important) k (appliedAll test (fun _ => true) n rules)).Pairwise (fun a b => a.1 ≤ b.1)
  /-- No property is declared twice in the `style` attribute. -/
  inline : ∀ b, (look n).inline = some b → (b.declarations.map (·.1)).Nodup ∧ (b.important.map (·.1)).Nodup
  /-- No attribute is given twice. -/
  attr : ((look n).attr.map (·.1)).Nodup

/-- No property has both a presentation attribute and a rule. -/
def NoClash (test : List Sel → N → Option Bool) (look : N → Level K V) (rules : List (Rule K V Sel C)) (n : N) : Prop :=
  ∀ d ∈ (look n).attr, candidates (·.declarations) d.1 (appliedAll test (fun _ => true) n rules) = []

end Verif.Cascade
