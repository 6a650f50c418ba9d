import Verif.Empty.Model

/-!
# C47: removing definitions that nothing can refer to
-/

namespace Verif.Empty

open Verif.Tree Verif.Names Verif.Removal

variable {A : Type}

/-! ## What is drawn and what can be referred to -/

/-- SVG 2, 5.3 and appendix: elements that are never drawn where they stand, only where something refers to them. -/
def neverDrawn (n : EName) : Bool :=
  among ["defs", "clipPath", "filter", "linearGradient", "marker", "mask", "pattern", "radialGradient", "solidColor", "symbol"] n

mutual
/-- A tree without what is never drawn where it stands. -/
def shown : Node A → List (Node A)
  | .elem n as ks => if neverDrawn n then [] else [.elem n as (shownAll ks)]
  | .text s => [.text s]
  | .css s => [.css s]
  | .comment s => [.comment s]
  | .pi t d => [.pi t d]
def shownAll : List (Node A) → List (Node A)
  | [] => []
  | n :: ns => shown n ++ shownAll ns
end

/-- Style elements, and elements with an `id` or a `class`. -/
def isTarget (isName : A → Bool) (n : EName) (as : List A) : Bool := n.is "style" || as.any isName

mutual
/-- The targets of a tree in document order: name, attributes, and what is shown of the content. -/
def targets (isName : A → Bool) : Node A → List (EName × List A × List (Node A))
  | .elem n as ks => (if isTarget isName n as then [(n, as, shownAll ks)] else []) ++ targetsAll isName ks
  | .text _ => []
  | .css _ => []
  | .comment _ => []
  | .pi _ _ => []
def targetsAll (isName : A → Bool) : List (Node A) → List (EName × List A × List (Node A))
  | [] => []
  | n :: ns => targets isName n ++ targetsAll isName ns
end

theorem shownAll_append (a b : List (Node A)) : shownAll (a ++ b) = shownAll a ++ shownAll b := by
  induction a with
  | nil => rfl
  | cons n ns ih => simp only [List.cons_append, shownAll, ih, List.append_assoc]

theorem targetsAll_append (isName : A → Bool) (a b : List (Node A)) :
    targetsAll isName (a ++ b) = targetsAll isName a ++ targetsAll isName b := by
  induction a with
  | nil => rfl
  | cons n ns ih => simp only [List.cons_append, targetsAll, ih, List.append_assoc]

theorem tidyAll_append (isName : A → Bool) (a b : List (Node A)) :
    tidyAll isName (a ++ b) = tidyAll isName a ++ tidyAll isName b := by
  induction a with
  | nil => simp [tidyAll]
  | cons n ns ih => simp only [List.cons_append, tidyAll, ih, List.append_assoc]

theorem isUseless_neverDrawn {n : EName} (h : isUseless n = true) : neverDrawn n = true := by
  have key : ∀ nm ∈ "defs" :: nonRendering, n.is nm = true → neverDrawn n = true := by
    intro nm hm hn
    refine List.any_eq_true.mpr ⟨nm, ?_, hn⟩
    exact hm
  unfold isUseless at h
  rw [Bool.or_eq_true, Bool.or_eq_true, Bool.and_eq_true] at h
  rcases h with (h | h) | ⟨_, h⟩
  · exact key _ (by decide) h
  · exact key _ (by decide) h
  · obtain ⟨nm, hm, hn⟩ := List.any_eq_true.mp h
    exact key nm (List.mem_cons_of_mem _ hm) hn

theorem neverDrawn_style {n : EName} (h : neverDrawn n = true) : n.is "style" = false := by
  obtain ⟨nm, hm, hn⟩ := List.any_eq_true.mp h
  cases hst : n.is "style" with
  | false => rfl
  | true =>
    simp only [EName.is, Bool.and_eq_true, beq_iff_eq] at hst hn
    have : ∀ nm ∈ ["defs", "clipPath", "filter", "linearGradient", "marker", "mask", "pattern", "radialGradient", "solidColor", "symbol"],
      lit nm ≠ lit "style" := by decide
    exact absurd (hn.2.symm.trans hst.2) (this nm hm)

mutual
theorem shown_tidy (isName : A → Bool) (n : Node A) : shownAll (tidy isName n) = shown n := by
  match n with
  | .elem n as ks =>
    have ih := shown_tidyAll isName ks
    rw [tidy]
    split
    · simp only [shownAll, shown, ih, List.append_nil]
    · split
      · simp only [shownAll, shown, ih, List.append_nil]
      · rename_i h
        have h' := isUseless_neverDrawn (by simpa using h)
        split
        · simp only [shownAll, shown, h', if_true]
        · simp only [shownAll, shown, h', if_true, List.append_nil]
  | .text _ => simp [tidy, shown, shownAll]
  | .css _ => simp [tidy, shown, shownAll]
  | .comment _ => simp [tidy, shown, shownAll]
  | .pi _ _ => simp [tidy, shown, shownAll]
theorem shown_tidyAll (isName : A → Bool) (ns : List (Node A)) : shownAll (tidyAll isName ns) = shownAll ns := by
  match ns with
  | [] => simp [tidyAll]
  | n :: ns =>
    rw [tidyAll, shownAll_append, shown_tidy isName n, shown_tidyAll isName ns, shownAll]
end

mutual
theorem targets_collect1 (isName : A → Bool) (n : Node A) : targetsAll isName (collect1 isName n) = targets isName n := by
  match n with
  | .elem n as ks =>
    rw [collect1]
    split
    · simp only [targetsAll, List.append_nil]
    · rename_i h
      have : isTarget isName n as = false := by simpa [isTarget] using h
      rw [targets, this, targets_collect isName ks]
      simp
  | .text _ => simp [collect1, targets, targetsAll]
  | .css _ => simp [collect1, targets, targetsAll]
  | .comment _ => simp [collect1, targets, targetsAll]
  | .pi _ _ => simp [collect1, targets, targetsAll]
theorem targets_collect (isName : A → Bool) (ns : List (Node A)) : targetsAll isName (collect isName ns) = targetsAll isName ns := by
  match ns with
  | [] => simp [collect]
  | n :: ns => rw [collect, targetsAll_append, targets_collect1 isName n, targets_collect isName ns, targetsAll]
end

mutual
theorem targets_tidy (isName : A → Bool) (n : Node A) : targetsAll isName (tidy isName n) = targets isName n := by
  match n with
  | .elem n as ks =>
    rw [tidy]
    split
    · simp only [targetsAll, targets, shown_tidyAll, targets_tidyAll isName ks, List.append_nil]
    · split
      · simp only [targetsAll, targets, shown_tidyAll, targets_tidyAll isName ks, List.append_nil]
      · rename_i h1 h2
        have hs : n.is "style" = false := by
          exact neverDrawn_style (isUseless_neverDrawn (by simpa using h2))
        have ht : isTarget isName n as = false := by simp [isTarget, hs, h1]
        have hc := targets_collect isName ks
        split
        · rename_i h3
          rw [List.isEmpty_iff.mp h3] at hc
          simp [targets, ht, ← hc, targetsAll]
        · have := targets_tidyAll isName (collect isName ks)
          simp [targets, ht, ← hc, targetsAll, this]
  | .text _ => simp [tidy, targets, targetsAll]
  | .css _ => simp [tidy, targets, targetsAll]
  | .comment _ => simp [tidy, targets, targetsAll]
  | .pi _ _ => simp [tidy, targets, targetsAll]
termination_by sizeOf n
decreasing_by
  all_goals first
    | (simp only [Node.elem.sizeOf_spec]; omega)
    | (have := collect_size isName ks; simp only [Node.elem.sizeOf_spec]; omega)
theorem targets_tidyAll (isName : A → Bool) (ns : List (Node A)) : targetsAll isName (tidyAll isName ns) = targetsAll isName ns := by
  match ns with
  | [] => simp [tidyAll]
  | n :: ns => rw [tidyAll, targetsAll_append, targets_tidy isName n, targets_tidyAll isName ns, targetsAll]
termination_by sizeOf ns
end

/-- **C47 (definitions).** What is drawn where it stands is the same afterwards. -/
theorem defs_shown (isName : A → Bool) (on : Bool) (doc : List (Node A)) :
    shownAll (removeUselessDefs isName on doc) = shownAll doc := by
  cases on
  · rfl
  · exact shown_tidyAll isName doc

/-- **C47 (definitions).** The elements with an `id` or a `class` and the style elements are the same afterwards, in the same order,
with the same attributes and with the same content to be drawn. What is missing: elements that have an effect without being
referred to by an `id` or `class` (`script_violated`) and properties inherited from within the definitions
(`inherit_violated`). -/
theorem defs_targets_partial (isName : A → Bool) (on : Bool) (doc : List (Node A)) :
    targetsAll isName (removeUselessDefs isName on doc) = targetsAll isName doc := by
  cases on
  · rfl
  · exact targets_tidyAll isName doc

/-- An element that something can refer to, or a style element. -/
def Node.IsTarget (isName : A → Bool) : Node A → Prop
  | .elem n as _ => isTarget isName n as = true
  | _ => False

mutual
theorem collect_targets (isName : A → Bool) (ns : List (Node A)) : ∀ k ∈ collect isName ns, Node.IsTarget isName k := by
  match ns with
  | [] => simp [collect]
  | n :: ns =>
    intro k hk
    rw [collect, List.mem_append] at hk
    rcases hk with hk | hk
    · exact collect1_targets isName n k hk
    · exact collect_targets isName ns k hk
theorem collect1_targets (isName : A → Bool) (n : Node A) : ∀ k ∈ collect1 isName n, Node.IsTarget isName k := by
  match n with
  | .elem n as ks =>
    intro k hk
    rw [collect1] at hk
    split at hk
    · rename_i h
      rw [List.mem_singleton] at hk
      subst hk
      exact h
    · exact collect_targets isName ks k hk
  | .text _ => simp [collect1]
  | .css _ => simp [collect1]
  | .comment _ => simp [collect1]
  | .pi _ _ => simp [collect1]
end

theorem tidy_target (isName : A → Bool) (k : Node A) (h : Node.IsTarget isName k) :
    ∃ k', tidy isName k = [k'] ∧ Node.IsTarget isName k' := by
  cases k with
  | elem n as ks =>
    rw [tidy]
    split
    · exact ⟨_, rfl, h⟩
    · rename_i h1
      have hs : n.is "style" = true := by
        have h : isTarget isName n as = true := h
        simpa [isTarget, h1] using h
      split
      · exact ⟨_, rfl, h⟩
      · rename_i h2
        rw [neverDrawn_style (isUseless_neverDrawn (by simpa using h2))] at hs
        cases hs
  | _ => exact absurd h (by simp [Node.IsTarget])

theorem tidyAll_target (isName : A → Bool) (ns : List (Node A)) (h : ∀ k ∈ ns, Node.IsTarget isName k) :
    (tidyAll isName ns).length = ns.length ∧ ∀ k ∈ tidyAll isName ns, Node.IsTarget isName k := by
  induction ns with
  | nil => simp [tidyAll]
  | cons n ns ih =>
    obtain ⟨k', e, hk⟩ := tidy_target isName n (h n (by simp))
    obtain ⟨i1, i2⟩ := ih fun k hk => h k (by simp [hk])
    rw [tidyAll, e]
    refine ⟨by simp [i1], ?_⟩
    intro k hk'
    simp only [List.cons_append, List.nil_append, List.mem_cons] at hk'
    rcases hk' with rfl | hk'
    · exact hk
    · exact i2 k hk'

/-- A definition that nothing can refer to contains something, and only what something can refer to. -/
def Clean (isName : A → Bool) (m : Node A) : Prop :=
  ∀ n as ks, m = .elem n as ks → n.pre = .std .svg → neverDrawn n = true → as.any isName = false →
    ks ≠ [] ∧ ∀ k ∈ ks, Node.IsTarget isName k

theorem neverDrawn_isUseless {n : EName} (hp : n.pre = .std .svg) (h : neverDrawn n = true) : isUseless n = true := by
  obtain ⟨nm, hm, hn⟩ := List.any_eq_true.mp h
  unfold isUseless
  rcases List.mem_cons.mp hm with rfl | hm
  · simp [hn]
  · have : among nonRendering n = true := List.any_eq_true.mpr ⟨nm, hm, hn⟩
    simp [this, hp]

mutual
theorem clean_tidy (isName : A → Bool) (n : Node A) : ∀ m, Occurs (tidy isName n) m → Clean isName m := by
  match n with
  | .elem n as ks =>
    intro m hm
    rw [tidy] at hm
    split at hm
    · rename_i h
      rw [occurs_cons] at hm
      rcases hm with rfl | hm | hm
      · rintro n' as' ks' e _ _ h'
        cases e
        rw [h] at h'
        cases h'
      · exact clean_tidyAll isName ks m hm
      · exact absurd hm not_occurs_nil
    · split at hm
      · rename_i h
        rw [occurs_cons] at hm
        rcases hm with rfl | hm | hm
        · rintro n' as' ks' e hp hd _
          cases e
          rw [neverDrawn_isUseless hp hd] at h
          cases h
        · exact clean_tidyAll isName ks m hm
        · exact absurd hm not_occurs_nil
      · split at hm
        · exact absurd hm not_occurs_nil
        · rename_i h
          rw [occurs_cons] at hm
          rcases hm with rfl | hm | hm
          · rintro n' as' ks' e _ _ _
            cases e
            obtain ⟨h1, h2⟩ := tidyAll_target isName _ (collect_targets isName ks)
            refine ⟨?_, h2⟩
            intro e
            rw [e] at h1
            exact h (List.isEmpty_iff.mpr (List.length_eq_zero_iff.mp h1.symm))
          · exact clean_tidyAll isName (collect isName ks) m hm
          · exact absurd hm not_occurs_nil
  | .text _ =>
    intro m hm
    rw [tidy, occurs_cons] at hm
    rcases hm with rfl | hm | hm
    · rintro _ _ _ e; cases e
    · exact absurd hm not_occurs_nil
    · exact absurd hm not_occurs_nil
  | .css _ =>
    intro m hm
    rw [tidy, occurs_cons] at hm
    rcases hm with rfl | hm | hm
    · rintro _ _ _ e; cases e
    · exact absurd hm not_occurs_nil
    · exact absurd hm not_occurs_nil
  | .comment _ =>
    intro m hm
    rw [tidy, occurs_cons] at hm
    rcases hm with rfl | hm | hm
    · rintro _ _ _ e; cases e
    · exact absurd hm not_occurs_nil
    · exact absurd hm not_occurs_nil
  | .pi _ _ =>
    intro m hm
    rw [tidy, occurs_cons] at hm
    rcases hm with rfl | hm | hm
    · rintro _ _ _ e; cases e
    · exact absurd hm not_occurs_nil
    · exact absurd hm not_occurs_nil
termination_by sizeOf n
decreasing_by
  all_goals first
    | (simp only [Node.elem.sizeOf_spec]; omega)
    | (have := collect_size isName ks; simp only [Node.elem.sizeOf_spec]; omega)
theorem clean_tidyAll (isName : A → Bool) (ns : List (Node A)) : ∀ m, Occurs (tidyAll isName ns) m → Clean isName m := by
  match ns with
  | [] => intro m hm; rw [tidyAll] at hm; exact absurd hm not_occurs_nil
  | n :: ns =>
    intro m hm
    rw [tidyAll, occurs_append] at hm
    rcases hm with hm | hm
    · exact clean_tidy isName n m hm
    · exact clean_tidyAll isName ns m hm
termination_by sizeOf ns
end

/-- **C47 (definitions).** Afterwards, what is never drawn and cannot be referred to contains something, and its children are
all elements that can be referred to or style elements. -/
theorem defs_clean (isName : A → Bool) (doc : List (Node A)) (n : EName) (as : List A) (ks : List (Node A))
    (h : Occurs (removeUselessDefs isName true doc) (.elem n as ks)) (hp : n.pre = .std .svg) (hd : neverDrawn n = true)
    (ha : ∀ a ∈ as, isName a = false) :
    ks ≠ [] ∧ ∀ k ∈ ks, ∃ n' as' ks', k = .elem n' as' ks' ∧ (n'.is "style" = true ∨ ∃ a ∈ as', isName a = true) := by
  obtain ⟨h1, h2⟩ := clean_tidyAll isName doc _ h n as ks rfl hp hd (by simpa using ha)
  refine ⟨h1, fun k hk => ?_⟩
  have := h2 k hk
  cases k with
  | elem n' as' ks' =>
    refine ⟨n', as', ks', rfl, ?_⟩
    have : isTarget isName n' as' = true := this
    simpa [isTarget] using this
  | _ => exact absurd this (by simp [Node.IsTarget])

/-! ## What is lost -/

/-- An SVG element; its attributes are names. -/
def tag (s : String) (as : List String) (ks : List (Node String)) : Node String := .elem ⟨.std .svg, lit s⟩ as ks

def idOrClass (a : String) : Bool := a == "id" || a == "class"

/-- **C47 (scripts and fonts violate it).** A script and a font in definitions have an effect without an `id`; both are removed. -/
theorem script_violated : ∃ (doc : List (Node String)), Occurs doc (tag "script" ["href"] []) ∧
    Occurs doc (tag "font-face" ["font-family"] []) ∧ removeUselessDefs idOrClass true doc = [tag "svg" [] []] := by
  refine ⟨[tag "svg" [] [tag "defs" [] [tag "script" ["href"] [], tag "font" [] [tag "font-face" ["font-family"] []]]]], ?_, ?_, ?_⟩
  · simp [tag, occurs_cons, Node.kids]
  · simp [tag, occurs_cons, Node.kids]
  · simp [removeUselessDefs, tidyAll, tidy, tag, isUseless, EName.is, Prefix.unaliased, lit, idOrClass, collect, collect1, among,
      nonRendering]

/-- **C47 (inherited properties violate it).** A gradient inherits `color` from a group in the definitions; the group is removed and
the gradient is not. -/
theorem inherit_violated : ∃ (g : Node String) (doc : List (Node String)),
    doc = [tag "svg" [] [tag "defs" [] [tag "g" ["color"] [g]]]] ∧
      removeUselessDefs idOrClass true doc = [tag "svg" [] [tag "defs" [] [g]]] := by
  refine ⟨tag "linearGradient" ["id"] [tag "stop" ["stop-color"] []], _, rfl, ?_⟩
  simp [removeUselessDefs, tidyAll, tidy, tag, isUseless, EName.is, Prefix.unaliased, lit, idOrClass, collect, collect1, among,
    nonRendering]

/-- Definitions with something useful deep inside, and a gradient nothing can refer to. -/
example : removeUselessDefs idOrClass true [tag "svg" [] [tag "defs" [] [.text [' '], tag "g" ["fill"] [tag "path" ["id"] [], tag "path" [] []],
      tag "style" [] []], tag "linearGradient" [] [tag "stop" [] []], tag "path" [] []]] =
    [tag "svg" [] [tag "defs" [] [tag "path" ["id"] [], tag "style" [] []], tag "path" [] []]] := by
  simp [removeUselessDefs, tidyAll, tidy, tag, isUseless, EName.is, Prefix.unaliased, lit, idOrClass, collect, collect1, among,
    nonRendering]

end Verif.Empty
