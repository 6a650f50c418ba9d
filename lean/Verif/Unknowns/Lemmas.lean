import Verif.Unknowns.Spec
import Verif.Cascade.Props
import Mathlib.Data.List.Forall2

/-!
# Lemmas: elements before and after the job
-/

namespace Verif.Unknowns

open Verif.Tree Verif.Names
open Verif.Cascade (Block Rule Level Computed Mode)

variable {Sel C : Type}

/-! ## The tables -/

theorem presentation_iff (k : Key) :
    Group.Presentation ∈ k.groups ↔ k ∈ inheritedProperties ∨ k ∈ otherProperties := by
  cases k <;> decide

theorem inheritable_eq (k : Key) (h : k ≠ .Kerning) : k.inheritable = decide (k ∈ inheritedProperties) := by
  cases k <;> first | rfl | exact absurd rfl h

theorem presented_eq : presented = property := by
  funext a
  match a with
  | .style _ => rfl
  | .plain (.other ..) _ => rfl
  | .plain (.known k) v =>
    simp only [presented, property, presentation_iff]

theorem standard_all : ∀ k ∈ inheritedProperties ++ otherProperties,
    k = .TransformOrigin ∨ k.standard = none ∨ k.standard = some (initial k) := by
  decide +kernel

/-- The value that stands for nothing is the initial value. -/
theorem standard_initial (k : Key) (hp : Group.Presentation ∈ k.groups) (h : k ≠ .TransformOrigin) (v : Val)
    (hv : k.standard = some v) : v = initial k := by
  rcases standard_all k (by rw [List.mem_append]; exact (presentation_iff k).mp hp) with e | e | e
  · exact absurd e h
  · rw [e] at hv; exact absurd hv (by simp)
  · rw [e] at hv; exact (Option.some.inj hv).symm

/-! ## Steps of the job -/

/-- Ancestors before and after the job. -/
inductive Rel (r : Run Sel C) : List E → List E → Prop
  | nil : Rel r [] []
  | same (e : E) {cs cs' : List E} (h : Rel r cs cs') (ha : Alone e cs) : Rel r (e :: cs) (e :: cs')
  | cut (n : EName) (as : List Attr) {cs cs' : List E} (h : Rel r cs cs') (ha : ¬ Alone (n, as) cs)
      (inh : Computed Key Val) (hi : inheritedOf r cs' = some inh) : Rel r ((n, as) :: cs) ((n, pruned r.options n inh as) :: cs')

theorem Rel.names {r : Run Sel C} {c c' : List E} (h : Rel r c c') : c.map (·.1) = c'.map (·.1) := by
  induction h with
  | nil => rfl
  | same e _ _ ih => simp [ih]
  | cut n as _ _ inh _ ih => simp [ih]

/-- What becomes of a node that is not an element. -/
def cleaned (r : Run Sel C) : Node Attr → Node Attr
  | .pi t d => .pi t (if r.options.markup then d.map r.standalone else d)
  | n => n

/-- An item before and after the job. -/
def Same (r : Run Sel C) : Item → Item → Prop
  | .elem c, .elem c' => Rel r c c'
  | .leaf a n, .leaf a' n' => Rel r a a' ∧ n' = cleaned r n
  | _, _ => False

theorem accepts_iff (p : El) (c : Option El) : permitsChild (some p) c = true ↔ Accepts p c := by
  unfold permitsChild Accepts
  cases hp : p.permittedCategories with
  | none => simp [hp]
  | some l =>
    cases c with
    | none => simp [hp]
    | some c =>
      simp only [hp, Bool.or_eq_true, List.any_eq_true, decide_eq_true_eq, Option.some.injEq, reduceCtorEq, false_or]
      constructor
      · rintro (⟨x, hx, h⟩ | h)
        · exact ⟨c, rfl, .inr ⟨l, rfl, x, hx, h⟩⟩
        · exact ⟨c, rfl, .inl h⟩
      · rintro ⟨_, rfl, h | ⟨_, rfl, x, hx, h⟩⟩
        · exact .inr h
        · exact .inl ⟨x, hx, h⟩

theorem removes_iff (r : Run Sel C) (a a' : List E) (ha : a.map (·.1) = a'.map (·.1)) (n : EName)
    (hf : n.is "foreignObject" = false) (hp : n.pre.value = none) :
    removes r.options a' n = true ↔ r.options.unknownContent = true ∧ Stray false a n := by
  unfold removes Stray
  simp only [hf, hp, Bool.and_eq_true, Bool.or_eq_true, Option.isNone_iff_eq_none, true_and]
  constructor
  · rintro ⟨h1, h2⟩
    refine ⟨h1, h2.imp id ?_⟩
    intro h
    cases a' with
    | nil => simp at h
    | cons p ps =>
      obtain ⟨⟨p, x⟩, ps', rfl⟩ : ∃ q qs, a = q :: qs := by
        cases a with
        | nil => simp at ha
        | cons q qs => exact ⟨q, qs, rfl⟩
      simp only [List.map_cons, List.cons.injEq] at ha
      simp only [Bool.not_eq_true', ← ha.1] at h
      refine ⟨p, x, ps', rfl, ?_⟩
      cases he : elementOf p with
      | none => rw [he] at h; simp [permitsChild] at h
      | some q =>
        refine ⟨q, rfl, ?_⟩
        rw [← accepts_iff, ← he, h]
        simp
  · rintro ⟨h1, h2⟩
    refine ⟨h1, h2.imp id ?_⟩
    rintro ⟨p, x, rest, rfl, q, hq, hn⟩
    cases a' with
    | nil => simp at ha
    | cons p' ps =>
      simp only [List.map_cons, List.cons.injEq] at ha
      simp only [← ha.1, hq, Bool.not_eq_true']
      rw [← accepts_iff] at hn
      simpa using hn

open Classical in
/-- The elements that the job removes. -/
noncomputable def gone (o : Options) (f : Bool) (a : List E) (n : EName) : Bool :=
  decide (o.unknownContent = true ∧ Stray f a n)

theorem gone_iff (o : Options) (f : Bool) (a : List E) (n : EName) :
    gone o f a n = true ↔ o.unknownContent = true ∧ Stray f a n := by
  simp [gone]

theorem gone_not (o : Options) (f : Bool) (a : List E) (n : EName) (h : ¬ Stray f a n) : gone o f a n = false := by
  simp [gone, h]

mutual
theorem visit_items (r : Run Sel C) (f : Bool) (a a' : List E) (ha : Rel r a a')
    (hfa : f = a.any fun e => e.1.is "foreignObject") : ∀ (n : Node Attr) (ns : List (Node Attr)),
    visit r f a' n = some ns →
    List.Forall₂ (Same r) (items (gone r.options) f a n) (itemsAll (fun _ _ _ => false) f a' ns)
  | .text s, ns, h => by
    simp only [visit, Option.some.injEq] at h
    subst h
    exact .cons ⟨ha, rfl⟩ .nil
  | .css s, ns, h => by
    simp only [visit, Option.some.injEq] at h
    subst h
    exact .cons ⟨ha, rfl⟩ .nil
  | .comment s, ns, h => by
    simp only [visit, Option.some.injEq] at h
    subst h
    exact .cons ⟨ha, rfl⟩ .nil
  | .pi t d, ns, h => by
    simp only [visit, Option.some.injEq] at h
    subst h
    exact .cons ⟨ha, rfl⟩ .nil
  | .elem n as ks, ns, h => by
    unfold visit at h
    by_cases h1 : (f || n.is "foreignObject") = true
    · simp only [h1, if_true, Option.map_eq_some_iff] at h
      obtain ⟨ks', hk, rfl⟩ := h
      have hg : gone r.options f a n = false := gone_not _ _ _ _ (by
        rintro ⟨x, y, _⟩
        simp [x, y] at h1)
      simp only [items, hg, Bool.false_eq_true, if_false, itemsAll, List.append_nil, h1]
      have hal : Alone (n, as) a := .inl (by
        rw [Bool.or_eq_true] at h1
        rcases h1 with h1 | h1
        · rw [hfa, List.any_eq_true] at h1
          obtain ⟨x, hx, hf⟩ := h1
          exact ⟨x, by simp [hx], hf⟩
        · exact ⟨(n, as), by simp, h1⟩)
      exact .cons (.same _ ha hal) (visitAll_items r true _ _ (.same _ ha hal)
        (by rw [List.any_cons, ← hfa, Bool.or_comm]; exact h1.symm) ks ks' hk)
    · rw [if_neg h1] at h
      have h1' : f = false ∧ n.is "foreignObject" = false := by simpa using h1
      obtain ⟨hf, hn⟩ := h1'
      have hfa' : false = ((n, as) :: a).any fun e => e.1.is "foreignObject" := by
        rw [List.any_cons, ← hfa, hf, hn]; rfl
      subst hf
      by_cases h2 : n.pre.value = none
      · have h2' : n.pre.isEmpty = true := by simp [Prefix.isEmpty, h2]
        simp only [h2', Bool.not_true, Bool.false_eq_true, if_false] at h
        have hr := removes_iff r a a' ha.names n hn h2
        by_cases h3 : removes r.options a' n = true
        · have hg : gone r.options false a n = true := by
            rw [gone_iff]
            exact hr.mp h3
          simp only [h3, if_true, Option.map_eq_some_iff] at h
          obtain ⟨_, _, rfl⟩ := h
          simp only [items, hg, if_true, itemsAll]
          exact .nil
        · have hg : gone r.options false a n = false := by
            rw [← Bool.not_eq_true, gone_iff]
            exact fun x => h3 (hr.mpr x)
          rw [if_neg h3] at h
          split at h
          · simp at h
          · next inh hi =>
            simp only [Option.map_eq_some_iff] at h
            obtain ⟨ks', hk, rfl⟩ := h
            simp only [items, hg, Bool.false_eq_true, if_false, itemsAll, List.append_nil, hn, Bool.or_false]
            have hal : ¬ Alone (n, as) a := by
              rintro (⟨x, hx, hf⟩ | h)
              · have : (((n, as) :: a).any fun e => e.1.is "foreignObject") = true := List.any_eq_true.mpr ⟨x, hx, hf⟩
                rw [← hfa'] at this
                simp at this
              · exact h h2
            exact .cons (.cut n as ha hal inh hi) (visitAll_items r false _ _ (.cut n as ha hal inh hi)
              (by simpa [hn] using hfa) ks ks' hk)
      · have h2' : n.pre.isEmpty = false := by
          simp only [Prefix.isEmpty, Option.isNone_eq_false_iff]
          exact Option.isSome_iff_ne_none.mpr h2
        simp only [h2', Bool.not_false, if_true, Option.map_eq_some_iff] at h
        obtain ⟨ks', hk, rfl⟩ := h
        have hg : gone r.options false a n = false := gone_not _ _ _ _ fun x => h2 x.2.2.1
        simp only [items, hg, Bool.false_eq_true, if_false, itemsAll, List.append_nil, hn, Bool.or_false]
        exact .cons (.same _ ha (.inr h2)) (visitAll_items r false _ _ (.same _ ha (.inr h2)) (by simpa [hn] using hfa) ks ks' hk)
theorem visitAll_items (r : Run Sel C) (f : Bool) (a a' : List E) (ha : Rel r a a')
    (hfa : f = a.any fun e => e.1.is "foreignObject") :
    ∀ (l ns : List (Node Attr)), visitAll r f a' l = some ns →
    List.Forall₂ (Same r) (itemsAll (gone r.options) f a l) (itemsAll (fun _ _ _ => false) f a' ns)
  | [], ns, h => by
    simp only [visitAll, Option.some.injEq] at h
    subst h
    exact .nil
  | n :: l, ns, h => by
    unfold visitAll at h
    split at h
    · next x y hx hy =>
      simp only [Option.some.injEq] at h
      subst h
      have h1 := visit_items r f a a' ha hfa n x hx
      have h2 := visitAll_items r f a a' ha hfa l y hy
      have happ : ∀ u v : List (Node Attr), itemsAll (fun _ _ _ => false) f a' (u ++ v) =
          itemsAll (fun _ _ _ => false) f a' u ++ itemsAll (fun _ _ _ => false) f a' v := by
        intro u v
        induction u with
        | nil => rfl
        | cons w u ih => simp only [List.cons_append, itemsAll, ih, List.append_assoc]
      rw [happ, itemsAll]
      exact List.rel_append h1 h2
    · simp at h
end

end Verif.Unknowns
