import Verif.Retain.Spec
import Verif.Unknowns.Styles

/-!
# Lemmas about jobs that remove attributes
-/

namespace Verif.Retain

open Verif.Tree Verif.Names
open Verif.Unknowns (Key Val Attr AId E El Item property items itemsAll content)
open Verif.Viewport (edit editAll)

/-- An item with the attributes of all elements in it changed. -/
def edited (g : E → E) : Item → Item
  | .elem c => .elem (c.map g)
  | .leaf anc n => .leaf (anc.map g) n

def onAttrs (f : EName → List Attr → List Attr) (e : E) : E := (e.1, f e.1 e.2)

mutual
theorem items_edit (f : EName → List Attr → List Attr) (top fo : Bool) (anc : List E) : ∀ n : Node Attr,
    items (fun _ _ _ => false) fo (anc.map (onAttrs f)) (edit (fun _ => f) top n) =
      (items (fun _ _ _ => false) fo anc n).map (edited (onAttrs f))
  | .elem n as ks => by
    have h := itemsAll_edit f false (fo || n.is "foreignObject") ((n, as) :: anc) ks
    simp only [edit, items, Bool.false_eq_true, if_false, List.map_cons, edited]
    rw [← h]
    rfl
  | .text _ => rfl
  | .css _ => rfl
  | .comment _ => rfl
  | .pi _ _ => rfl
theorem itemsAll_edit (f : EName → List Attr → List Attr) (top fo : Bool) (anc : List E) : ∀ l : List (Node Attr),
    itemsAll (fun _ _ _ => false) fo (anc.map (onAttrs f)) (editAll (fun _ => f) top l) =
      (itemsAll (fun _ _ _ => false) fo anc l).map (edited (onAttrs f))
  | [] => rfl
  | n :: l => by
    rw [editAll, itemsAll, itemsAll, List.map_append, items_edit f top fo anc n, itemsAll_edit f top fo anc l]
end

theorem content_edit (f : EName → List Attr → List Attr) (doc : List (Node Attr)) :
    content (editAll (fun _ => f) true doc) = (content doc).map (edited (onAttrs f)) :=
  itemsAll_edit f true false [] doc

theorem names_edit (f : EName → List Attr → List Attr) (c : List E) : (c.map (onAttrs f)).map (·.1) = c.map (·.1) := by
  simp [onAttrs]

/-- What holds for all elements with their ancestors before and after. -/
theorem along_edit (f : EName → List Attr → List Attr) (doc : List (Node Attr)) (P : List E → List E → Prop)
    (h : ∀ c, .elem c ∈ content doc → P c (c.map (onAttrs f))) :
    List.Forall₂ (Along P) (content doc) (content (editAll (fun _ => f) true doc)) := by
  rw [content_edit, List.forall₂_map_right_iff, List.forall₂_same]
  intro x hx
  cases x with
  | elem c => exact h c hx
  | leaf a n => exact ⟨names_edit f a, rfl⟩

theorem along_same (doc : List (Node Attr)) (P : List E → List E → Prop) (h : ∀ c, .elem c ∈ content doc → P c c) :
    List.Forall₂ (Along P) (content doc) (content doc) := by
  rw [List.forall₂_same]
  intro x hx
  cases x with
  | elem c => exact h c hx
  | leaf a n => exact ⟨rfl, rfl⟩

mutual
theorem items_parent (fo : Bool) (anc : List E) : ∀ n : Node Attr, ∀ c, .elem c ∈ items (fun _ _ _ => false) fo anc n →
    ∃ e pre, c = pre ++ e :: anc ∧ ∀ x ys, (∃ zs, c = zs ++ x :: ys) → ys.length ≥ anc.length →
      .elem (x :: ys) ∈ items (fun _ _ _ => false) fo anc n
  | .elem n as ks, c, h => by
    simp only [items, Bool.false_eq_true, if_false, List.mem_cons] at h ⊢
    rcases h with h | h
    · cases h
      refine ⟨(n, as), [], rfl, ?_⟩
      rintro x ys ⟨zs, hz⟩ hl
      left
      cases zs with
      | nil =>
        rw [hz]
        rfl
      | cons z zs =>
        exfalso
        have := congrArg List.length hz
        simp at this
        omega
    · obtain ⟨e, pre, rfl, h2⟩ := itemsAll_parent _ _ ks c h
      refine ⟨(n, as), pre ++ [e], by simp, ?_⟩
      rintro x ys hz hl
      by_cases hl' : ys.length ≥ ((n, as) :: anc).length
      · exact .inr (h2 x ys hz hl')
      · left
        obtain ⟨zs, hz⟩ := hz
        have hlen : ys.length = anc.length := by
          simp at hl'
          omega
        have h3 : x :: ys = (n, as) :: anc := by
          have h4 : (pre ++ [e]) ++ (n, as) :: anc = zs ++ x :: ys := by simpa using hz
          exact (List.append_inj' h4 (by simp [hlen])).2.symm
        rw [h3]
  | .text _, c, h => by simp [items] at h
  | .css _, c, h => by simp [items] at h
  | .comment _, c, h => by simp [items] at h
  | .pi _ _, c, h => by simp [items] at h
theorem itemsAll_parent (fo : Bool) (anc : List E) : ∀ l : List (Node Attr), ∀ c,
    .elem c ∈ itemsAll (fun _ _ _ => false) fo anc l →
    ∃ e pre, c = pre ++ e :: anc ∧ ∀ x ys, (∃ zs, c = zs ++ x :: ys) → ys.length ≥ anc.length →
      .elem (x :: ys) ∈ itemsAll (fun _ _ _ => false) fo anc l
  | [], c, h => by simp [itemsAll] at h
  | n :: l, c, h => by
    simp only [itemsAll, List.mem_append] at h ⊢
    rcases h with h | h
    · obtain ⟨e, pre, h1, h2⟩ := items_parent fo anc n c h
      exact ⟨e, pre, h1, fun x ys hz hl => .inl (h2 x ys hz hl)⟩
    · obtain ⟨e, pre, h1, h2⟩ := itemsAll_parent fo anc l c h
      exact ⟨e, pre, h1, fun x ys hz hl => .inr (h2 x ys hz hl)⟩
end

/-- The ancestors of an element are elements of the document. -/
theorem content_ancestor (doc : List (Node Attr)) (c : List E) (h : .elem c ∈ content doc) (e : E) (he : e ∈ c) :
    ∃ cs, .elem (e :: cs) ∈ content doc := by
  obtain ⟨_, _, _, h2⟩ := itemsAll_parent false [] doc c h
  obtain ⟨pre, post, rfl⟩ := List.append_of_mem he
  exact ⟨post, h2 e post ⟨pre, rfl⟩ (by simp)⟩

end Verif.Retain
