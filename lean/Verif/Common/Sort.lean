/-!
# A stable sort

Rust's `sort_by` is a stable sort: its result is determined by the comparator. Insertion from the right is one
such sort that evaluates in the kernel.
-/

namespace Verif

def insertBy {α : Type} (le : α → α → Bool) (a : α) : List α → List α
  | [] => [a]
  | b :: l => if le a b then a :: b :: l else b :: insertBy le a l

/-- Stable sort by `le`. -/
def sortBy {α : Type} (le : α → α → Bool) (l : List α) : List α := l.foldr (insertBy le) []

variable {α : Type} {le : α → α → Bool}

theorem insertBy_perm (a : α) (l : List α) : (insertBy le a l).Perm (a :: l) := by
  induction l with
  | nil => exact .refl _
  | cons b l ih =>
    simp only [insertBy]
    split
    · exact .refl _
    · exact (ih.cons b).trans (.swap ..)

theorem sortBy_perm (l : List α) : (sortBy le l).Perm l := by
  induction l with
  | nil => exact .refl _
  | cons a l ih => exact (insertBy_perm a _).trans (ih.cons a)

theorem insertBy_pairwise (trans : ∀ a b c, le a b = true → le b c = true → le a c = true)
    (total : ∀ a b, le a b = true ∨ le b a = true) (a : α) (l : List α) (h : l.Pairwise (fun x y => le x y = true)) :
    (insertBy le a l).Pairwise (fun x y => le x y = true) := by
  induction l with
  | nil => simp [insertBy]
  | cons b l ih =>
    have h' := List.pairwise_cons.mp h
    simp only [insertBy]
    split
    · next hab =>
      refine List.pairwise_cons.mpr ⟨?_, h⟩
      intro x hx
      rcases List.mem_cons.mp hx with rfl | hx
      · exact hab
      · exact trans _ _ _ hab (h'.1 x hx)
    · next hab =>
      refine List.pairwise_cons.mpr ⟨?_, ih h'.2⟩
      intro x hx
      rcases List.mem_cons.mp ((insertBy_perm a l).mem_iff.mp hx) with rfl | hx
      · exact (total x b).resolve_left hab
      · exact h'.1 x hx

theorem sortBy_pairwise (trans : ∀ a b c, le a b = true → le b c = true → le a c = true)
    (total : ∀ a b, le a b = true ∨ le b a = true) (l : List α) :
    (sortBy le l).Pairwise (fun x y => le x y = true) := by
  induction l with
  | nil => simp [sortBy]
  | cons a l ih => exact insertBy_pairwise trans total a _ ih

/-- A sorted list stays as it is. -/
theorem sortBy_of_pairwise (l : List α) (h : l.Pairwise (fun x y => le x y = true)) : sortBy le l = l := by
  induction l with
  | nil => rfl
  | cons a l ih =>
    have h' := List.pairwise_cons.mp h
    show insertBy le a (sortBy le l) = a :: l
    rw [ih h'.2]
    cases l with
    | nil => rfl
    | cons b l => simp [insertBy, h'.1 b (by simp)]

/-- Stability: elements that are equivalent (each before the other) keep their order. -/
theorem sortBy_stable (p : α → Bool) (hp : ∀ a b, p a = true → p b = true → le a b = true)
    (l : List α) : (sortBy le l).filter p = l.filter p := by
  have ins : ∀ a (m : List α), (insertBy le a m).filter p = (a :: m).filter p := by
    intro a m
    induction m with
    | nil => rfl
    | cons b m ih =>
      simp only [insertBy]
      split
      · rfl
      · next hab =>
        rw [List.filter_cons, ih]
        by_cases ha : p a = true <;> by_cases hb : p b = true
        · exact absurd (hp a b ha hb) hab
        · simp [ha, hb]
        · simp [ha, hb]
        · simp [ha, hb]
  induction l with
  | nil => rfl
  | cons a l ih =>
    show (insertBy le a (sortBy le l)).filter p = _
    rw [ins, List.filter_cons, ih, List.filter_cons]

end Verif
