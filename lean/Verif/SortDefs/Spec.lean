import Verif.SortDefs.Model

/-!
# What sorting the children of `defs` has to do
-/

namespace Verif.SortDefs

open Verif.Names

variable {A : Type}

/-- What the standard library promises of a sort of `n` items: if it does not panic, it gives the items in another order; if the comparison is an
order (up to items that are neither less nor greater), it does not panic, what is less is in front, and the others stay in order. -/
def Promised (big : (Nat → Nat → Bool) → Nat → Option (List Nat)) : Prop :=
  ∀ lt n, (∀ l, big lt n = some l → l.Perm (List.range n)) ∧
    ((∀ i < n, lt i i = false) → (∀ i < n, ∀ j < n, ∀ k < n, lt i j = true → lt j k = true → lt i k = true) →
      (∀ i < n, ∀ j < n, ∀ k < n, lt i j = false → lt j k = false → lt i k = false) →
      ∃ l, big lt n = some l ∧ l.Pairwise fun i j => lt i j = true ∨ lt j i = false ∧ i < j)

/-- Whether a node has a name. -/
def IsElem (k : Node A) : Prop := ∃ n d a l, k = .elem n d a l

/-- The children that are not elements. -/
def leaves : List (Node A) → List (Node A)
  | [] => []
  | .leaf a :: l => .leaf a :: leaves l
  | .elem .. :: l => leaves l

/-- The elements among the children. -/
def elems : List (Node A) → List (Node A)
  | [] => []
  | .leaf _ :: l => elems l
  | .elem n d a ks :: l => .elem n d a ks :: elems l

/-- The elements of a name. -/
def named (n : Name) : List (Node A) → List (Node A)
  | [] => []
  | .leaf _ :: l => named n l
  | .elem m d a ks :: l => if m = n then .elem m d a ks :: named n l else named n l

/-- The order of two elements among `ks`: names that occur more often come first, then longer names, then names in reverse alphabetical
order. -/
def Before (ks : List (Node A)) (x y : Node A) : Prop :=
  ∀ m n, x.name = some m → y.name = some n →
    (named n ks).length < (named m ks).length ∨ (named n ks).length = (named m ks).length ∧
      (n.len < m.len ∨ n.len = m.len ∧ (n.pre < m.pre ∨ n.pre = m.pre ∧ n.loc ≤ m.loc))

/-- The children of a `defs` element are as they should be: what is not an element comes first, in reverse, then the elements, sorted, those with
the same name as they were. -/
structure Arranged (ks ms : List (Node A)) : Prop where
  es : ∃ es, ms = (leaves ks).reverse ++ es ∧ es.Perm (elems ks)
  sorted : (elems ms).Pairwise (Before ks)
  same : ∀ n, named n ms = named n ks

mutual
/-- Two trees are the same, but for the order of the children of `defs` elements; `R` is how they are arranged. -/
inductive Moved (R : List (Node A) → List (Node A) → Prop) : Node A → Node A → Prop
  | leaf (a : A) : Moved R (.leaf a) (.leaf a)
  | other (n : Name) (a : A) {ks ks' : List (Node A)} : MovedAll R ks ks' → Moved R (.elem n false a ks) (.elem n false a ks')
  | defs (n : Name) (a : A) {ks ms ks' : List (Node A)} : R ks ms → MovedAll R ms ks' → Moved R (.elem n true a ks) (.elem n true a ks')
inductive MovedAll (R : List (Node A) → List (Node A) → Prop) : List (Node A) → List (Node A) → Prop
  | nil : MovedAll R [] []
  | cons {k k' : Node A} {l l' : List (Node A)} : Moved R k k' → MovedAll R l l' → MovedAll R (k :: l) (k' :: l')
end

mutual
/-- Every list of children of a `defs` element has a property. -/
def Defs (P : List (Node A) → Prop) : Node A → Prop
  | .leaf _ => True
  | .elem _ d _ ks => (d = true → P ks) ∧ DefsAll P ks
def DefsAll (P : List (Node A) → Prop) : List (Node A) → Prop
  | [] => True
  | k :: l => Defs P k ∧ DefsAll P l
end

end Verif.SortDefs
