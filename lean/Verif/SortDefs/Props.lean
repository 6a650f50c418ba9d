import Verif.SortDefs.Spec
import Verif.Dom.RetainProps

/-!
# C60: sorting the children of `defs`
-/

namespace Verif.SortDefs

open Verif.Names

variable {A : Type}

/-! ## The comparison -/

theorem lessName_irrefl (names : List (Option Name)) (a : Name) : lessName names a a = false := by
  simp [lessName, List.lt_irrefl]

theorem lt_or {a b : Str} : a < b ∨ a = b ∨ b < a := by
  by_cases h : a < b
  · exact .inl h
  · by_cases h' : b < a
    · exact .inr (.inr h')
    · exact .inr (.inl (List.le_antisymm (List.not_lt.mp h') (List.not_lt.mp h)))

theorem not_lt_trans {a b c : Str} (h : ¬ a < b) (h' : ¬ b < c) : ¬ a < c :=
  List.not_lt.mpr (List.le_trans (List.not_lt.mp h') (List.not_lt.mp h))

theorem lessName_trans {names : List (Option Name)} {a b c : Name} (h : lessName names a b = true) (h' : lessName names b c = true) :
    lessName names a c = true := by
  have t1 : ∀ {x y z : Str}, x < y → y < z → x < z := List.lt_trans
  have t2 : ∀ {x : Str}, ¬ x < x := fun {x} => List.lt_irrefl x
  simp only [lessName] at *
  grind

theorem lessName_neg {names : List (Option Name)} {a b c : Name} (h : lessName names a b = false) (h' : lessName names b c = false) :
    lessName names a c = false := by
  have t1 : ∀ {x y z : Str}, ¬ x < y → ¬ y < z → ¬ x < z := not_lt_trans
  have t2 : ∀ {x y : Str}, ¬ x < y → ¬ y < x → x = y := fun h k => List.le_antisymm (List.not_lt.mp k) (List.not_lt.mp h)
  simp only [lessName] at *
  grind

/-! ## Sorting by insertion -/

variable {lt : Nat → Nat → Bool}

/-- In front of another in the reversed list. -/
def Back (lt : Nat → Nat → Bool) (i j : Nat) : Prop := lt j i = true ∨ lt i j = false ∧ j < i

theorem insertTail_perm (x : Nat) (l : List Nat) : (insertTail lt x l).Perm (x :: l) := by
  induction l with
  | nil => exact .refl _
  | cons y l ih =>
    simp only [insertTail]
    split
    · exact (ih.cons y).trans (.swap ..)
    · exact .refl _

theorem insertTail_sorted (P : Nat → Prop) (tr : ∀ i j k, P i → P j → P k → lt i j = true → lt j k = true → lt i k = true)
    (ng : ∀ i j k, P i → P j → P k → lt i j = false → lt j k = false → lt i k = false) {x : Nat} (px : P x) {l : List Nat} (pl : ∀ i ∈ l, P i)
    (big : ∀ i ∈ l, i < x) (hl : l.Pairwise (Back lt)) : (insertTail lt x l).Pairwise (Back lt) := by
  induction l with
  | nil => simp [insertTail]
  | cons y l ih =>
    obtain ⟨h1, h2⟩ := List.pairwise_cons.mp hl
    simp only [insertTail]
    split
    · next hxy =>
      refine List.pairwise_cons.mpr ⟨?_, ih (fun i hi => pl i (by simp [hi])) (fun i hi => big i (by simp [hi])) h2⟩
      intro z hz
      rcases List.mem_cons.mp ((insertTail_perm x l).mem_iff.mp hz) with rfl | hz
      · exact .inl hxy
      · exact h1 z hz
    · next hxy =>
      refine List.pairwise_cons.mpr ⟨?_, hl⟩
      intro z hz
      have hxy : lt x y = false := by simpa using hxy
      refine .inr ⟨?_, big z hz⟩
      rcases List.mem_cons.mp hz with rfl | hz'
      · exact hxy
      · have py := pl y (by simp)
        have pz := pl z hz
        rcases h1 z hz' with h | h
        · cases e : lt x z with
          | false => rfl
          | true => rw [tr x z y px pz py e h] at hxy; exact absurd hxy (by simp)
        · exact ng x y z px py pz hxy h.1

/-- What is not an element passes everything, what is one stops in front of the others. -/
theorem insertTail_leaf {lf : Nat → Bool} (h1 : ∀ i j, lf i = true → lt i j = true) {x : Nat} (hx : lf x = true) (l : List Nat) :
    insertTail lt x l = l ++ [x] := by
  induction l with
  | nil => rfl
  | cons y l ih => simp [insertTail, h1 x y hx, ih]

theorem insertTail_elem {lf : Nat → Bool} (h2 : ∀ i j, lf i = false → lf j = true → lt i j = false) {x : Nat} (hx : lf x = false)
    (e l : List Nat) (hl : ∀ i ∈ l, lf i = true) : insertTail lt x (e ++ l) = insertTail lt x e ++ l := by
  induction e with
  | nil =>
    cases l with
    | nil => rfl
    | cons y l => simp [insertTail, h2 x y hx (hl y (by simp))]
  | cons y e ih =>
    simp only [List.cons_append, insertTail, ih]
    split <;> rfl

theorem fold_split {lf : Nat → Bool} (h1 : ∀ i j, lf i = true → lt i j = true) (h2 : ∀ i j, lf i = false → lf j = true → lt i j = false)
    (xs : List Nat) : ∀ e l : List Nat, (∀ i ∈ l, lf i = true) →
      xs.foldl (fun acc x => insertTail lt x acc) (e ++ l) =
        (xs.filter fun i => !lf i).foldl (fun acc x => insertTail lt x acc) e ++ (l ++ xs.filter lf) := by
  induction xs with
  | nil => intro e l _; simp
  | cons x xs ih =>
    intro e l hl
    rw [List.foldl_cons]
    cases hx : lf x with
    | true =>
      rw [insertTail_leaf h1 hx, List.append_assoc, ih e (l ++ [x]) (by
        intro i hi
        rcases List.mem_append.mp hi with hi | hi
        · exact hl i hi
        · simp only [List.mem_singleton] at hi; rw [hi]; exact hx)]
      simp [hx]
    | false =>
      rw [insertTail_elem h2 hx e l hl, ih _ l hl]
      simp [hx]

theorem fold_sorted (P : Nat → Prop) (tr : ∀ i j k, P i → P j → P k → lt i j = true → lt j k = true → lt i k = true)
    (ng : ∀ i j k, P i → P j → P k → lt i j = false → lt j k = false → lt i k = false) (xs : List Nat) : ∀ e : List Nat,
      (∀ i ∈ xs, P i) → (∀ i ∈ e, P i) → (∀ i ∈ e, ∀ j ∈ xs, i < j) → xs.Pairwise (· < ·) → e.Pairwise (Back lt) →
      (xs.foldl (fun acc x => insertTail lt x acc) e).Pairwise (Back lt) ∧
        (xs.foldl (fun acc x => insertTail lt x acc) e).Perm (xs ++ e) := by
  induction xs with
  | nil => intro e _ _ _ _ h; exact ⟨h, .refl _⟩
  | cons x xs ih =>
    intro e hx he hlt hp hs
    obtain ⟨hp1, hp2⟩ := List.pairwise_cons.mp hp
    have hperm := insertTail_perm (lt := lt) x e
    obtain ⟨r1, r2⟩ := ih (insertTail lt x e) (fun i hi => hx i (by simp [hi]))
      (by
        intro i hi
        rcases List.mem_cons.mp (hperm.mem_iff.mp hi) with rfl | hi
        · exact hx _ (by simp)
        · exact he i hi)
      (by
        intro i hi j hj
        rcases List.mem_cons.mp (hperm.mem_iff.mp hi) with rfl | hi
        · exact hp1 j hj
        · exact hlt i hi j (by simp [hj]))
      hp2 (insertTail_sorted P tr ng (hx x (by simp)) he (fun i hi => hlt i hi x (by simp)) hs)
    refine ⟨r1, r2.trans ?_⟩
    exact (hperm.append_left xs).trans List.perm_middle

/-! ## The order of the children -/

/-- The comparison of the children at two positions. -/
def lessAt (names : List (Option Name)) (i j : Nat) : Bool := less names (names[i]?.getD none) (names[j]?.getD none)

def isLeaf (names : List (Option Name)) (i : Nat) : Bool := (names[i]?.getD none).isNone

/-- In front of another. -/
def Front (names : List (Option Name)) (i j : Nat) : Prop := lessAt names i j = true ∨ lessAt names j i = false ∧ i < j

theorem lessAt_trans {names : List (Option Name)} {i j k : Nat} (hi : isLeaf names i = false) (hj : isLeaf names j = false) (hk : isLeaf names k = false)
    (h : lessAt names i j = true) (h' : lessAt names j k = true) : lessAt names i k = true := by
  simp only [isLeaf, lessAt] at *
  cases e1 : names[i]?.getD none <;> cases e2 : names[j]?.getD none <;> cases e3 : names[k]?.getD none <;> simp_all [less]
  exact lessName_trans h h'

theorem lessAt_neg {names : List (Option Name)} {i j k : Nat} (hi : isLeaf names i = false) (hj : isLeaf names j = false) (hk : isLeaf names k = false)
    (h : lessAt names i j = false) (h' : lessAt names j k = false) : lessAt names i k = false := by
  simp only [isLeaf, lessAt] at *
  cases e1 : names[i]?.getD none <;> cases e2 : names[j]?.getD none <;> cases e3 : names[k]?.getD none <;> simp_all [less]
  exact lessName_neg h h'

/-- The order has first the children that are not elements, in reverse, and then the elements, sorted. -/
theorem order_eq {big : (Nat → Nat → Bool) → Nat → Option (List Nat)} (hb : Promised big) {names : List (Option Name)}
    (h : names.length ≤ 20 ∨ none ∉ names) : ∃ es, order big names = some (((List.range names.length).filter (isLeaf names)).reverse ++ es) ∧
      es.Pairwise (Front names) ∧ es.Perm ((List.range names.length).filter fun i => !isLeaf names i) := by
  unfold order sortBy
  split
  · have h1 : ∀ i j, isLeaf names i = true → lessAt names i j = true := by
      intro i j hi
      simp only [isLeaf, Option.isNone_iff_eq_none] at hi
      simp [lessAt, hi, less]
    have h2 : ∀ i j, isLeaf names i = false → isLeaf names j = true → lessAt names i j = false := by
      intro i j hi hj
      simp only [isLeaf, Option.isNone_iff_eq_none] at hj
      simp only [isLeaf] at hi
      cases e : names[i]?.getD none with
      | none => simp [e] at hi
      | some n => simp [lessAt, e, hj, less]
    have hf := fold_split h1 h2 (List.range names.length) [] [] (by simp)
    have hs := fold_sorted (lt := lessAt names) (fun i => isLeaf names i = false) (fun i j k => lessAt_trans) (fun i j k => lessAt_neg)
      ((List.range names.length).filter fun i => !isLeaf names i) [] (by simp) (by simp) (by simp)
      (List.pairwise_lt_range.filter _) .nil
    refine ⟨_, congrArg some ?_, List.pairwise_reverse.mpr (hs.1.imp ?_), (List.reverse_perm _).trans (by simpa using hs.2)⟩
    · show (List.foldl (fun acc x => insertTail (lessAt names) x acc) [] (List.range names.length)).reverse = _
      simp only [List.nil_append] at hf
      rw [hf, List.reverse_append]
    · intro i j hij
      exact hij
  · next hlen =>
    have hno := h.resolve_left hlen
    have hlf : ∀ i < names.length, isLeaf names i = false := by
      intro i hi
      simp only [isLeaf, List.getElem?_eq_getElem hi, Option.getD_some]
      cases e : names[i] with
      | none => exact absurd (e ▸ List.getElem_mem hi) hno
      | some n => rfl
    obtain ⟨hp, hs⟩ := hb (lessAt names) names.length
    obtain ⟨l, hl, hpw⟩ := hs
      (fun i hi => by
        have := hlf i hi
        simp only [isLeaf] at this
        simp only [lessAt]
        cases e : names[i]?.getD none with
        | none => simp [e] at this
        | some n => exact lessName_irrefl names n)
      (fun i hi j hj k hk => lessAt_trans (hlf i hi) (hlf j hj) (hlf k hk))
      (fun i hi j hj k hk => lessAt_neg (hlf i hi) (hlf j hj) (hlf k hk))
    have e1 : (List.range names.length).filter (isLeaf names) = [] := by
      rw [List.filter_eq_nil_iff]
      intro i hi
      simp [hlf i (List.mem_range.mp hi)]
    have e2 : (List.range names.length).filter (fun i => !isLeaf names i) = List.range names.length := by
      rw [List.filter_eq_self]
      intro i hi
      simp [hlf i (List.mem_range.mp hi)]
    refine ⟨l, ?_, hpw, ?_⟩
    · rw [e1, List.reverse_nil, List.nil_append]; exact hl
    · rw [e2]; exact hp l hl

/-! ## Children at positions -/

/-- The children at positions. -/
def pick (ks : List (Node A)) (l : List Nat) : List (Node A) := l.filterMap (ks[·]?)

theorem pick_range (ks : List (Node A)) : pick ks (List.range ks.length) = ks := by
  unfold pick
  induction ks with
  | nil => rfl
  | cons k ks ih =>
    rw [List.length_cons, List.range_succ_eq_map, List.filterMap_cons]
    simp only [List.getElem?_cons_zero, List.filterMap_map]
    congr 1

theorem pick_filter (ks : List (Node A)) (p : Node A → Bool) (q : Nat → Bool) (l : List Nat) (h : ∀ i k, ks[i]? = some k → q i = p k) :
    pick ks (l.filter q) = (pick ks l).filter p := by
  unfold pick
  induction l with
  | nil => rfl
  | cons i l ih =>
    rw [List.filter_cons, List.filterMap_cons]
    cases e : ks[i]? with
    | none =>
      split
      · rw [List.filterMap_cons]; simp only [e]; exact ih
      · exact ih
    | some k =>
      simp only [h i k e, List.filter_cons]
      split
      · rw [List.filterMap_cons]; simp only [e, ih]
      · exact ih

theorem leaves_eq (ks : List (Node A)) : leaves ks = ks.filter fun k => k.name.isNone := by
  induction ks with
  | nil => rfl
  | cons k ks ih => cases k <;> simp [leaves, Node.name, ih]

theorem elems_eq (ks : List (Node A)) : elems ks = ks.filter fun k => !k.name.isNone := by
  induction ks with
  | nil => rfl
  | cons k ks ih => cases k <;> simp [elems, Node.name, ih]

theorem named_eq (n : Name) (ks : List (Node A)) : named n ks = ks.filter fun k => k.name == some n := by
  induction ks with
  | nil => rfl
  | cons k ks ih =>
    cases k with
    | leaf a => simp [named, Node.name, ih]
    | elem m d a l =>
      simp only [named, Node.name, List.filter_cons, ih]
      by_cases h : m = n <;> simp [h]

theorem freq_eq (ks : List (Node A)) (n : Name) : freq (ks.map Node.name) n = (named n ks).length := by
  rw [freq, named_eq, List.count, List.countP_map, List.countP_eq_length_filter]
  rfl

theorem name_at {ks : List (Node A)} {i : Nat} {k : Node A} (h : ks[i]? = some k) : ((ks.map Node.name)[i]?).getD none = k.name := by
  simp [h]

/-- What the comparison means. -/
theorem before_of_less {ks : List (Node A)} {m n : Name} (h : lessName (ks.map Node.name) m n = true ∨ lessName (ks.map Node.name) n m = false) :
    (named n ks).length < (named m ks).length ∨ (named n ks).length = (named m ks).length ∧
      (n.len < m.len ∨ n.len = m.len ∧ (n.pre < m.pre ∨ n.pre = m.pre ∧ n.loc ≤ m.loc)) := by
  have t1 : ∀ {x y : Str}, x < y → x ≤ y := fun h => List.not_lt.mp (List.lt_asymm h)
  have t2 : ∀ {x y : Str}, ¬ x < y → y ≤ x := fun h => List.not_lt.mp h
  have t3 : ∀ {x y : Str}, ¬ x < y → x ≠ y → y < x := fun h k => (lt_or.resolve_left h).resolve_left k
  simp only [lessName, freq_eq] at h
  grind

/-- The children in the new order are arranged. -/
theorem arranged_of_order {big : (Nat → Nat → Bool) → Nat → Option (List Nat)} (hb : Promised big) {ks : List (Node A)}
    (h : ks.length ≤ 20 ∨ ∀ k ∈ ks, IsElem k) : ∃ l, order big (ks.map Node.name) = some l ∧ Arranged ks (pick ks l) := by
  have hno : (ks.map Node.name).length ≤ 20 ∨ none ∉ ks.map Node.name := by
    refine h.imp (by simp) fun h hm => ?_
    obtain ⟨k, hk, e⟩ := List.mem_map.mp hm
    obtain ⟨n, d, a, l, rfl⟩ := h k hk
    simp [Node.name] at e
  obtain ⟨es, ho, hpw, hpm⟩ := order_eq hb hno
  refine ⟨_, ho, ?_⟩
  rw [List.length_map] at hpm ⊢
  have hleaf : ∀ i k, ks[i]? = some k → isLeaf (ks.map Node.name) i = k.name.isNone := by
    intro i k hk
    rw [isLeaf, name_at hk]
  have hL : pick ks ((List.range ks.length).filter (isLeaf (ks.map Node.name))) = leaves ks := by
    rw [pick_filter ks (fun k => k.name.isNone) _ _ hleaf, pick_range, leaves_eq]
  have hLr : pick ks ((List.range ks.length).filter (isLeaf (ks.map Node.name))).reverse = (leaves ks).reverse := by
    rw [← hL]
    exact List.filterMap_reverse
  have hE : pick ks ((List.range ks.length).filter fun i => !isLeaf (ks.map Node.name) i) = elems ks := by
    rw [pick_filter ks (fun k => !k.name.isNone) _ _ (fun i k hk => by rw [hleaf i k hk]), pick_range, elems_eq]
  have hms : pick ks (((List.range ks.length).filter (isLeaf (ks.map Node.name))).reverse ++ es) = (leaves ks).reverse ++ pick ks es := by
    rw [← hLr]
    exact List.filterMap_append
  have hperm : (pick ks es).Perm (elems ks) := hE ▸ hpm.filterMap _
  refine ⟨⟨pick ks es, hms, hperm⟩, ?_, ?_⟩
  · have : elems (pick ks (((List.range ks.length).filter (isLeaf (ks.map Node.name))).reverse ++ es)) = pick ks es := by
      rw [hms, elems_eq, List.filter_append]
      have a1 : (leaves ks).reverse.filter (fun k => !k.name.isNone) = [] := by
        rw [List.filter_eq_nil_iff]
        intro k hk
        rw [List.mem_reverse, leaves_eq] at hk
        simpa using (List.mem_filter.mp hk).2
      have a2 : (pick ks es).filter (fun k => !k.name.isNone) = pick ks es := by
        rw [List.filter_eq_self]
        intro k hk
        rw [hperm.mem_iff, elems_eq] at hk
        exact (List.mem_filter.mp hk).2
      rw [a1, a2, List.nil_append]
    rw [this]
    unfold pick
    rw [List.pairwise_filterMap]
    refine hpw.imp ?_
    intro i j hij x hx y hy m n hm hn
    refine before_of_less ?_
    have e1 := name_at hx
    have e2 := name_at hy
    simp only [Front, lessAt, e1, e2, hm, hn, less] at hij
    exact hij.imp id (·.1)
  · intro n
    rw [named_eq, named_eq]
    have hq : ∀ (i : Nat) (k : Node A), ks[i]? = some k → (((ks.map Node.name)[i]?).getD none == some n) = (k.name == some n) := by
      intro i k hk
      rw [name_at hk]
    rw [← pick_filter ks _ _ _ hq]
    conv => rhs; rw [← pick_range ks]
    rw [← pick_filter ks _ _ _ hq, List.filter_append]
    have a1 : ((List.range ks.length).filter (isLeaf (ks.map Node.name))).reverse.filter (fun i => ((ks.map Node.name)[i]?).getD none == some n) = [] := by
      rw [List.filter_eq_nil_iff]
      intro i hi
      rw [List.mem_reverse] at hi
      have := (List.mem_filter.mp hi).2
      simp only [isLeaf, Option.isNone_iff_eq_none] at this
      rw [this]
      simp
    rw [a1, List.nil_append]
    congr 1
    refine List.Perm.eq_of_pairwise (le := (· < ·)) (fun a b _ _ h1 h2 => absurd h1 (by omega)) ?_ (List.pairwise_lt_range.filter _) ?_
    · rw [List.pairwise_filter]
      refine hpw.imp ?_
      intro i j hij hi hj
      simp only [beq_iff_eq] at hi hj
      rcases hij with h | h
      · simp only [lessAt, hi, hj, less, lessName_irrefl, Bool.false_eq_true] at h
      · exact h.2
    · refine (hpm.filter _).trans ?_
      rw [List.filter_filter]
      refine List.Perm.of_eq (List.filter_congr fun i _ => ?_)
      cases e : ((ks.map Node.name)[i]?).getD none <;> simp only [isLeaf, e] <;> simp

/-! ## The whole tree -/

theorem movedAll_get {R : List (Node A) → List (Node A) → Prop} {ks ks' : List (Node A)} (h : MovedAll R ks ks') : ∀ i : Nat,
    (ks[i]? = none ∧ ks'[i]? = none) ∨ ∃ k k', ks[i]? = some k ∧ ks'[i]? = some k' ∧ Moved R k k' := by
  match h with
  | .nil => intro i; exact .inl ⟨rfl, rfl⟩
  | .cons h1 h2 =>
    intro i
    cases i with
    | zero => exact .inr ⟨_, _, rfl, rfl, h1⟩
    | succ i => simpa using movedAll_get h2 i

theorem movedAll_pick {R : List (Node A) → List (Node A) → Prop} {ks ks' : List (Node A)} (h : MovedAll R ks ks') (l : List Nat) :
    MovedAll R (pick ks l) (pick ks' l) := by
  induction l with
  | nil => exact .nil
  | cons i l ih =>
    unfold pick at *
    rw [List.filterMap_cons, List.filterMap_cons]
    rcases movedAll_get h i with ⟨e1, e2⟩ | ⟨k, k', e1, e2, hk⟩
    · simp only [e1, e2]; exact ih
    · simp only [e1, e2]; exact .cons hk ih

mutual
theorem visit_moved {big : (Nat → Nat → Bool) → Nat → Option (List Nat)} {R : List (Node A) → List (Node A) → Prop} {P : List (Node A) → Prop}
    (hR : ∀ ks l, P ks → order big (ks.map Node.name) = some l → R ks (pick ks l)) : ∀ (t t' : Node A), Defs P t → visit big t = some t' →
      Moved R t t'
  | .leaf a, t', _, h => by
    simp only [visit, Option.some.injEq] at h
    exact h ▸ .leaf a
  | .elem n d a ks, t', hP, h => by
    simp only [visit, Option.bind_eq_bind, Option.bind_eq_some_iff] at h
    obtain ⟨ks', hk, h⟩ := h
    have ih := visitAll_moved hR ks ks' hP.2 hk
    cases d with
    | false =>
      simp only [Bool.false_eq_true, if_false, Option.some.injEq] at h
      exact h ▸ .other n a ih
    | true =>
      simp only [if_true, Option.bind_eq_some_iff, Option.some.injEq] at h
      obtain ⟨l, hl, h⟩ := h
      exact h ▸ .defs n a (hR ks l (hP.1 rfl) hl) (movedAll_pick ih l)
theorem visitAll_moved {big : (Nat → Nat → Bool) → Nat → Option (List Nat)} {R : List (Node A) → List (Node A) → Prop} {P : List (Node A) → Prop}
    (hR : ∀ ks l, P ks → order big (ks.map Node.name) = some l → R ks (pick ks l)) : ∀ (ks ks' : List (Node A)), DefsAll P ks →
      visitAll big ks = some ks' → MovedAll R ks ks'
  | [], ks', _, h => by
    simp only [visitAll, Option.some.injEq] at h
    exact h ▸ .nil
  | k :: l, ks', hP, h => by
    simp only [visitAll, Option.bind_eq_bind, Option.bind_eq_some_iff, Option.some.injEq] at h
    obtain ⟨k', hk, l', hl, rfl⟩ := h
    exact .cons (visit_moved hR k k' hP.1 hk) (visitAll_moved hR l l' hP.2 hl)
end

mutual
theorem visit_some {big : (Nat → Nat → Bool) → Nat → Option (List Nat)} : ∀ t : Node A,
    (∃ t', visit big t = some t') ↔ Defs (fun ks => ∃ l, order big (ks.map Node.name) = some l) t
  | .leaf a => by simp [visit, Defs]
  | .elem n d a ks => by
    have ih := visitAll_some (big := big) ks
    cases d with
    | false => simp only [visit, Defs, Bool.false_eq_true, if_false, false_implies, true_and, ← ih]; cases visitAll big ks <;> simp
    | true =>
      simp only [visit, Defs, if_true, forall_const, ← ih]
      cases visitAll big ks <;> cases order big (ks.map Node.name) <;> simp
theorem visitAll_some {big : (Nat → Nat → Bool) → Nat → Option (List Nat)} : ∀ ks : List (Node A),
    (∃ ks', visitAll big ks = some ks') ↔ DefsAll (fun ks => ∃ l, order big (ks.map Node.name) = some l) ks
  | [] => by simp [visitAll, DefsAll]
  | k :: l => by
    have ih := visitAll_some (big := big) l
    have ih' := visit_some (big := big) k
    simp only [visitAll, DefsAll, ← ih, ← ih']
    cases visit big k <;> cases visitAll big l <;> simp
end

mutual
theorem defs_imp {P Q : List (Node A) → Prop} (h : ∀ ks, P ks → Q ks) : ∀ t : Node A, Defs P t → Defs Q t
  | .leaf _, _ => trivial
  | .elem _ _ _ ks, hp => ⟨fun hd => h ks (hp.1 hd), defsAll_imp h ks hp.2⟩
theorem defsAll_imp {P Q : List (Node A) → Prop} (h : ∀ ks, P ks → Q ks) : ∀ ks : List (Node A), DefsAll P ks → DefsAll Q ks
  | [], _ => trivial
  | k :: l, hp => ⟨defs_imp h k hp.1, defsAll_imp h l hp.2⟩
end

mutual
theorem defs_true : ∀ t : Node A, Defs (fun _ => True) t
  | .leaf _ => trivial
  | .elem _ _ _ ks => ⟨fun _ => trivial, defsAll_true ks⟩
theorem defsAll_true : ∀ ks : List (Node A), DefsAll (fun _ => True) ks
  | [] => trivial
  | k :: l => ⟨defs_true k, defsAll_true l⟩
end

theorem insertTail_fold_perm (xs : List Nat) : ∀ e : List Nat, (xs.foldl (fun acc x => insertTail lt x acc) e).Perm (xs ++ e) := by
  induction xs with
  | nil => intro e; exact .refl _
  | cons x xs ih => intro e; exact (ih _).trans (((insertTail_perm x e).append_left xs).trans List.perm_middle)

theorem order_perm {big : (Nat → Nat → Bool) → Nat → Option (List Nat)} (hb : Promised big) {names : List (Option Name)} {l : List Nat}
    (h : order big names = some l) : l.Perm (List.range names.length) := by
  unfold order sortBy at h
  split at h
  · simp only [Option.some.injEq] at h
    subst h
    exact (List.reverse_perm _).trans (by simpa using insertTail_fold_perm (List.range names.length) [])
  · exact (hb _ _).1 l h

/-! ## C60 -/

/-- **C60 (nothing is lost)**: unless the standard library panics, the result is the same tree but for the order of the children of `defs`
elements. -/
theorem kept {big : (Nat → Nat → Bool) → Nat → Option (List Nat)} (hb : Promised big) {on : Bool} {t t' : Node A} (h : job big on t = some t') :
    Moved (fun ks ms => ms.Perm ks) t t' := by
  unfold job at h
  cases on with
  | false =>
    simp only [Bool.false_eq_true, if_false, Option.some.injEq] at h
    subst h
    exact moved_self t
  | true =>
    refine visit_moved (P := fun _ => True) ?_ t t' (defs_true t) h
    intro ks l _ hl
    have := (order_perm hb hl).filterMap (ks[·]?)
    rw [List.length_map] at this
    exact this.trans (List.Perm.of_eq (pick_range ks))
where
  moved_self : ∀ t : Node A, Moved (fun ks ms => ms.Perm ks) t t
    | .leaf a => .leaf a
    | .elem n d a ks => by
      have := movedAll_self ks
      cases d with
      | false => exact .other n a this
      | true => exact .defs n a (.refl _) this
  movedAll_self : ∀ ks : List (Node A), MovedAll (fun ks ms => ms.Perm ks) ks ks
    | [] => .nil
    | k :: l => .cons (moved_self k) (movedAll_self l)

/-- **C60 (the order, partial)**: if every `defs` element has at most 20 child nodes, or elements only, the job succeeds, and the children of
every `defs` element are arranged: names that occur more often come first, then longer names, then names in reverse alphabetical order;
elements with the same name stay as they were; what is not an element is in front, in reverse.

Partial: with more child nodes, some of which are not elements, the comparison is not an order, for which the standard library promises
nothing. -/
theorem arranged_partial {big : (Nat → Nat → Bool) → Nat → Option (List Nat)} (hb : Promised big) {t : Node A}
    (h : Defs (fun ks => ks.length ≤ 20 ∨ ∀ k ∈ ks, IsElem k) t) : ∃ t', job big true t = some t' ∧ Moved Arranged t t' := by
  obtain ⟨t', ht⟩ := (visit_some (big := big) t).mpr (defs_imp (fun ks hk => let ⟨l, hl, _⟩ := arranged_of_order hb hk; ⟨l, hl⟩) t h)
  refine ⟨t', ht, visit_moved ?_ t t' h ht⟩
  intro ks l hk hl
  obtain ⟨l', hl', ha⟩ := arranged_of_order hb hk
  rw [hl] at hl'
  rw [Option.some.inj hl']
  exact ha

/-- **C60 (the order, lengths)**: the length that is compared is that of the name as it is written, with its prefix. -/
theorem len_written (n : Name) : n.len = (if n.pre = [] then n.loc else n.pre ++ 58 :: n.loc).length := by
  unfold Name.len
  split <;> simp
  omega

example : (⟨[115, 118, 103], [103]⟩ : Name).len = 5 := by decide

/-- **C60 (off)**. -/
theorem off (big : (Nat → Nat → Bool) → Nat → Option (List Nat)) (t : Node A) : job big false t = some t := rfl

/-! ## There is one such order -/

theorem named_mem {n : Name} {ks : List (Node A)} {k : Node A} : k ∈ named n ks ↔ k ∈ ks ∧ k.name = some n := by
  rw [named_eq, List.mem_filter, beq_iff_eq]

theorem elems_mem {ks : List (Node A)} {k : Node A} : k ∈ elems ks ↔ k ∈ ks ∧ k.name ≠ none := by
  rw [elems_eq, List.mem_filter, Bool.not_eq_eq_eq_not, Bool.not_true, Option.isNone_eq_false_iff, ← Option.ne_none_iff_isSome]

/-- Elements of which each may be in front of the other have the same name. -/
theorem before_antisymm {ks : List (Node A)} {x y : Node A} {m n : Name} (hx : x.name = some m) (hy : y.name = some n) (h : Before ks x y)
    (h' : Before ks y x) : m = n := by
  have h1 := h m n hx hy
  have h2 := h' n m hy hx
  have t1 : ∀ {x y : Str}, x < y → ¬ y < x := List.lt_asymm
  have t2 : ∀ {x y : Str}, x ≤ y → y ≤ x → x = y := List.le_antisymm
  have t3 : ∀ {x : Str}, ¬ x < x := fun {x} => List.lt_irrefl x
  have : m.pre = n.pre ∧ m.loc = n.loc := by grind
  cases m; cases n; simp_all

theorem sorted_unique {ks : List (Node A)} : ∀ {l l' : List (Node A)}, (∀ x ∈ l, x.name ≠ none) → l.Perm l' → l.Pairwise (Before ks) →
    l'.Pairwise (Before ks) → (∀ n, named n l = named n l') → l = l'
  | [], l', _, hp, _, _, _ => (List.nil_perm.mp hp).symm
  | x :: l, [], _, hp, _, _, _ => absurd hp (by simp)
  | x :: l, y :: l', hn, hp, h1, h2, hs => by
    obtain ⟨a1, a2⟩ := List.pairwise_cons.mp h1
    obtain ⟨b1, b2⟩ := List.pairwise_cons.mp h2
    have hxy : x = y := by
      obtain ⟨m, hm⟩ := Option.ne_none_iff_exists'.mp (hn x (by simp))
      obtain ⟨n, hn'⟩ := Option.ne_none_iff_exists'.mp (hn y (hp.mem_iff.mpr (by simp)))
      have hmn : m = n := by
        rcases List.mem_cons.mp (hp.mem_iff.mp (List.mem_cons_self : x ∈ x :: l)) with e | e
        · subst e; rw [hm] at hn'; exact Option.some.inj hn'
        · rcases List.mem_cons.mp (hp.mem_iff.mpr (List.mem_cons_self : y ∈ y :: l')) with e' | e'
          · subst e'; rw [hm] at hn'; exact Option.some.inj hn'
          · exact before_antisymm hm hn' (a1 y e') (b1 x e)
      subst hmn
      have := hs m
      rw [named_eq, named_eq, List.filter_cons_of_pos (by simp [hm]), List.filter_cons_of_pos (by simp [hn'])] at this
      exact (List.cons.inj this).1
    subst hxy
    congr 1
    refine sorted_unique (fun z hz => hn z (by simp [hz])) ((List.perm_cons x).mp hp) a2 b2 ?_
    intro n
    have := hs n
    rw [named_eq, named_eq, List.filter_cons, List.filter_cons] at this
    rw [named_eq, named_eq]
    split at this
    · exact (List.cons.inj this).2
    · exact this

theorem arranged_parts {ks ms : List (Node A)} (h : Arranged ks ms) : ms = (leaves ks).reverse ++ elems ms ∧ (elems ms).Perm (elems ks) := by
  obtain ⟨es, e, hp⟩ := h.es
  have : elems ms = es := by
    rw [e, elems_eq, List.filter_append]
    have a1 : (leaves ks).reverse.filter (fun k => !k.name.isNone) = [] := by
      rw [List.filter_eq_nil_iff]
      intro k hk
      rw [List.mem_reverse, leaves_eq] at hk
      simpa using (List.mem_filter.mp hk).2
    have a2 : es.filter (fun k => !k.name.isNone) = es := by
      rw [List.filter_eq_self]
      intro k hk
      rw [hp.mem_iff, elems_eq] at hk
      exact (List.mem_filter.mp hk).2
    rw [a1, a2, List.nil_append]
  rw [this]
  exact ⟨e, hp⟩

theorem named_elems (n : Name) (ks : List (Node A)) : named n (elems ks) = named n ks := by
  rw [named_eq, named_eq, elems_eq, List.filter_filter]
  refine List.filter_congr fun k _ => ?_
  cases e : k.name <;> simp

theorem arranged_unique {ks ms ms' : List (Node A)} (h : Arranged ks ms) (h' : Arranged ks ms') : ms = ms' := by
  obtain ⟨e, p⟩ := arranged_parts h
  obtain ⟨e', p'⟩ := arranged_parts h'
  rw [e, e']
  congr 1
  refine sorted_unique (fun x hx => (elems_mem.mp hx).2) (p.trans p'.symm) h.sorted h'.sorted ?_
  intro n
  rw [named_elems, named_elems, h.same, h'.same]

mutual
/-- **C60 (one result)**: there is only one tree whose `defs` elements are arranged. -/
theorem unique : ∀ {t t1 t2 : Node A}, Moved Arranged t t1 → Moved Arranged t t2 → t1 = t2
  | .leaf _, _, _, .leaf _, .leaf _ => rfl
  | .elem _ false _ _, _, _, .other _ _ h, .other _ _ h' => by rw [uniqueAll h h']
  | .elem _ true _ _, _, _, .defs n a hr h, .defs _ _ hr' h' => by
    have := arranged_unique hr hr'
    subst this
    rw [uniqueAll h h']
theorem uniqueAll : ∀ {l l1 l2 : List (Node A)}, MovedAll Arranged l l1 → MovedAll Arranged l l2 → l1 = l2
  | [], _, _, .nil, .nil => rfl
  | _ :: _, _, _, .cons h hl, .cons h' hl' => by rw [unique h h', uniqueAll hl hl']
end

/-! ## Sorting again -/

theorem moved_name {R : List (Node A) → List (Node A) → Prop} {t t' : Node A} (h : Moved R t t') : t'.name = t.name := by
  cases h <;> rfl

theorem movedAll_names {R : List (Node A) → List (Node A) → Prop} : ∀ {l l' : List (Node A)}, MovedAll R l l' → l'.map Node.name = l.map Node.name
  | _, _, .nil => rfl
  | _, _, .cons h hl => by rw [List.map_cons, List.map_cons, moved_name h, movedAll_names hl]

/-- The order of two names, given how often names occur. -/
def BeforeN (f : Name → Nat) (x y : Option Name) : Prop :=
  ∀ m n, x = some m → y = some n → f n < f m ∨ f n = f m ∧ (n.len < m.len ∨ n.len = m.len ∧ (n.pre < m.pre ∨ n.pre = m.pre ∧ n.loc ≤ m.loc))

theorem sorted_iff (ks ms : List (Node A)) : (elems ms).Pairwise (Before ks) ↔
    ((ms.map Node.name).filter fun x => !x.isNone).Pairwise (BeforeN (freq (ks.map Node.name))) := by
  rw [List.filter_map, List.pairwise_map, elems_eq]
  have : (BeforeN (freq (ks.map Node.name)) · ·) = fun x y => BeforeN (fun n => (named n ks).length) x y := by
    funext x y
    simp only [BeforeN, freq_eq]
  constructor <;> intro h <;> refine h.imp ?_
  · intro a b hab m n ha hb
    simp only [freq_eq]
    exact hab m n ha hb
  · intro a b hab m n ha hb
    have := hab m n ha hb
    simp only [freq_eq] at this
    exact this

theorem arranged_perm {ks ms : List (Node A)} (h : Arranged ks ms) : ms.Perm ks := by
  obtain ⟨e, p⟩ := arranged_parts h
  rw [e]
  refine ((List.reverse_perm _).append p).trans ?_
  rw [leaves_eq, elems_eq]
  exact List.filter_append_perm _ ks

theorem leaves_names {l l' : List (Node A)} (h : l'.map Node.name = l.map Node.name) : (leaves l').length = (leaves l).length := by
  have e : ∀ l : List (Node A), (leaves l).length = (l.map Node.name).countP Option.isNone := by
    intro l
    rw [leaves_eq, List.countP_map, List.countP_eq_length_filter]
    rfl
  rw [e, e, h]

theorem all_elems {ks : List (Node A)} (h : (leaves ks).length = 0) : elems ks = ks := by
  rw [elems_eq, List.filter_eq_self]
  intro k hk
  have : leaves ks = [] := List.length_eq_zero_iff.mp h
  rw [leaves_eq, List.filter_eq_nil_iff] at this
  have := this k hk
  cases e : k.name <;> simp [e] at this ⊢

theorem arranged_again {ks ms ks' : List (Node A)} (h : Arranged ks ms) (hm : MovedAll Arranged ms ks') (hl : (leaves ks).length ≤ 1) :
    Arranged ks' ks' := by
  obtain ⟨e, p⟩ := arranged_parts h
  have hn := movedAll_names hm
  refine ⟨⟨elems ks', ?_, .refl _⟩, ?_, fun _ => rfl⟩
  · rcases Nat.le_one_iff_eq_zero_or_eq_one.mp hl with h0 | h1
    · have hms : (leaves ms).length = 0 := by
        have := leaves_names (l := ms) (l' := ms) rfl
        rw [e, List.length_eq_zero_iff.mp h0, leaves_eq]
        simp only [List.reverse_nil, List.nil_append, List.length_eq_zero_iff, List.filter_eq_nil_iff]
        intro k hk
        have := (elems_mem.mp hk).2
        simpa using this
      have hk : (leaves ks').length = 0 := (leaves_names hn).trans hms
      rw [List.length_eq_zero_iff.mp hk, all_elems hk]
      rfl
    · obtain ⟨x, hx⟩ := List.length_eq_one_iff.mp h1
      rw [hx] at e
      simp only [List.reverse_singleton, List.singleton_append] at e
      rw [e] at hm hn
      cases hm with
      | cons h1 h2 =>
        rename_i x' l'
        have hxn : x.name = none := by
          have : x ∈ leaves ks := by rw [hx]; simp
          rw [leaves_eq] at this
          simpa using (List.mem_filter.mp this).2
        have hx' : x'.name = none := (moved_name h1).trans hxn
        have hl' : (leaves l').length = 0 := by
          rw [leaves_names (movedAll_names h2), leaves_eq]
          simp only [List.length_eq_zero_iff, List.filter_eq_nil_iff]
          intro k hk
          have := (elems_mem.mp hk).2
          simpa using this
        have e1 : leaves (x' :: l') = [x'] := by
          have : leaves l' = [] := List.length_eq_zero_iff.mp hl'
          rw [leaves_eq] at this ⊢
          rw [List.filter_cons_of_pos (by simp [hx']), this]
        have e2 : elems (x' :: l') = l' := by
          have := all_elems hl'
          rw [elems_eq] at this ⊢
          rw [List.filter_cons_of_neg (by simp [hx']), this]
        rw [e1, e2]
        rfl
  · have hs := h.sorted
    rw [sorted_iff] at hs ⊢
    rw [hn]
    have : freq (ms.map Node.name) = freq (ks.map Node.name) := by
      funext n
      rw [freq_eq, freq_eq, h.same]
    rw [this]
    exact hs

theorem defsAll_iff {P : List (Node A) → Prop} {ks : List (Node A)} : DefsAll P ks ↔ ∀ k ∈ ks, Defs P k := by
  induction ks with
  | nil => simp [DefsAll]
  | cons k l ih => simp [DefsAll, ih]

theorem movedAll_ok {ms ks' ks : List (Node A)} (h : MovedAll Arranged ms ks') (hp : ms.Perm ks) (ok : ks.length ≤ 20 ∨ ∀ k ∈ ks, IsElem k) :
    ks'.length ≤ 20 ∨ ∀ k ∈ ks', IsElem k := by
  have hn := movedAll_names h
  refine ok.imp ?_ ?_
  · intro hlen
    have := congrArg List.length hn
    simp only [List.length_map] at this
    rw [this, hp.length_eq]
    exact hlen
  · intro hk k hk'
    have : k.name ∈ ms.map Node.name := hn ▸ List.mem_map.mpr ⟨k, hk', rfl⟩
    obtain ⟨k0, hk0, e⟩ := List.mem_map.mp this
    obtain ⟨n, d, a, l, rfl⟩ := hk k0 (hp.mem_iff.mp hk0)
    cases k with
    | leaf b => simp [Node.name] at e
    | elem n d a l => exact ⟨n, d, a, l, rfl⟩

mutual
theorem moved_again : ∀ {t t' : Node A}, Moved Arranged t t' →
    Defs (fun ks => (leaves ks).length ≤ 1 ∧ (ks.length ≤ 20 ∨ ∀ k ∈ ks, IsElem k)) t →
    Moved Arranged t' t' ∧ Defs (fun ks => ks.length ≤ 20 ∨ ∀ k ∈ ks, IsElem k) t'
  | _, _, .leaf a, _ => ⟨.leaf a, trivial⟩
  | _, _, .other n a h, hd => by
    obtain ⟨r1, r2⟩ := movedAll_again h (defsAll_iff.mp hd.2)
    exact ⟨.other n a r1, fun h => absurd h (by simp), defsAll_iff.mpr r2⟩
  | _, _, .defs n a hr h, hd => by
    have hp := arranged_perm hr
    obtain ⟨r1, r2⟩ := movedAll_again h (fun k hk => defsAll_iff.mp hd.2 k (hp.mem_iff.mp hk))
    exact ⟨.defs n a (arranged_again hr h (hd.1 rfl).1) r1, fun _ => movedAll_ok h hp (hd.1 rfl).2, defsAll_iff.mpr r2⟩
theorem movedAll_again : ∀ {l l' : List (Node A)}, MovedAll Arranged l l' →
    (∀ k ∈ l, Defs (fun ks => (leaves ks).length ≤ 1 ∧ (ks.length ≤ 20 ∨ ∀ k ∈ ks, IsElem k)) k) →
    MovedAll Arranged l' l' ∧ ∀ k ∈ l', Defs (fun ks => ks.length ≤ 20 ∨ ∀ k ∈ ks, IsElem k) k
  | _, _, .nil, _ => ⟨.nil, by simp⟩
  | _, _, .cons h hl, hd => by
    obtain ⟨r1, r2⟩ := moved_again h (hd _ (by simp))
    obtain ⟨s1, s2⟩ := movedAll_again hl (fun k hk => hd k (by simp [hk]))
    refine ⟨.cons r1 s1, ?_⟩
    intro k hk
    rcases List.mem_cons.mp hk with rfl | hk
    · exact r2
    · exact s2 k hk
end

/-- **C60 (again, partial)**: running the job again changes nothing, if every `defs` element has at most one child node that is not an element
(and at most 20 child nodes if it has one).

Partial: others change places every time (`again_violated`). -/
theorem again_partial {big : (Nat → Nat → Bool) → Nat → Option (List Nat)} (hb : Promised big) {t t' : Node A} (h : job big true t = some t')
    (hd : Defs (fun ks => (leaves ks).length ≤ 1 ∧ (ks.length ≤ 20 ∨ ∀ k ∈ ks, IsElem k)) t) : job big true t' = some t' := by
  obtain ⟨t1, h1, hm⟩ := arranged_partial hb (defs_imp (fun _ h => h.2) t hd)
  rw [h] at h1
  cases h1
  obtain ⟨r1, r2⟩ := moved_again hm hd
  obtain ⟨t2, h2, hm2⟩ := arranged_partial hb r2
  rw [h2, unique r1 hm2]

/-- **C60 (predictable)**: if two `defs` elements have the same names, in whatever order, the names of their elements are in the same order
afterwards. -/
theorem predictable {ks ms ks' ms' : List (Node A)} (h : Arranged ks ms) (h' : Arranged ks' ms')
    (hp : ((elems ks).map Node.name).Perm ((elems ks').map Node.name)) : (elems ms).map Node.name = (elems ms').map Node.name := by
  obtain ⟨_, p⟩ := arranged_parts h
  obtain ⟨_, p'⟩ := arranged_parts h'
  have hlen : ∀ n, (named n ks).length = (named n ks').length := by
    intro n
    have e : ∀ l : List (Node A), (named n l).length = ((elems l).map Node.name).countP (· == some n) := by
      intro l
      rw [← named_elems, named_eq, List.countP_map, List.countP_eq_length_filter]
      rfl
    rw [e, e]
    exact hp.countP_eq _
  have hperm : ((elems ms).map Node.name).Perm ((elems ms').map Node.name) := (p.map _).trans (hp.trans (p'.map _).symm)
  have s1 : ((elems ms).map Node.name).Pairwise (BeforeN fun n => (named n ks).length) := by
    rw [List.pairwise_map]
    exact h.sorted.imp fun hab m n hm hn => hab m n hm hn
  have s2 : ((elems ms').map Node.name).Pairwise (BeforeN fun n => (named n ks).length) := by
    rw [List.pairwise_map]
    refine h'.sorted.imp fun hab m n hm hn => ?_
    simp only [hlen]
    exact hab m n hm hn
  refine List.Perm.eq_of_pairwise ?_ s1 s2 hperm
  intro a b ha hb h1 h2
  obtain ⟨x, hx, rfl⟩ := List.mem_map.mp ha
  obtain ⟨y, hy, rfl⟩ := List.mem_map.mp hb
  obtain ⟨m, hm⟩ := Option.ne_none_iff_exists'.mp (elems_mem.mp hx).2
  obtain ⟨n, hn⟩ := Option.ne_none_iff_exists'.mp (elems_mem.mp hy).2
  rw [hm, hn, before_antisymm hm hn (fun m n hm hn => h1 m n hm hn) (fun m n hm hn => h2 m n hm hn)]

/-! ## The links -/

open Verif.Dom

/-- **C60 (definitions get lost)**: if the first child of a node changes by sorting and is removed later, it is not removed, but all other
children are lost: the node has it as the first child, and it has no sibling. -/
theorem definitions_lost_violated {h : Heap} {ch : Kids} (t : Tree h ch) {p c : Handle} {s : List Handle} (hs : (c :: s).Perm (ch p))
    (hc : (ch p).head? ≠ some c) :
    ((h.sortChildren p (c :: s)).remove c).first p = some c ∧ ((h.sortChildren p (c :: s)).remove c).next c = none := by
  have nd : (c :: s).Nodup := hs.nodup_iff.mpr (t.links p).nodup
  obtain ⟨q1, q2, q3, q4, q5⟩ := relink_cells (c :: s) ((h.setFirst p (c :: s).head?).setLast p (c :: s).getLast?) none nd
  obtain ⟨a, b, e⟩ := List.append_of_mem (hs.mem_iff.mp (List.mem_cons_self : c ∈ c :: s))
  have ha : a ≠ [] := by rintro rfl; simp [e] at hc
  have hprev : (h.sortChildren p (c :: s)).prev c = a.getLast? := by
    rw [Heap.sortChildren, (q5 [] c s rfl).2]
    simp [Heap.setFirst, Heap.setLast, (t.at_split e).2.1]
  obtain ⟨y, hy⟩ := Option.ne_none_iff_exists'.mp (by simpa using ha : a.getLast? ≠ none)
  have hyc : y ≠ c := by
    rintro rfl
    have := (t.links p).nodup
    rw [e] at this
    have hm : y ∈ a := List.mem_of_getLast? hy
    grind
  constructor
  · rw [remove_first, hprev, hy]
    simp only [reduceCtorEq, false_and, if_false]
    rw [Heap.sortChildren, q2]
    simp [Heap.setFirst, Heap.setLast, upd_apply]
  · rw [remove_next, hprev, hy, if_neg (by simpa using hyc), if_pos rfl]

end Verif.SortDefs
