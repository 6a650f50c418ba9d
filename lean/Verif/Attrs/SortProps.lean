import Verif.Attrs.Props

/-!
# C08: sorting attributes is a pure reordering with a canonical result

The specification is an order on four keys of an attribute: its namespace class, the rank of the part
of its name before the first dash in the configured order (unlisted names last), its printed prefix and
its local name.
-/

set_option linter.unusedSectionVars false

namespace Verif.Attrs

open Verif.Names

variable {K V : Type} [DecidableEq K]

/-- Specification: the class of a name by its namespace URI: the `xmlns` attribute, other namespace
declarations (both only when they are to go to the front), names of other namespaces, plain names. -/
def specClass (T : Table K) (xmlnsAttr : K) (xmlnsFront : Bool) (n : AttrId K) : Nat :=
  if xmlnsFront = true ∧ n.eq (.known xmlnsAttr) = true then 0
  else if xmlnsFront = true ∧ (n.expanded T).1 = StdNs.xmlns.uri then 1
  else if (n.expanded T).1 ≠ StdNs.svg.uri then 2
  else 3

/-- The class as computed; lower classes come first. -/
def nsClass (T : Table K) (xmlnsAttr : K) (xmlnsFront : Bool) (n : AttrId K) : Nat :=
  3 - nsPriority T xmlnsAttr xmlnsFront n

/-- Specification: what stands before the first dash (45) of a name, the whole name if it has none. -/
def stem (loc : Str) : Str := loc.take (loc.findIdx (· == 45))

theorem part_eq (loc : Str) : part loc = stem loc := by
  unfold part stem
  induction loc with
  | nil => rfl
  | cons c l ih =>
    rw [List.takeWhile_cons, List.findIdx_cons]
    by_cases h : c = 45
    · simp [h]
    · have h' : (c == 45) = false := by simpa using h
      simp [h, h', ih]

/-- Specification: the rank of a local name in the configured order. -/
def rank (order : List Str) (loc : Str) : Nat := order.findIdx (· == stem loc)

/-- Specification: the lexicographic comparison of the keys. -/
def keyCmp (T : Table K) (x : K) (order : List Str) (front : Bool) : Attr K V → Attr K V → Ordering :=
  compareLex (compareOn fun a => nsClass T x front a.name) <|
  compareLex (compareOn fun a => rank order (a.loc T)) <|
  compareLex (compareOn fun a => (a.name.prefix' T).value) <|
  compareOn fun a => a.name.loc T

instance (T : Table K) (x : K) (order : List Str) (front : Bool) :
    Std.TransCmp (keyCmp T x order front : Attr K V → Attr K V → Ordering) := by
  unfold keyCmp; infer_instance

theorem nsPriority_le (T : Table K) (x : K) (front : Bool) (n : AttrId K) : nsPriority T x front n ≤ 3 := by
  unfold nsPriority
  (repeat' split) <;> omega

theorem rank_of_none {order : List Str} {loc : Str} (h : position order (part loc) = none) :
    rank order loc = order.length := by
  unfold rank
  unfold position at h
  rw [part_eq] at h
  rw [List.findIdx?_eq_none_iff] at h
  exact List.findIdx_eq_length_of_false h

theorem rank_of_some {order : List Str} {loc : Str} {i : Nat} (h : position order (part loc) = some i) :
    rank order loc = i ∧ order[i]? = some (part loc) ∧ i < order.length := by
  unfold position at h
  unfold rank
  rw [part_eq] at h ⊢
  have := List.findIdx?_eq_some_iff_findIdx_eq.1 h
  obtain ⟨pre, y, post, rfl, hi, hy, hp⟩ := findIdx_split h
  refine ⟨this.2, ?_, this.1⟩
  subst hi
  simpa using hy

theorem cmpNat_self (n : Nat) : compare n n = .eq := by simp

/-- **C08 (the comparator).** The comparator given to the sort is the lexicographic order of the keys; so
it is a total preorder and sorting cannot panic. -/
theorem cmp_eq (T : Table K) (x : K) (order : List Str) (front : Bool) (a b : Attr K V) :
    cmp T x order front a b = keyCmp T x order front a b := by
  have ha := nsPriority_le T x front a.name
  have hb := nsPriority_le T x front b.name
  simp only [cmp, keyCmp, compareLex, compareOn, nsClass, AttrId.cmp]
  by_cases h : nsPriority T x front a.name = nsPriority T x front b.name
  · rw [if_neg (by simpa using h), h, cmpNat_self, Ordering.then]
    by_cases hp : part (a.loc T) = part (b.loc T)
    · have : rank order (a.loc T) = rank order (b.loc T) := by simp [rank, ← part_eq, hp]
      rw [if_neg (by simpa using hp), this, cmpNat_self, Ordering.then]
    · rw [if_pos hp]
      cases h1 : position order (part (a.loc T)) with
      | none =>
        rw [rank_of_none h1]
        cases h2 : position order (part (b.loc T)) with
        | none => rw [rank_of_none h2, cmpNat_self, Ordering.then]
        | some j =>
          rw [(rank_of_some h2).1, Nat.compare_eq_gt.2 (rank_of_some h2).2.2]; rfl
      | some i =>
        rw [(rank_of_some h1).1]
        cases h2 : position order (part (b.loc T)) with
        | none => rw [rank_of_none h2, Nat.compare_eq_lt.2 (rank_of_some h1).2.2]; rfl
        | some j =>
          rw [(rank_of_some h2).1]
          have hne : i ≠ j := by
            rintro rfl
            have e1 := (rank_of_some h1).2.1
            rw [(rank_of_some h2).2.1] at e1
            exact hp (Option.some.inj e1).symm
          rcases Nat.lt_or_gt_of_ne hne with hl | hl
          · simp [Nat.compare_eq_lt.2 hl, Ordering.then]
          · simp [Nat.compare_eq_gt.2 hl, Ordering.then]
  · rw [if_pos h]
    rcases Nat.lt_or_gt_of_ne h with hl | hl
    · rw [Nat.compare_eq_gt.2 hl, Nat.compare_eq_gt.2 (by omega)]; rfl
    · rw [Nat.compare_eq_lt.2 hl, Nat.compare_eq_lt.2 (by omega)]; rfl

/-- **C08 (total order).** -/
theorem cmp_total_preorder (T : Table K) (x : K) (order : List Str) (front : Bool) :
    Std.TransCmp (cmp T x order front : Attr K V → Attr K V → Ordering) := by
  have : (cmp T x order front : Attr K V → Attr K V → Ordering) = keyCmp T x order front := by
    funext a b; exact cmp_eq T x order front a b
  rw [this]; infer_instance

/-- **C08 (same attributes).** Sorting keeps exactly the same attributes. -/
theorem sort_perm (T : Table K) (x : K) (order : List Str) (front : Bool) (l : List (Attr K V)) :
    (sort T x order front l).Perm l := List.mergeSort_perm _ _

theorem sort_sorted (T : Table K) (x : K) (order : List Str) (front : Bool) (l : List (Attr K V)) :
    (sort T x order front l).Pairwise (fun a b => (keyCmp T x order front a b).isLE = true) := by
  have h := @List.pairwise_mergeSort _ (fun a b => (cmp T x order front a b).isLE)
    (by simp only [cmp_eq]; intro a b c h1 h2; exact Std.TransCmp.isLE_trans h1 h2)
    (by
      intro a b
      simp only [cmp_eq, Bool.or_eq_true]
      rw [Std.OrientedCmp.eq_swap (cmp := keyCmp T x order front) (a := b)]
      cases keyCmp T x order front a b <;> simp) l
  simpa only [sort, cmp_eq] using h

theorem unaliased_std {p : Prefix} (h : p.WF) (s : StdNs) : (p.unaliased == .std s) = (p.uri == s.uri) := by
  rw [Bool.eq_iff_iff, beq_iff_eq, beq_iff_eq]
  match p, h with
  | .std t, _ =>
    simp only [Prefix.unaliased, Prefix.uri, Prefix.ns, NS.uri, Prefix.std.injEq]
    exact ⟨fun h => by rw [h], uri_injective⟩
  | .unknown _ (.unknown u), h =>
    simp only [Prefix.unaliased, Prefix.uri, Prefix.ns, NS.uri, reduceCtorEq, false_iff]
    exact fun e => h s e.symm
  | .aliased (.std t) _, _ =>
    simp only [Prefix.unaliased, Prefix.uri, Prefix.ns, NS.uri, Prefix.std.injEq]
    exact ⟨fun h => by rw [h], uri_injective⟩

/-- The computed class is the specified one. -/
theorem nsClass_eq (T : Table K) (x : K) (front : Bool) {n : AttrId K} (h : n.WF T) :
    nsClass T x front n = specClass T x front n := by
  have hw : (n.prefix' T).WF := by
    rcases id_wf_cases T h with ⟨k, u, l, m, w⟩ | ⟨p, l, u, e, m, w⟩
    · exact w
    · rw [m]; exact w
  have hx : isId n x = n.eq (.known x) := by
    unfold AttrId.eq isId
    rcases id_wf_cases T h with ⟨k, u, l, m, w⟩ | ⟨p, l, u, e, m, w⟩ <;> rw [u] <;> rfl
  unfold nsClass specClass nsPriority AttrId.expanded
  rw [unaliased_std hw, unaliased_std hw, hx]
  by_cases h1 : front = true ∧ n.eq (.known x) = true
  · simp [h1]
  · rw [if_neg (by simpa using h1), if_neg h1]
    by_cases h2 : front = true ∧ (n.prefix' T).uri = StdNs.xmlns.uri
    · simp [h2]
    · rw [if_neg (by simpa using h2), if_neg h2]
      by_cases h3 : (n.prefix' T).uri = StdNs.svg.uri <;> simp [h3]

/-- **C08 (order).** In the result an attribute is never followed by one with smaller keys. Spelled out:
classes do not decrease; within a class ranks in the configured order do not decrease; within a rank
printed prefix and local name do not decrease. -/
theorem sort_ordered (T : Table K) (x : K) (order : List Str) (front : Bool) (l : List (Attr K V))
    (hl : AllWF T l) :
    (sort T x order front l).Pairwise (fun a b =>
      let ca := specClass T x front a.name; let cb := specClass T x front b.name
      let ra := rank order (a.loc T); let rb := rank order (b.loc T)
      ca < cb ∨ (ca = cb ∧ (ra < rb ∨ (ra = rb ∧ (a.name.cmp T b.name).isLE = true)))) := by
  have hm : ∀ a ∈ sort T x order front l, a.WF T := fun a ha => hl a ((sort_perm ..).subset ha)
  refine (sort_sorted T x order front l).imp_of_mem ?_
  intro a b ha hb h
  rw [← nsClass_eq T x front (attr_name_wf T (hm a ha)).1, ← nsClass_eq T x front (attr_name_wf T (hm b hb)).1]
  simp only [keyCmp, compareLex, compareOn] at h
  simp only
  rcases Nat.lt_trichotomy (nsClass T x front a.name) (nsClass T x front b.name) with h1 | h1 | h1
  · exact .inl h1
  · rw [h1, cmpNat_self, Ordering.then] at h
    refine .inr ⟨h1, ?_⟩
    rcases Nat.lt_trichotomy (rank order (a.loc T)) (rank order (b.loc T)) with h2 | h2 | h2
    · exact .inl h2
    · rw [h2, cmpNat_self, Ordering.then] at h
      exact .inr ⟨h2, h⟩
    · rw [Nat.compare_eq_gt.2 h2] at h; simp [Ordering.then] at h
  · rw [Nat.compare_eq_gt.2 h1] at h; simp [Ordering.then] at h

/-- **C08 (idempotent).** Sorting twice is sorting once. -/
theorem sort_idempotent (T : Table K) (x : K) (order : List Str) (front : Bool) (l : List (Attr K V)) :
    sort T x order front (sort T x order front l) = sort T x order front l := by
  have : sort T x order front (sort T x order front l)
      = (sort T x order front l).mergeSort (fun a b => (cmp T x order front a b).isLE) := rfl
  rw [this]
  exact List.mergeSort_of_pairwise (by simpa only [cmp_eq] using sort_sorted T x order front l)

/-- Attributes whose printed canonical names (prefix of the name, local name) differ. -/
def PrintedDistinct (T : Table K) (l : List (Attr K V)) : Prop :=
  l.Pairwise (fun a b => ¬((a.name.prefix' T).value = (b.name.prefix' T).value ∧ a.name.loc T = b.name.loc T))

/-- Two sorted lists with the same elements are equal when no two elements compare equal. -/
theorem sorted_unique {α : Type} {c : α → α → Ordering} [Std.TransCmp c] :
    ∀ {l m : List α}, l.Perm m → l.Pairwise (fun a b => (c a b).isLE = true) →
      m.Pairwise (fun a b => (c a b).isLE = true) → l.Pairwise (fun a b => c a b ≠ .eq) → l = m := by
  intro l
  induction l with
  | nil => intro m h _ _ _; rw [List.nil_perm] at h; exact h.symm
  | cons a l ih =>
    intro m h h1 h2 h3
    cases m with
    | nil => simp at h
    | cons b m =>
      rw [List.pairwise_cons] at h1 h2 h3
      have hab : a = b := by
        have hb : b ∈ a :: l := h.symm.subset (by simp)
        have ha : a ∈ b :: m := h.subset (by simp)
        rcases List.mem_cons.1 hb with e | hb
        · exact e.symm
        rcases List.mem_cons.1 ha with e | ha
        · exact e
        have l1 := h1.1 b hb
        have l2 := h2.1 a ha
        exact absurd (Std.OrientedCmp.isLE_antisymm l1 l2) (h3.1 b hb)
      subst hab
      rw [ih (List.Perm.cons_inv h) h1.2 h2.2 h3.2]

/-- **C08 (canonical).** The result does not depend on the initial order of attributes whose names differ.
Missing: attributes of different namespaces whose canonical spellings coincide
(`sort_canonical_violated`). -/
theorem sort_canonical_partial (T : Table K) (x : K) (order : List Str) (front : Bool) (l m : List (Attr K V))
    (h : l.Perm m) (hd : PrintedDistinct T l) : sort T x order front l = sort T x order front m := by
  have hp : (sort T x order front l).Perm (sort T x order front m) :=
    (sort_perm ..).trans (h.trans (sort_perm ..).symm)
  refine sorted_unique hp (sort_sorted ..) (sort_sorted ..) ?_
  have hs : ∀ a b : Attr K V,
      ¬((a.name.prefix' T).value = (b.name.prefix' T).value ∧ a.name.loc T = b.name.loc T) →
      ¬((b.name.prefix' T).value = (a.name.prefix' T).value ∧ b.name.loc T = a.name.loc T) :=
    fun a b h g => h ⟨g.1.symm, g.2.symm⟩
  have hd' : PrintedDistinct T (sort T x order front l) :=
    (List.Perm.pairwise_iff (fun {a b} => hs a b) (sort_perm T x order front l).symm).1 hd
  refine hd'.imp ?_
  intro a b hne he
  apply hne
  simp only [keyCmp, compareLex, compareOn, Ordering.then_eq_eq] at he
  exact ⟨Std.LawfulEqCmp.eq_of_compare he.2.2.1, Std.LawfulEqCmp.eq_of_compare he.2.2.2⟩

/-- `xl:href` (XLink under the prefix `xl`) and `xlink:href` (another namespace under the prefix `xlink`). -/
def clash : List (Attr (Fin 4) Nat) :=
  [.aliased (.aliased (.std .xlink) (some (lit "xl"))) (.typed 0 1),
   .unparsed (.unknown (.unknown (some (lit "xlink")) (.unknown (lit "urn:x"))) (lit "href")) 2]

/-- **C08 violated.** Two attributes with different expanded names and different spellings whose order in
the result depends on the initial order: the alias is compared under its standard prefix. -/
theorem sort_canonical_violated : ∃ (l m : List (Attr (Fin 4) Nat)),
    l.Perm m ∧ AllWF exTable l ∧ Distinct exTable l ∧
    l.Pairwise (fun a b => (a.prefix' exTable).value ≠ (b.prefix' exTable).value) ∧
    sort exTable 3 [] true l ≠ sort exTable 3 [] true m := by
  have key : ∀ front, ∀ a ∈ clash, ∀ b ∈ clash, (cmp exTable 3 [] front a b).isLE = true := by decide +kernel
  have s1 : sort exTable 3 [] true clash = clash :=
    List.mergeSort_of_pairwise (by
      refine List.pairwise_iff_forall_sublist.2 fun {a b} h => key true a (h.subset (by simp)) b (h.subset (by simp)))
  have s2 : sort exTable 3 [] true clash.reverse = clash.reverse :=
    List.mergeSort_of_pairwise (by
      refine List.pairwise_iff_forall_sublist.2 fun {a b} h =>
        key true a (List.mem_reverse.1 (h.subset (by simp))) b (List.mem_reverse.1 (h.subset (by simp))))
  refine ⟨clash, clash.reverse, (List.reverse_perm _).symm, ?_, ?_, by decide +kernel, ?_⟩
  · intro a ha
    simp only [clash, List.mem_cons, List.not_mem_nil, or_false] at ha
    rcases ha with rfl | rfl
    · exact ⟨trivial, rfl⟩
    · intro s h
      have : ∀ s ∈ StdNs.all, s.uri ≠ lit "urn:x" := by decide +kernel
      exact this s (mem_all s) h
  · unfold Distinct clash; decide +kernel
  · rw [s1, s2]; decide +kernel

/-- The hypothesis of `sort_canonical_partial` holds for attributes spelled with standard prefixes. -/
example : PrintedDistinct exTable ([.typed 1 5, .typed 0 6, .typed 2 7] : List (Attr (Fin 4) Nat)) := by
  unfold PrintedDistinct; decide +kernel

end Verif.Attrs
