import Verif.StyleAttr.Spec

/-! # C68: style attributes into presentation attributes -/

namespace Verif.StyleAttr

variable {V L : Type}

/-- The declaration becomes an attribute: it has no vendor prefix, is known, and the property has an attribute. -/
def Taken (d : Decl V) : Prop := d.parsed = true ∧ d.vendor = false ∧ d.prop ∈ table

instance (d : Decl V) : Decidable (Taken d) := by unfold Taken; infer_instance

theorem toAttr_some {d : Decl V} (h : Taken d) : toAttr d = some (d.prop, d.value) := by
  unfold toAttr
  rw [if_pos]
  simp [h.1, h.2.1, h.2.2]

theorem toAttr_none {d : Decl V} (h : ¬ Taken d) : toAttr d = none := by
  unfold toAttr
  rw [if_neg]
  simpa [Taken, and_assoc] using h

/-- `v` is the value of the last declaration of `n` that is taken. -/
inductive LastTaken (n : String) (v : V) : List (Decl V) → Prop
  | mk (before : List (Decl V)) (d : Decl V) (after : List (Decl V)) : Taken d → d.prop = n → d.value = v →
      (∀ e ∈ after, Taken e → e.prop ≠ n) → LastTaken n v (before ++ d :: after)

/-! ## Attributes so far -/

def lookup (n : String) : List (String × V) → Option V
  | [] => none
  | a :: as => if a.1 = n then some a.2 else lookup n as

theorem lookup_insert (n : String) (new : List (String × V)) (a : String × V) :
    lookup n (insert new a) = if a.1 = n then some a.2 else lookup n new := by
  induction new with
  | nil => simp [insert, lookup]
  | cons b new ih =>
    simp only [insert]
    by_cases h : b.1 = a.1
    · rw [if_pos h]
      by_cases h' : a.1 = n
      · simp [lookup, h']
      · have : b.1 ≠ n := by rw [h]; exact h'
        simp [lookup, h', this]
    · rw [if_neg h]
      by_cases hb : b.1 = n
      · have : a.1 ≠ n := fun e => h (by rw [hb, e])
        simp [lookup, hb, this]
      · simp [lookup, hb, ih]

/-- The attributes of the list have different names. -/
def Fresh : List (String × V) → Prop
  | [] => True
  | a :: as => lookup a.1 as = none ∧ Fresh as

theorem fresh_insert {new : List (String × V)} (h : Fresh new) (a : String × V) : Fresh (insert new a) := by
  induction new with
  | nil => simp [insert, Fresh, lookup]
  | cons b new ih =>
    obtain ⟨h1, h2⟩ := h
    simp only [insert]
    by_cases hb : b.1 = a.1
    · rw [if_pos hb]; exact ⟨by rw [← hb]; exact h1, h2⟩
    · rw [if_neg hb]
      refine ⟨?_, ih h2⟩
      rw [lookup_insert, if_neg (fun e => hb e.symm)]; exact h1

theorem collect_eq (ds : List (Decl V)) (new : List (String × V)) :
    collect ds new = (ds.filter (fun d => ¬ Taken d), (ds.filterMap toAttr).foldl insert new) := by
  induction ds generalizing new with
  | nil => rfl
  | cons d ds ih =>
    simp only [collect]
    by_cases h : Taken d
    · rw [toAttr_some h]; simp [ih, h, toAttr_some h]
    · rw [toAttr_none h]; simp [ih, h, toAttr_none h]

theorem fresh_foldl {new : List (String × V)} (h : Fresh new) (as : List (String × V)) : Fresh (as.foldl insert new) := by
  induction as generalizing new with
  | nil => exact h
  | cons a as ih => exact ih (fresh_insert h a)

theorem lookup_collect (n : String) (v : V) (ds : List (Decl V)) (new : List (String × V)) :
    lookup n ((ds.filterMap toAttr).foldl insert new) = some v ↔
      LastTaken n v ds ∨ ((∀ d ∈ ds, Taken d → d.prop ≠ n) ∧ lookup n new = some v) := by
  induction ds generalizing new with
  | nil =>
    simp only [List.filterMap_nil, List.foldl_nil, List.not_mem_nil, false_implies, implies_true, true_and]
    refine ⟨.inr, fun h => h.resolve_left ?_⟩
    intro h
    generalize he : ([] : List (Decl V)) = l at h
    cases h
    simp at he
  | cons d ds ih =>
    have split : LastTaken n v (d :: ds) ↔ LastTaken n v ds ∨ (Taken d ∧ d.prop = n ∧ d.value = v ∧ ∀ e ∈ ds, Taken e → e.prop ≠ n) := by
      constructor
      · intro h
        generalize he : d :: ds = l at h
        cases h with
        | mk b x a h1 h2 h3 h4 =>
          cases b with
          | nil => simp only [List.nil_append, List.cons.injEq] at he; rw [he.1, he.2]; exact .inr ⟨h1, h2, h3, h4⟩
          | cons y b => simp only [List.cons_append, List.cons.injEq] at he; rw [he.2]; exact .inl (.mk b x a h1 h2 h3 h4)
      · rintro (h | ⟨h1, h2, h3, h4⟩)
        · cases h with
          | mk b x a h1 h2 h3 h4 => exact .mk (d :: b) x a h1 h2 h3 h4
        · exact .mk [] d ds h1 h2 h3 h4
    rw [split]
    by_cases h : Taken d
    · rw [List.filterMap_cons_some (toAttr_some h), List.foldl_cons, ih, lookup_insert]
      simp only [h, true_and, List.mem_cons, forall_eq_or_imp, true_implies]
      by_cases hn : d.prop = n
      · simp only [hn, if_true, Option.some.injEq, true_and, ne_eq, not_true_eq_false, false_and, or_false]
        exact or_congr_right ⟨fun ⟨a, b⟩ => ⟨b, a⟩, fun ⟨a, b⟩ => ⟨b, a⟩⟩
      · simp [hn]
    · rw [List.filterMap_cons_none (toAttr_none h), ih]
      simp [h]

theorem lookup_none_collect (n : String) (ds : List (Decl V)) (new : List (String × V)) :
    lookup n ((ds.filterMap toAttr).foldl insert new) = none ↔ (∀ d ∈ ds, Taken d → d.prop ≠ n) ∧ lookup n new = none := by
  induction ds generalizing new with
  | nil => simp
  | cons d ds ih =>
    by_cases h : Taken d
    · rw [List.filterMap_cons_some (toAttr_some h), List.foldl_cons, ih, lookup_insert]
      by_cases hn : d.prop = n
      · simp [hn, h]
      · simp [hn]
    · rw [List.filterMap_cons_none (toAttr_none h), ih]
      simp [h]

/-! ## Attributes of the element -/

/-- Attributes, and `style`, are there once. -/
def Distinct : List (Item V) → Prop
  | [] => True
  | .attr n _ :: as => (∀ v, .attr n v ∉ as) ∧ Distinct as
  | .style _ :: as => (∀ b, .style b ∉ as) ∧ Distinct as
  | .other _ :: as => Distinct as

theorem setAttr_style (as : List (Item V)) (a : String × V) (b : Block V) : .style b ∈ setAttr as a ↔ .style b ∈ as := by
  induction as with
  | nil => simp [setAttr]
  | cons x as ih =>
    cases x with
    | attr n v => simp only [setAttr]; split <;> simp [ih]
    | style c => simp [setAttr, ih]
    | other v => simp [setAttr, ih]

theorem setAttr_other (as : List (Item V)) (a : String × V) (v : V) : .other v ∈ setAttr as a ↔ .other v ∈ as := by
  induction as with
  | nil => simp [setAttr]
  | cons x as ih =>
    cases x with
    | attr n v => simp only [setAttr]; split <;> simp [ih]
    | style c => simp [setAttr, ih]
    | other v => simp [setAttr, ih]

theorem setAttr_attr {as : List (Item V)} (h : Distinct as) (a : String × V) (n : String) (v : V) :
    .attr n v ∈ setAttr as a ↔ if a.1 = n then v = a.2 else .attr n v ∈ as := by
  induction as with
  | nil =>
    simp only [setAttr, List.mem_singleton, Item.attr.injEq, List.not_mem_nil]
    by_cases e : a.1 = n
    · simp [e]
    · rw [if_neg e]; exact iff_of_false (fun h => e h.1.symm) id
  | cons x as ih =>
    cases x with
    | attr m w =>
      obtain ⟨h1, h2⟩ := h
      simp only [setAttr]
      by_cases e : m = a.1
      · subst e
        rw [if_pos rfl]
        by_cases e' : a.1 = n
        · subst e'
          simp only [List.mem_cons, Item.attr.injEq, true_and, if_true, h1, or_false]
        · have : n ≠ a.1 := fun e => e' e.symm
          simp [e', this]
      · rw [if_neg e]
        simp only [List.mem_cons, ih h2, Item.attr.injEq]
        by_cases e' : a.1 = n
        · have : n ≠ m := fun h => e (h ▸ e'.symm)
          simp [e', this]
        · simp [e']
    | style c => simp only [setAttr, List.mem_cons, ih h.2]; simp
    | other c => simp only [setAttr, List.mem_cons, ih h]; simp

theorem setAttr_distinct {as : List (Item V)} (h : Distinct as) (a : String × V) : Distinct (setAttr as a) := by
  induction as with
  | nil => simp [setAttr, Distinct]
  | cons x as ih =>
    cases x with
    | attr m w =>
      obtain ⟨h1, h2⟩ := h
      simp only [setAttr]
      by_cases e : m = a.1
      · rw [if_pos e]; exact ⟨by rw [← e]; exact h1, h2⟩
      · rw [if_neg e]
        refine ⟨fun v => ?_, ih h2⟩
        rw [setAttr_attr h2, if_neg (fun h => e h.symm)]
        exact h1 v
    | style c => exact ⟨fun b hb => h.1 b ((setAttr_style as a b).1 hb), ih h.2⟩
    | other c => exact ih h

theorem foldl_style (new : List (String × V)) (as : List (Item V)) (b : Block V) : .style b ∈ new.foldl setAttr as ↔ .style b ∈ as := by
  induction new generalizing as with
  | nil => rfl
  | cons a new ih => rw [List.foldl_cons, ih, setAttr_style]

theorem foldl_other (new : List (String × V)) (as : List (Item V)) (v : V) : .other v ∈ new.foldl setAttr as ↔ .other v ∈ as := by
  induction new generalizing as with
  | nil => rfl
  | cons a new ih => rw [List.foldl_cons, ih, setAttr_other]

theorem foldl_attr {new : List (String × V)} (hn : Fresh new) {as : List (Item V)} (h : Distinct as) (n : String) (v : V) :
    .attr n v ∈ new.foldl setAttr as ↔ lookup n new = some v ∨ (lookup n new = none ∧ .attr n v ∈ as) := by
  induction new generalizing as with
  | nil => simp [lookup]
  | cons a new ih =>
    rw [List.foldl_cons, ih hn.2 (setAttr_distinct h a), setAttr_attr h]
    simp only [lookup]
    by_cases e : a.1 = n
    · subst e
      simp [hn.1, eq_comm]
    · simp [e]

theorem findStyle_iff {as : List (Item V)} (h : Distinct as) (b : Block V) : findStyle as = some b ↔ .style b ∈ as := by
  induction as with
  | nil => simp [findStyle]
  | cons x as ih =>
    cases x with
    | attr m w => simp [findStyle, ih h.2]
    | style c =>
      simp only [findStyle, Option.some.injEq, List.mem_cons, Item.style.injEq]
      exact ⟨fun e => .inl e.symm, fun e => e.elim Eq.symm fun m => absurd m (h.1 b)⟩
    | other c => simpa [findStyle] using ih h

theorem putStyle_attr (b : Block V) (as : List (Item V)) (n : String) (v : V) : .attr n v ∈ putStyle b as ↔ .attr n v ∈ as := by
  induction as with
  | nil => simp [putStyle]
  | cons x as ih =>
    cases x with
    | attr m w => simp [putStyle, ih]
    | style c => simp only [putStyle]; split <;> simp
    | other c => simp [putStyle, ih]

theorem putStyle_other (b : Block V) (as : List (Item V)) (v : V) : .other v ∈ putStyle b as ↔ .other v ∈ as := by
  induction as with
  | nil => simp [putStyle]
  | cons x as ih =>
    cases x with
    | attr m w => simp [putStyle, ih]
    | style c => simp only [putStyle]; split <;> simp
    | other c => simp [putStyle, ih]

theorem putStyle_style {b c : Block V} {as : List (Item V)} (h : Distinct as) :
    .style c ∈ putStyle b as ↔ (∃ d, .style d ∈ as) ∧ c = b ∧ ¬ (b.normal = [] ∧ b.important = []) := by
  induction as with
  | nil => simp [putStyle]
  | cons x as ih =>
    cases x with
    | attr m w => simp [putStyle, ih h.2]
    | style d =>
      simp only [putStyle]
      by_cases e : (b.normal.isEmpty && b.important.isEmpty) = true
      · rw [if_pos e]
        simp only [Bool.and_eq_true, List.isEmpty_iff] at e
        refine iff_of_false (h.1 c) fun k => k.2.2 e
      · rw [if_neg e]
        simp only [Bool.and_eq_true, List.isEmpty_iff] at e
        simp only [List.mem_cons, Item.style.injEq, h.1 c, or_false, e, not_false_iff, and_true]
        exact ⟨fun h => ⟨⟨d, .inl rfl⟩, h⟩, fun h => h.2⟩
    | other v => simp only [putStyle, List.mem_cons]; rw [ih h]; simp

theorem putStyle_distinct {b : Block V} {as : List (Item V)} (h : Distinct as) : Distinct (putStyle b as) := by
  induction as with
  | nil => simp [putStyle, Distinct]
  | cons x as ih =>
    cases x with
    | attr m w => exact ⟨fun v hv => h.1 v ((putStyle_attr ..).1 hv), ih h.2⟩
    | style d =>
      simp only [putStyle]
      split
      · exact h.2
      · exact ⟨h.1, h.2⟩
    | other v => exact ih h

theorem foldl_distinct {as : List (Item V)} (h : Distinct as) (new : List (String × V)) : Distinct (new.foldl setAttr as) := by
  induction new generalizing as with
  | nil => exact h
  | cons a new ih => exact ih (setAttr_distinct h a)

/-- The declarations that may become attributes: the important ones come last. -/
def candidates (k : Bool) (b : Block V) : List (Decl V) := b.normal ++ if k then [] else b.important

/-- The declarations that stay. -/
def left (k : Bool) (b : Block V) : Block V :=
  ⟨b.normal.filter fun d => ¬ Taken d, if k then b.important else b.important.filter fun d => ¬ Taken d⟩

theorem element_eq {k : Bool} {mini : Block V → Block V} {as : List (Item V)} {b : Block V} (h : findStyle as = some b) :
    element k mini as = (((candidates k (mini b)).filterMap toAttr).foldl insert []).foldl setAttr (putStyle (left k (mini b)) as) := by
  simp only [element, h, collect_eq, candidates, left]
  cases k <;> simp [List.foldl_append]

/-! ## The claims -/

/-- **C68 (nothing to do)** An element without a `style` attribute that is understood stays as it is. -/
theorem unstyled_same {k : Bool} {mini : Block V → Block V} {as : List (Item V)} (h : ∀ b, .style b ∉ as) : element k mini as = as := by
  have : findStyle as = none := by
    induction as with
    | nil => rfl
    | cons x as ih =>
      cases x with
      | style b => exact absurd (by simp) (h b)
      | attr n v => exact ih fun b hb => h b (by simp [hb])
      | other v => exact ih fun b hb => h b (by simp [hb])
  simp [element, this]

/-- **C68 (attributes, exactly)** An attribute afterwards has the value of the last important declaration of its name that is taken, or else of the
last other one, or else is as before. -/
theorem attrs_iff {k : Bool} {mini : Block V → Block V} {as : List (Item V)} (h : Distinct as) {b : Block V} (hb : .style b ∈ as) (n : String) (v : V) :
    HasAttr (element k mini as) n v ↔ LastTaken n v (candidates k (mini b)) ∨
      ((∀ d ∈ candidates k (mini b), Taken d → d.prop ≠ n) ∧ HasAttr as n v) := by
  rw [HasAttr, element_eq ((findStyle_iff h b).2 hb), foldl_attr (fresh_foldl (by trivial) _) (putStyle_distinct h), putStyle_attr, lookup_collect,
    lookup_none_collect]
  simp [lookup, HasAttr]

/-- **C68 (declarations, exactly)** What stays of the `style` attribute is what cannot be an attribute, and important declarations if these are kept; it
is removed if nothing stays. -/
theorem style_iff {k : Bool} {mini : Block V → Block V} {as : List (Item V)} (h : Distinct as) {b : Block V} (hb : .style b ∈ as) (c : Block V) :
    .style c ∈ element k mini as ↔ c = left k (mini b) ∧ ¬ (c.normal = [] ∧ c.important = []) := by
  rw [element_eq ((findStyle_iff h b).2 hb), foldl_style, putStyle_style h]
  constructor
  · rintro ⟨_, rfl, h⟩; exact ⟨rfl, h⟩
  · rintro ⟨rfl, h⟩; exact ⟨⟨b, hb⟩, rfl, h⟩

/-- **C68 (once)** Attributes are there once afterwards, and attributes without a name of their own stay. -/
theorem distinct_kept {k : Bool} {mini : Block V → Block V} {as : List (Item V)} (h : Distinct as) :
    Distinct (element k mini as) ∧ ∀ v, .other v ∈ element k mini as ↔ .other v ∈ as := by
  cases e : findStyle as with
  | none => simp [element, e, h]
  | some b =>
    rw [element_eq e]
    refine ⟨foldl_distinct (putStyle_distinct h) _, fun v => ?_⟩
    rw [foldl_other, putStyle_other]

mutual
/-- The same document, but for attributes. -/
def Node.bare : Node V L → Node Unit L
  | .leaf l => .leaf l
  | .elem n _ ks => .elem n [] (bareAll ks)
def bareAll : List (Node V L) → List (Node Unit L)
  | [] => []
  | n :: ns => n.bare :: bareAll ns
end

mutual
/-- **C68 (else)** Elements, their order and all that is not an element stay. -/
theorem outline_kept (k : Bool) (mini : Block V → Block V) : ∀ n : Node V L, (run k mini n).bare = n.bare
  | .leaf l => by simp [run, Node.bare]
  | .elem n as ks => by simp [run, Node.bare, outlines_kept k mini ks]
theorem outlines_kept (k : Bool) (mini : Block V → Block V) : ∀ ns : List (Node V L), bareAll (runAll k mini ns) = bareAll ns
  | [] => by simp [runAll, bareAll]
  | n :: ns => by simp [runAll, bareAll, outline_kept k mini n, outlines_kept k mini ns]
end

mutual
/-- All elements, in the order of the document, with their attributes. -/
def Node.elements : Node V L → List (String × List (Item V))
  | .leaf _ => []
  | .elem n as ks => (n, as) :: elementsAll ks
def elementsAll : List (Node V L) → List (String × List (Item V))
  | [] => []
  | n :: ns => n.elements ++ elementsAll ns
end

mutual
/-- **C68 (every element)** What is said here about one element happens to every element of the document. -/
theorem everywhere (k : Bool) (mini : Block V → Block V) : ∀ n : Node V L, (run k mini n).elements = n.elements.map fun e => (e.1, element k mini e.2)
  | .leaf l => by simp [run, Node.elements]
  | .elem n as ks => by simp [run, Node.elements, everywhereAll k mini ks]
theorem everywhereAll (k : Bool) (mini : Block V → Block V) : ∀ ns : List (Node V L),
    elementsAll (runAll k mini ns) = (elementsAll ns).map fun e => (e.1, element k mini e.2)
  | [] => by simp [runAll, elementsAll]
  | n :: ns => by simp [runAll, elementsAll, everywhere k mini n, everywhereAll k mini ns]
end

/-- **C68 (which properties)** All properties that become attributes are presentation attributes, but for two shorthands; these presentation attributes
stay declarations. -/
theorem table_presents : (∀ n ∈ table, n ∈ presentation ∨ n = "font" ∨ n = "marker") ∧ presentation.filter (fun n => !table.contains n) =
    ["alignment-baseline", "baseline-shift", "clip", "direction", "dominant-baseline", "enable-background", "flood-color", "flood-opacity",
      "font-size-adjust", "font-variant", "glyph-orientation-horizontal", "glyph-orientation-vertical", "lighting-color", "mask-type", "paint-order",
      "pointer-events", "stop-color", "stop-opacity", "text-anchor", "text-overflow", "vector-effect", "white-space", "writing-mode"] := by
  refine ⟨?_, by decide +kernel⟩
  have : ∀ n ∈ table, (presentation.contains n || n == "font" || n == "marker") = true := by decide +kernel
  intro n hn
  simpa [or_assoc] using this n hn

/-! ## Values -/

/-- No declaration of the list sets the property. -/
def Silent (p : String) (ds : List (Decl V)) : Prop := ∀ d ∈ ds, d.vendor = false → p ∉ sets d.prop

theorem gives_none {part : String → String → V → V} {p : String} {ds : List (Decl V)} : Gives part p ds none ↔ Silent p ds :=
  ⟨fun h => by cases h; assumption, .nothing ds⟩

theorem gives_some {part : String → String → V → V} {p : String} {ds : List (Decl V)} {v : V} : Gives part p ds (some v) ↔
    ∃ b d a, ds = b ++ d :: a ∧ d.vendor = false ∧ p ∈ sets d.prop ∧ Silent p a ∧ v = part d.prop p d.value := by
  constructor
  · intro h
    generalize he : some v = o at h
    cases h with
    | last b d a h1 h2 h3 => exact ⟨b, d, a, rfl, h1, h2, h3, by simpa using he⟩
    | nothing => cases he
  · rintro ⟨b, d, a, rfl, h1, h2, h3, rfl⟩
    exact .last b d a h1 h2 h3

theorem gives_total (part : String → String → V → V) (p : String) (ds : List (Decl V)) : ∃ o, Gives part p ds o := by
  induction ds with
  | nil => exact ⟨none, .nothing [] (by simp)⟩
  | cons d ds ih =>
    obtain ⟨o, h⟩ := ih
    cases o with
    | some v =>
      obtain ⟨b, e, a, rfl, h1, h2, h3, rfl⟩ := gives_some.1 h
      exact ⟨_, .last (d :: b) e a h1 h2 h3⟩
    | none =>
      by_cases hd : d.vendor = false ∧ p ∈ sets d.prop
      · exact ⟨_, .last [] d ds hd.1 hd.2 (gives_none.1 h)⟩
      · refine ⟨none, .nothing _ ?_⟩
        intro e he hv hs
        rcases List.mem_cons.1 he with rfl | he
        · exact hd ⟨hv, hs⟩
        · exact gives_none.1 h e he hv hs

theorem silent_unique {part : String → String → V → V} {p : String} {ds : List (Decl V)} {v : V} (h : Silent p ds) : ¬ Gives part p ds (some v) := by
  intro g
  obtain ⟨b, d, a, rfl, h1, h2, _⟩ := gives_some.1 g
  exact h d (by simp) h1 h2

theorem gives_filter {part : String → String → V → V} {p : String} {ds : List (Decl V)} (h : ∀ d ∈ ds, Taken d → p ∉ sets d.prop) (o : Option V) :
    Gives part p (ds.filter fun d => ¬ Taken d) o ↔ Gives part p ds o := by
  have silent : Silent p (ds.filter fun d => ¬ Taken d) ↔ Silent p ds := by
    constructor
    · intro k d hd hv hs
      by_cases ht : Taken d
      · exact h d hd ht hs
      · exact k d (by simp [hd, ht]) hv hs
    · intro k d hd
      exact k d (List.mem_filter.1 hd).1
  cases o with
  | none => rw [gives_none, gives_none, silent]
  | some v =>
    have main : ∀ {o}, Gives part p ds o → Gives part p (ds.filter fun d => ¬ Taken d) o := by
      intro o g
      cases g with
      | last b d a h1 h2 h3 =>
        have hd : ¬ Taken d := fun ht => h d (by simp) ht h2
        simp only [List.filter_append, List.filter_cons, hd, not_false_iff, decide_true, if_true]
        exact .last _ d _ h1 h2 fun e he => h3 e (List.mem_filter.1 he).1
      | nothing ds k => exact .nothing _ fun e he => k e (List.mem_filter.1 he).1
    refine ⟨fun g => ?_, main⟩
    obtain ⟨o, g'⟩ := gives_total part p ds
    cases o with
    | none => exact absurd g (silent_unique (silent.2 (gives_none.1 g')))
    | some w =>
      have g'' := main g'
      obtain ⟨b, d, a, e, h1, h2, h3, rfl⟩ := gives_some.1 g
      obtain ⟨b', d', a', e', h1', h2', h3', rfl⟩ := gives_some.1 g''
      -- the last one that sets the property is one
      have : d = d' := by
        rw [e] at e'
        rcases List.append_eq_append_iff.1 e' with ⟨z, hz, hz'⟩ | ⟨z, hz, hz'⟩
        · cases z with
          | nil => simp only [List.nil_append, List.cons.injEq] at hz'; exact hz'.1
          | cons x z =>
            simp only [List.cons_append, List.cons.injEq] at hz'
            exact absurd h2' (h3 d' (by simp [hz'.2]) h1')
        · cases z with
          | nil => simp only [List.nil_append, List.cons.injEq] at hz'; exact hz'.1.symm
          | cons x z =>
            simp only [List.cons_append, List.cons.injEq] at hz'
            exact absurd h2 (h3' d (by simp [hz'.2]) h1)
      rw [this]; exact g'

/-- What the minifier has to do right: the same value is given for the property, before and after. -/
def MiniRight (part : String → String → V → V) (p : String) (mini : Block V → Block V) : Prop :=
  ∀ b o, (Gives part p (mini b).normal o ↔ Gives part p b.normal o) ∧ (Gives part p (mini b).important o ↔ Gives part p b.important o)

theorem styled_iff {as : List (Item V)} (h : Distinct as) {b : Block V} (hb : .style b ∈ as) (c : Block V) : Styled as c ↔ c = b := by
  constructor
  · rintro (hc | ⟨hc, _⟩)
    · have := (findStyle_iff h c).2 hc
      rw [(findStyle_iff h b).2 hb] at this
      simpa using this.symm
    · exact absurd hb (hc b)
  · rintro rfl; exact .inl hb

theorem styled_after {k : Bool} {mini : Block V → Block V} {as : List (Item V)} (h : Distinct as) {b : Block V} (hb : .style b ∈ as) (c : Block V) :
    Styled (element k mini as) c ↔ c = left k (mini b) := by
  by_cases e : (left k (mini b)).normal = [] ∧ (left k (mini b)).important = []
  · have e' : left k (mini b) = ⟨[], []⟩ := by
      cases hl : left k (mini b)
      rw [hl] at e
      simp only at e
      rw [e.1, e.2]
    have none : ∀ c, .style c ∉ element k mini as := fun c hc => by
      obtain ⟨rfl, hn⟩ := (style_iff h hb c).1 hc
      exact hn e
    constructor
    · rintro (hc | ⟨_, rfl⟩)
      · exact absurd hc (none c)
      · exact e'.symm
    · rintro rfl
      exact .inr ⟨none, e'⟩
  · have hs := (style_iff (k := k) (mini := mini) h hb _).2 ⟨rfl, e⟩
    exact styled_iff (distinct_kept h).1 hs c

/-- The value that wins, for one block of declarations. -/
theorem wins_iff {S : Sheets V} {part : String → String → V → V} {svg : Bool} {el : String} {as : List (Item V)} {p : String} {b : Block V}
    (hb : ∀ c, Styled as c ↔ c = b) (o : Option V) : Wins S part svg el as p o ↔
      (∃ v, o = some v ∧ Gives part p b.important (some v)) ∨ (Silent p b.important ∧ (∃ v, o = some v ∧ S.important as p = some v)) ∨
      (Silent p b.important ∧ S.important as p = none ∧ ∃ v, o = some v ∧ Gives part p b.normal (some v)) ∨
      (Silent p b.important ∧ S.important as p = none ∧ Silent p b.normal ∧ ∃ v, o = some v ∧ S.normal as p = some v) ∨
      (Silent p b.important ∧ S.important as p = none ∧ Silent p b.normal ∧ S.normal as p = none ∧
        ∃ v, o = some v ∧ Presents svg el p ∧ HasAttr as p v) ∨
      (Silent p b.important ∧ S.important as p = none ∧ Silent p b.normal ∧ S.normal as p = none ∧ o = none ∧
        ∀ v, Presents svg el p → ¬ HasAttr as p v) := by
  constructor
  · intro h
    cases h with
    | important hs h => rw [(hb _).1 hs] at h; exact .inl ⟨_, rfl, h⟩
    | importantSheet hs h1 h2 => rw [(hb _).1 hs, gives_none] at h1; exact .inr (.inl ⟨h1, _, rfl, h2⟩)
    | style hs h1 h2 h3 => rw [(hb _).1 hs] at h1 h3; exact .inr (.inr (.inl ⟨gives_none.1 h1, h2, _, rfl, h3⟩))
    | sheet hs h1 h2 h3 h4 =>
      rw [(hb _).1 hs] at h1 h3; exact .inr (.inr (.inr (.inl ⟨gives_none.1 h1, h2, gives_none.1 h3, _, rfl, h4⟩)))
    | attr hs h1 h2 h3 h4 h5 h6 =>
      rw [(hb _).1 hs] at h1 h3; exact .inr (.inr (.inr (.inr (.inl ⟨gives_none.1 h1, h2, gives_none.1 h3, h4, _, rfl, h5, h6⟩))))
    | nothing hs h1 h2 h3 h4 h5 =>
      rw [(hb _).1 hs] at h1 h3; exact .inr (.inr (.inr (.inr (.inr ⟨gives_none.1 h1, h2, gives_none.1 h3, h4, rfl, h5⟩))))
  · have s := (hb b).2 rfl
    rintro (⟨v, rfl, h⟩ | ⟨h1, v, rfl, h2⟩ | ⟨h1, h2, v, rfl, h3⟩ | ⟨h1, h2, h3, v, rfl, h4⟩ | ⟨h1, h2, h3, h4, v, rfl, h5, h6⟩ | ⟨h1, h2, h3, h4, rfl, h5⟩)
    · exact .important s h
    · exact .importantSheet s (gives_none.2 h1) h2
    · exact .style s (gives_none.2 h1) h2 h3
    · exact .sheet s (gives_none.2 h1) h2 (gives_none.2 h3) h4
    · exact .attr s (gives_none.2 h1) h2 (gives_none.2 h3) h4 h5 h6
    · exact .nothing s (gives_none.2 h1) h2 (gives_none.2 h3) h4 h5

/-- **C68 (values that are not touched)** A property that no declaration sets that becomes an attribute keeps its value, if style sheets say the same about
it: in every document, for every element. -/
theorem untouched_kept {S : Sheets V} {part : String → String → V → V} {svg : Bool} {el : String} {k : Bool} {mini : Block V → Block V}
    {as : List (Item V)} {p : String} (hm : MiniRight part p mini) (h : Distinct as)
    (hn : S.normal (element k mini as) p = S.normal as p) (hi : S.important (element k mini as) p = S.important as p)
    (hp : ∀ b, .style b ∈ as → ∀ d ∈ candidates k (mini b), Taken d → p ∉ sets d.prop ∧ d.prop ≠ p) (o : Option V) :
    Wins S part svg el (element k mini as) p o ↔ Wins S part svg el as p o := by
  by_cases hb : ∃ b, .style b ∈ as
  · obtain ⟨b, hb⟩ := hb
    have hp := hp b hb
    rw [wins_iff (styled_after h hb), wins_iff (styled_iff h hb)]
    have gn : ∀ o, Gives part p (left k (mini b)).normal o ↔ Gives part p b.normal o := fun o => by
      rw [← (hm b o).1]
      exact gives_filter (fun d hd ht => (hp d (by simp [candidates, hd]) ht).1) o
    have gi : ∀ o, Gives part p (left k (mini b)).important o ↔ Gives part p b.important o := fun o => by
      rw [← (hm b o).2]
      cases k with
      | true => exact Iff.rfl
      | false => exact gives_filter (fun d hd ht => (hp d (by simp [candidates, hd]) ht).1) o
    have ha : ∀ v, HasAttr (element k mini as) p v ↔ HasAttr as p v := fun v => by
      rw [attrs_iff h hb]
      constructor
      · rintro (hl | hl)
        · generalize hc : candidates k (mini b) = l at hl
          cases hl with
          | mk bf d af h1 h2 => exact absurd h2 (hp d (by rw [hc]; simp) h1).2
        · exact hl.2
      · intro hv; exact .inr ⟨fun d hd ht => (hp d hd ht).2, hv⟩
    rw [hn, hi]
    simp only [← gives_none (part := part), gn, gi, ha]
  · rw [unstyled_same fun b hb' => hb ⟨b, hb'⟩]

theorem sets_self {n : String} (h1 : n ≠ "font") (h2 : n ≠ "marker") : sets n = [n] := by simp [sets, h1, h2]

/-- **C68 (values)** A presentation attribute of an SVG element, about which style sheets say nothing, keeps its value if every declaration that sets
the property becomes an attribute, and is no shorthand. Missing: properties that style sheets set, shorthands, elements not of SVG, declarations that stay. -/
theorem values_kept_partial {S : Sheets V} {part : String → String → V → V} (hpart : ∀ p v, part p p v = v) {el : String} {k : Bool}
    {mini : Block V → Block V} {as : List (Item V)} {p : String} (hm : MiniRight part p mini) (h : Distinct as)
    (hsn : S.normal as p = none ∧ S.normal (element k mini as) p = none) (hsi : S.important as p = none ∧ S.important (element k mini as) p = none)
    (hpr : Presents true el p) (hs : ∀ b, .style b ∈ as → ∀ d ∈ (mini b).normal ++ (mini b).important, d.vendor = false → p ∈ sets d.prop →
      d.prop = p ∧ Taken d) (hk : k = true → ∀ b, .style b ∈ as → Silent p (mini b).important) (o : Option V) :
    Wins S part true el (element k mini as) p o ↔ Wins S part true el as p o := by
  by_cases hb : ∃ b, .style b ∈ as
  · obtain ⟨b, hb⟩ := hb
    have hs := hs b hb
    have hpn : p ≠ "font" ∧ p ≠ "marker" := by
      constructor
      · rintro rfl; exact absurd hpr.2.1 (by decide +kernel)
      · rintro rfl; exact absurd hpr.2.1 (by decide +kernel)
    have hself : sets p = [p] := sets_self hpn.1 hpn.2
    rw [wins_iff (styled_after h hb), wins_iff (styled_iff h hb), hsn.1, hsn.2, hsi.1, hsi.2]
    have sn : Silent p (left k (mini b)).normal := by
      intro d hd hv hps
      simp only [left, List.mem_filter, decide_eq_true_eq] at hd
      exact hd.2 (hs d (by simp [hd.1]) hv hps).2
    have si : Silent p (left k (mini b)).important := by
      cases hkk : k with
      | true => exact hk hkk b hb
      | false =>
        intro d hd hv hps
        simp only [left, Bool.false_eq_true, if_false, List.mem_filter, decide_eq_true_eq] at hd
        exact hd.2 (hs d (by simp [hd.1]) hv hps).2
    have ni : ∀ {v}, ¬ Gives part p (left k (mini b)).important (some v) := silent_unique si
    have nn : ∀ {v}, ¬ Gives part p (left k (mini b)).normal (some v) := silent_unique sn
    have gn := fun o => (hm b o).1
    have gi := fun o => (hm b o).2
    simp only [← gives_none (part := part), ← gn, ← gi]
    simp only [gives_none, si, sn, ni, nn, hpr, true_and, and_false, exists_false, false_or, reduceCtorEq]
    -- a declaration of the property is taken, and the other way around
    have lastI : ∀ {ds : List (Decl V)} {v}, (∀ d ∈ ds, d ∈ (mini b).normal ++ (mini b).important) →
        (Gives part p ds (some v) ↔ LastTaken p v ds) := by
      intro ds v hds
      rw [gives_some]
      constructor
      · rintro ⟨bf, d, af, rfl, h1, h2, h3, rfl⟩
        obtain ⟨e, ht⟩ := hs d (hds d (by simp)) h1 h2
        refine .mk bf d af ht e (by rw [e, hpart]) fun x hx htx hxp => h3 x hx htx.2.1 (by rw [hxp, hself]; simp)
      · rintro ⟨bf, d, af, ht, rfl, rfl, h3⟩
        refine ⟨bf, d, af, rfl, ht.2.1, by rw [hself]; simp, fun x hx hv hxp => ?_, by rw [hpart]⟩
        obtain ⟨e, htx⟩ := hs x (hds x (by simp [hx])) hv hxp
        exact h3 x hx htx e
    have silentI : ∀ {ds : List (Decl V)}, (∀ d ∈ ds, d ∈ (mini b).normal ++ (mini b).important) →
        (Silent p ds ↔ ∀ d ∈ ds, Taken d → d.prop ≠ p) := by
      intro ds hds
      constructor
      · intro hsl d hd ht e
        exact hsl d hd ht.2.1 (by rw [e, hself]; simp)
      · intro hsl d hd hv hps
        obtain ⟨e, ht⟩ := hs d (hds d hd) hv hps
        exact hsl d hd ht e
    have lastC : ∀ v, LastTaken p v (candidates k (mini b)) ↔
        Gives part p (mini b).important (some v) ∨ (Silent p (mini b).important ∧ Gives part p (mini b).normal (some v)) := by
      intro v
      have hN : Gives part p (mini b).normal (some v) ↔ LastTaken p v (mini b).normal := lastI (by intro d hd; simp [hd])
      have hI : Gives part p (mini b).important (some v) ↔ LastTaken p v (mini b).important := lastI (by intro d hd; simp [hd])
      have hS : Silent p (mini b).important ↔ ∀ d ∈ (mini b).important, Taken d → d.prop ≠ p := silentI (by intro d hd; simp [hd])
      cases hkk : k with
      | true =>
        have hq := hk hkk b hb
        simp only [candidates, if_true, List.append_nil, ← hN, hq, true_and, silent_unique hq, false_or]
      | false =>
        simp only [candidates, Bool.false_eq_true, if_false]
        rw [hN, hI, hS]
        constructor
        · intro hl
          generalize hc : (mini b).normal ++ (mini b).important = l at hl
          cases hl with
          | mk bf d af h1 h2 h3 h4 =>
            rcases List.append_eq_append_iff.1 hc with ⟨z, hz, hz'⟩ | ⟨z, hz, hz'⟩
            · left; rw [hz']; exact .mk z d af h1 h2 h3 h4
            · cases z with
              | nil => left; simp only [List.nil_append] at hz'; rw [← hz']; exact .mk [] d af h1 h2 h3 h4
              | cons x z =>
                simp only [List.cons_append, List.cons.injEq] at hz'
                right
                refine ⟨fun e he => h4 e (by simp [hz'.2, he]), ?_⟩
                rw [hz, ← hz'.1]
                exact .mk bf d z h1 h2 h3 fun e he => h4 e (by simp [hz'.2, he])
        · rintro (hl | ⟨hq, hl⟩)
          · generalize (mini b).important = l at hl
            obtain ⟨bf, d, af, h1, h2, h3, h4⟩ := hl
            rw [← List.append_assoc]; exact .mk _ d af h1 h2 h3 h4
          · generalize (mini b).normal = l at hl
            obtain ⟨bf, d, af, h1, h2, h3, h4⟩ := hl
            rw [List.append_assoc, List.cons_append]
            refine .mk bf d _ h1 h2 h3 fun e he => ?_
            rcases List.mem_append.1 he with he | he
            · exact h4 e he
            · exact hq e he
    have noneC : (∀ d ∈ candidates k (mini b), Taken d → d.prop ≠ p) ↔ Silent p (mini b).important ∧ Silent p (mini b).normal := by
      have hN : Silent p (mini b).normal ↔ ∀ d ∈ (mini b).normal, Taken d → d.prop ≠ p := silentI (by intro d hd; simp [hd])
      have hS : Silent p (mini b).important ↔ ∀ d ∈ (mini b).important, Taken d → d.prop ≠ p := silentI (by intro d hd; simp [hd])
      cases hkk : k with
      | true =>
        have hq := hk hkk b hb
        simp only [candidates, if_true, List.append_nil, hq, true_and, hN]
      | false =>
        simp only [candidates, Bool.false_eq_true, if_false, List.mem_append, hN, hS]
        exact ⟨fun h => ⟨fun d hd => h d (.inr hd), fun d hd => h d (.inl hd)⟩, fun h d hd => hd.elim (h.2 d) (h.1 d)⟩
    have ha : ∀ v, HasAttr (element k mini as) p v ↔ Gives part p (mini b).important (some v) ∨
        (Silent p (mini b).important ∧ Gives part p (mini b).normal (some v)) ∨
        (Silent p (mini b).important ∧ Silent p (mini b).normal ∧ HasAttr as p v) := by
      intro v
      rw [attrs_iff h hb, lastC, noneC, or_assoc, and_assoc]
    cases o with
    | some v =>
      simp only [Option.some.injEq, reduceCtorEq, false_and, and_false, or_false]
      constructor
      · rintro ⟨w, rfl, hw⟩
        rcases (ha v).1 hw with hw | hw | hw
        · exact .inl ⟨v, rfl, hw⟩
        · exact .inr (.inl ⟨hw.1, v, rfl, hw.2⟩)
        · exact .inr (.inr ⟨hw.1, hw.2.1, v, rfl, hw.2.2⟩)
      · rintro (⟨w, rfl, hw⟩ | ⟨h1, w, rfl, hw⟩ | ⟨h1, h2, w, rfl, hw⟩)
        · exact ⟨v, rfl, (ha v).2 (.inl hw)⟩
        · exact ⟨v, rfl, (ha v).2 (.inr (.inl ⟨h1, hw⟩))⟩
        · exact ⟨v, rfl, (ha v).2 (.inr (.inr ⟨h1, h2, hw⟩))⟩
    | none =>
      simp only [reduceCtorEq, false_and, and_false, exists_false, false_or, true_and, true_implies]
      constructor
      · intro hno
        have h1 : Silent p (mini b).important := by
          obtain ⟨o, g⟩ := gives_total part p (mini b).important
          cases o with
          | none => exact gives_none.1 g
          | some v => exact absurd ((ha v).2 (.inl g)) (hno v)
        have h2 : Silent p (mini b).normal := by
          obtain ⟨o, g⟩ := gives_total part p (mini b).normal
          cases o with
          | none => exact gives_none.1 g
          | some v => exact absurd ((ha v).2 (.inr (.inl ⟨h1, g⟩))) (hno v)
        exact ⟨h1, h2, fun v hv => hno v ((ha v).2 (.inr (.inr ⟨h1, h2, hv⟩)))⟩
      · rintro ⟨h1, h2, h3⟩ v hv
        rcases (ha v).1 hv with hv | hv | hv
        · exact silent_unique h1 hv
        · exact silent_unique h2 hv.2
        · exact h3 v hv.2.2
  · rw [unstyled_same fun b hb' => hb ⟨b, hb'⟩]

end Verif.StyleAttr
