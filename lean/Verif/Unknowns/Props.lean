import Verif.Unknowns.Styles

/-!
# C53: removing what is unknown and what is said anyway does not change how a document looks
-/

namespace Verif.Unknowns

open Verif.Tree Verif.Names
open Verif.Cascade (Block Rule Level Computed Mode)

variable {Sel C : Type}

/-- An item before and after: elements are related by `P`, with their ancestors; other nodes are the same, but for
processing instructions, which `clean` changes. -/
def Pairs (P : List E → List E → Prop) (clean : Str → Str) : Item → Item → Prop
  | .elem c, .elem c' => P c c'
  | .leaf a (.pi t d), .leaf a' n' => a.map (·.1) = a'.map (·.1) ∧ n' = .pi t (d.map clean)
  | .leaf a n, .leaf a' n' => a.map (·.1) = a'.map (·.1) ∧ n' = n
  | _, _ => False

/-- What is done to processing instructions. -/
def cleaner (r : Run Sel C) : Str → Str := if r.options.markup then r.standalone else id

theorem Same.pairs {r : Run Sel C} {P : List E → List E → Prop} {x y : Item} (h : Same r x y)
    (hP : ∀ c c', x = .elem c → y = .elem c' → Rel r c c' → P c c') : Pairs P (cleaner r) x y := by
  unfold Same at h
  split at h
  · exact hP _ _ rfl rfl h
  · next a n a' n' =>
    obtain ⟨h1, rfl⟩ := h
    cases n with
    | pi t d =>
      refine ⟨h1.names, ?_⟩
      simp only [cleaned, cleaner]
      split
      · rfl
      · simp
    | elem => exact ⟨h1.names, rfl⟩
    | text => exact ⟨h1.names, rfl⟩
    | css => exact ⟨h1.names, rfl⟩
    | comment => exact ⟨h1.names, rfl⟩
  · exact h.elim

theorem job_same (r : Run Sel C) (doc doc' : List (Node Attr)) (h : job r doc = some doc') :
    List.Forall₂ (Same r) (proper r.options.unknownContent doc) (content doc') :=
  visitAll_items r false [] [] .nil rfl doc doc' h

theorem forall₂_mem {A B : Type} {R S : A → B → Prop} {l : List A} {m : List B} (h : List.Forall₂ R l m)
    (hs : ∀ a ∈ l, ∀ b, R a b → S a b) : List.Forall₂ S l m := by
  induction h with
  | nil => exact .nil
  | cons h _ ih => exact .cons (hs _ (by simp) _ h) (ih fun a ha => hs a (by simp [ha]))

theorem proper_content (on : Bool) (doc : List (Node Attr)) (x : Item) (h : x ∈ proper on doc) : x ∈ content doc :=
  itemsAll_chain _ _ _ _ (by simp) doc x h

/-- Names are the same, and attributes are only left out. -/
def Fewer (c c' : List E) : Prop := List.Forall₂ (fun e e' => e'.1 = e.1 ∧ e'.2.Sublist e.2) c c'

theorem Rel.fewer {r : Run Sel C} {c c' : List E} (h : Rel r c c') : Fewer c c' := by
  induction h with
  | nil => exact .nil
  | same e _ _ ih => exact .cons ⟨rfl, List.Sublist.refl _⟩ ih
  | cut n as _ _ inh _ ih => exact .cons ⟨rfl, List.filter_sublist⟩ ih

/-- **C53 (only stray elements and attributes go).** If the job succeeds, the document has the elements and other nodes it had, in
the same places and with the same names, but for stray elements with what is in them, if these are to be removed.
Elements have the attributes they had, in the same order, or fewer. Other nodes are the same, but for processing instructions. -/
theorem outline_kept (r : Run Sel C) (doc doc' : List (Node Attr)) (h : job r doc = some doc') :
    List.Forall₂ (Pairs Fewer (cleaner r)) (proper r.options.unknownContent doc) (content doc') :=
  (job_same r doc doc' h).imp fun _ _ hs => hs.pairs fun _ _ _ _ hr => hr.fewer

/-! ## Nothing is stray in a document of SVG 2 -/

/-- SVG 2 allows no more than is accepted, but for text in links. -/
theorem contentModel_accepted : ∀ y ∈ El.all, ∀ x ∈ contentModel y,
    (y = .A ∧ (x = .TSpan ∨ x = .TextPath)) ∨ permitsChild (some y) (some x) = true := by
  decide +kernel

theorem all_elements (e : El) : e ∈ El.all := by
  cases e <;> decide +kernel

mutual
theorem items_congr (d d' : Bool → List E → EName → Bool) (f : Bool) (a : List E) : ∀ n : Node Attr,
    (∀ f' e cs, .elem (e :: cs) ∈ items d' f a n → d f' cs e.1 = d' f' cs e.1) → (∀ f a n, d' f a n = false) →
    items d f a n = items d' f a n
  | .elem n as ks, h, hn => by
    have h1 : items d' f a (.elem n as ks) =
        .elem ((n, as) :: a) :: itemsAll d' (f || n.is "foreignObject") ((n, as) :: a) ks := by
      simp only [items, hn, Bool.false_eq_true, if_false]
    rw [h1] at h ⊢
    have h0 : d f a n = false := by rw [h f (n, as) a (by simp), hn]
    rw [items]
    simp only [h0, Bool.false_eq_true, if_false]
    rw [itemsAll_congr d d' _ _ ks (fun f' e cs hm => h f' e cs (by simp [hm])) hn]
  | .text _, _, _ => rfl
  | .css _, _, _ => rfl
  | .comment _, _, _ => rfl
  | .pi _ _, _, _ => rfl
theorem itemsAll_congr (d d' : Bool → List E → EName → Bool) (f : Bool) (a : List E) : ∀ l : List (Node Attr),
    (∀ f' e cs, .elem (e :: cs) ∈ itemsAll d' f a l → d f' cs e.1 = d' f' cs e.1) → (∀ f a n, d' f a n = false) →
    itemsAll d f a l = itemsAll d' f a l
  | [], _, _ => rfl
  | n :: l, h, hn => by
    simp only [itemsAll, List.mem_append] at h ⊢
    rw [items_congr d d' f a n (fun f' e cs hm => h f' e cs (.inl hm)) hn,
      itemsAll_congr d d' f a l (fun f' e cs hm => h f' e cs (.inr hm)) hn]
end

/-- **C53 (what SVG 2 allows stays).** In a document that only has elements of SVG where SVG 2 allows them, and no `tspan` or
`textPath` in an `a`, nothing is stray. -/
theorem conforming_partial (on : Bool) (doc : List (Node Attr)) (h : Conforms doc) : proper on doc = content doc := by
  refine itemsAll_congr _ _ _ _ doc ?_ (fun _ _ _ => rfl)
  intro f e cs hc
  obtain ⟨x, hx⟩ := h.1 e cs hc
  have : ¬ Stray f cs e.1 := by
    rintro ⟨_, _, _, h1 | ⟨p, as, rest, rfl, q, hq, hna⟩⟩
    · rw [hx] at h1; simp at h1
    · obtain ⟨x', y, h1, h2, h3, h4⟩ := h.2 e (p, as) rest hc
      rw [hx, Option.some.injEq] at h1
      subst h1
      rw [hq, Option.some.injEq] at h2
      subst h2
      rw [hx, ← accepts_iff] at hna
      exact hna ((contentModel_accepted q (all_elements q) x h3).resolve_left h4)
  simp [this]

/-! ## Styles -/

/-- The properties of the first element are the same, whatever `font` stands for and whichever conditions of at-rules are met,
and so are its name, the names of its ancestors, and its children's place. -/
def Looks (r : Run Sel C) (c c' : List E) : Prop :=
  Fewer c c' ∧ ∀ fonts holds k, k ≠ .Kerning → k ≠ .TransformOrigin →
    styleOf r fonts holds c' k = styleOf r fonts holds c k

/-- **C53 (no property changes).** In a document whose styles are computed as by CSS (C43), whose selectors only ask for names,
classes and ids, whose declarations do not use `marker` or `font`, and whose unknown elements do not have attributes that are
properties: every element that stays has the value for each property that it had, whichever conditions of at-rules are met. This
is so for all properties but `kerning` and `transform-origin`, for values that do not depend on the parent's, and for elements
that are not used through `use`. -/
theorem styles_partial (r : Run Sel C) (doc doc' : List (Node Attr)) (hf : Fair r doc) (h : job r doc = some doc') :
    List.Forall₂ (Pairs (Looks r) (cleaner r)) (proper r.options.unknownContent doc) (content doc') := by
  refine forall₂_mem (job_same r doc doc' h) ?_
  intro x hx y hs
  refine hs.pairs ?_
  rintro c c' rfl rfl hr
  exact ⟨hr.fewer, fun fonts holds k hk ho =>
    hr.style fonts hf.rules hf.selectors holds k hk ho (hf.good c (proper_content _ _ _ hx))⟩

/-! ## What stays in any case -/

/-- The standard namespace a prefix stands for. -/
def bound : Prefix → Option StdNs
  | .std s => some s
  | .aliased (.std s) _ => some s
  | _ => none

/-- The prefix stands for XML, XLink or XMLNS, or is not one that is known. -/
def Far (p : Prefix) : Prop :=
  (∃ s ∈ [StdNs.xml, .xlink, .xmlns], bound p = some s) ∨ ∃ q n, p = .unknown q n

theorem bound_iff (p : Prefix) (s : StdNs) : bound p = some s ↔ p.unaliased = .std s := by
  match p with
  | .std _ => simp [bound, Prefix.unaliased]
  | .unknown _ _ => simp [bound, Prefix.unaliased]
  | .aliased (.std _) _ => simp [bound, Prefix.unaliased]
  | .aliased (.unknown _ _) _ => simp [bound, Prefix.unaliased]
  | .aliased (.aliased _ _) _ => simp [bound, Prefix.unaliased]

theorem far_iff (p : Prefix) : keptPrefix p = true ↔ Far p := by
  unfold keptPrefix Far
  simp only [List.mem_cons, List.not_mem_nil, or_false, exists_eq_or_imp, exists_eq_left, bound_iff]
  split
  · next h => simp [h]
  · next h => simp [h]
  · next h => simp [h]
  · next h1 h2 h3 =>
    have e1 : ¬ p.unaliased = .std .xml := fun h => h1 h
    have e2 : ¬ p.unaliased = .std .xlink := fun h => h2 h
    have e3 : ¬ p.unaliased = .std .xmlns := fun h => h3 h
    simp only [e1, e2, e3, or_self, false_or]
    cases p <;> simp

/-- Attributes that are never removed, whatever the element. -/
def Safe (o : Options) : Attr → Prop
  | .style _ => True
  | .plain (.known k) _ =>
    k = .Id ∨ k = .Class ∨ k = .XMLNS ∨ k.prefixed = true ∨ (k.aria = true ∧ o.keepAria = true) ∨ (k = .Role ∧ o.keepRole = true)
  | .plain (.other p l) _ =>
    Far p ∨ (o.keepData = true ∧ ∃ t, l = lit "data-" ++ t) ∨ (o.keepAria = true ∧ ∃ t, l = lit "aria-" ++ t)

theorem starts_iff (p l : Str) : startsWith p l = true ↔ ∃ t, l = p ++ t := by
  unfold startsWith
  rw [List.isPrefixOf_iff_prefix]
  exact ⟨fun ⟨t, h⟩ => ⟨t, h.symm⟩, fun ⟨t, h⟩ => ⟨t, h.symm⟩⟩

theorem safe_keeps (o : Options) (e : Option El) (b : Bool) (inh : Computed Key Val) (a : Attr) (h : Safe o a) :
    keeps o e b inh a = true := by
  match a, h with
  | .style _, _ => rfl
  | .plain (.known k) v, h =>
    rcases h with rfl | rfl | rfl | h | ⟨h1, h2⟩ | ⟨rfl, h⟩
    · exact (keeps_class o e b inh v).2
    · exact (keeps_class o e b inh v).1
    · have h1 : Key.XMLNS.prefixed = false := rfl
      have h2 : Key.XMLNS.aria = false := rfl
      have h3 : Key.XMLNS ≠ .Role := fun h => Key.noConfusion h
      have h4 : Group.Presentation ∉ Key.XMLNS.groups := by decide
      have h5 : Key.XMLNS.standard = none := rfl
      simp [keeps, h1, h2, h3, h4, h5]
    · simp [keeps, h]
    · simp only [keeps, h1, h2, if_true]
      split <;> rfl
    · have h1 : Key.Role.prefixed = false := rfl
      have h2 : Key.Role.aria = false := rfl
      simp [keeps, h1, h2, h]
  | .plain (.other p l) v, h =>
    rcases h with h | ⟨h1, t, rfl⟩ | ⟨h1, t, rfl⟩
    · simp [keeps, (far_iff p).mpr h]
    · have := (starts_iff (lit "data-") _).mpr ⟨t, rfl⟩
      simp [keeps, h1, this]
    · have := (starts_iff (lit "aria-") _).mpr ⟨t, rfl⟩
      simp [keeps, h1, this]

/-- The element has an id. -/
def HasId (e : E) : Prop := ∃ v, .plain (.known .Id) v ∈ e.2

theorem hasId_iff (e : E) : e.2.any isId = true ↔ HasId e := by
  rw [List.any_eq_true]
  constructor
  · rintro ⟨a, ha, h⟩
    unfold isId at h
    split at h
    · exact ⟨_, ha⟩
    · simp at h
  · rintro ⟨v, hv⟩
    exact ⟨_, hv, rfl⟩

/-- The element is known to have this attribute: it, or a group that it is in, is named for the element, and all elements
of SVG have those that are properties and the core attributes. -/
def Expects (n : EName) (k : Key) : Prop :=
  match elementOf n with
  | none => .XLink ∈ k.groups ∨ .Core ∈ k.groups
  | some x => k ∈ x.expected ∨ ∃ g ∈ k.groups, g = .Presentation ∨ g = .Core ∨ g ∈ x.groups

theorem expects_iff (n : EName) (k : Key) : permitsAttr (elementOf n) (.known k) = true ↔ Expects n k := by
  unfold permitsAttr Expects
  cases elementOf n with
  | none => simp [groupsOf, expectedOf]
  | some x =>
    simp only [groupsOf, expectedOf, Bool.or_eq_true, List.any_eq_true, decide_eq_true_eq, List.mem_cons]
    constructor
    · rintro (⟨g, h1, h2⟩ | h)
      · exact .inr ⟨g, h2, h1⟩
      · exact .inl (of_decide_eq_true h)
    · rintro (h | ⟨g, h1, h2⟩)
      · exact .inr (decide_eq_true h)
      · exact .inl ⟨g, h2, h1⟩

theorem attributeModel_permitted : ∀ x ∈ El.all, ∀ k ∈ attributeModel x, permitsAttr (some x) (.known k) = true := by
  decide +kernel

/-- **C53 (attributes of SVG 2 are known).** All attributes that SVG 2 and Filter Effects name for an element are known
for it, and all properties are, for all elements. -/
theorem attributes_known (n : EName) (x : El) (hn : elementOf n = some x) (k : Key)
    (hk : k ∈ attributeModel x ∨ k ∈ inheritedProperties ∨ k ∈ otherProperties) : Expects n k := by
  rcases hk with hk | hk
  · rw [← expects_iff, hn]
    exact attributeModel_permitted x (all_elements x) k hk
  · unfold Expects
    rw [hn]
    exact .inr ⟨.Presentation, (presentation_iff k).mpr hk, .inl rfl⟩

/-- **C53 (what is never removed).** Elements with a prefix and those in a `foreignObject` keep all attributes. All elements keep
their `style`, `id`, `class` and `xmlns`, attributes with prefixes, `data-` attributes if asked to, and so on. An element with
an id also keeps all attributes that it is known to have, apart from ARIA attributes and `role`. -/
theorem safe_kept (r : Run Sel C) (doc doc' : List (Node Attr)) (h : job r doc = some doc') :
    List.Forall₂ (Pairs (fun c c' => ∀ e cs, c = e :: cs → ∃ e' cs', c' = e' :: cs' ∧ (Alone e cs → e' = e) ∧
      (∀ a ∈ e.2, Safe r.options a → a ∈ e'.2) ∧
      (HasId e → ∀ k v, .plain (.known k) v ∈ e.2 → Expects e.1 k → k.aria = false → k ≠ .Role →
        .plain (.known k) v ∈ e'.2)) (cleaner r))
      (proper r.options.unknownContent doc) (content doc') := by
  refine (job_same r doc doc' h).imp fun x y hs => hs.pairs ?_
  rintro c c' rfl rfl hr e cs rfl
  cases hr with
  | same _ h ha => exact ⟨e, _, rfl, fun _ => rfl, fun a ha _ => ha, fun _ k v hv _ _ _ => hv⟩
  | cut n as h ha inh hi =>
    refine ⟨_, _, rfl, fun x => absurd x ha, ?_, ?_⟩
    · intro a hm hsafe
      exact List.mem_filter.mpr ⟨hm, safe_keeps _ _ _ _ a hsafe⟩
    · intro hid k v hm hx h1 h2
      refine List.mem_filter.mpr ⟨hm, ?_⟩
      rw [(hasId_iff (n, as)).mpr hid]
      simp only [keeps, h1, h2, (expects_iff n k).mpr hx]
      simp

/-! ## What is removed -/

/-- What ancestors say about a property that is inherited. -/
def handed (r : Run Sel C) (anc : List E) (k : Key) : Option Val :=
  if k ∈ inheritedProperties ∧ k ≠ .Kerning then said r (fun _ => []) (fun _ => true) anc k else none

/-- The attributes that are removed from an element with these ancestors. -/
def Removed (r : Run Sel C) (e : E) (anc : List E) : Attr → Prop
  | .style _ => False
  | .plain (.other p l) _ =>
    ¬ Far p ∧ ¬ (r.options.keepData = true ∧ ∃ t, l = lit "data-" ++ t) ∧
      (((∃ t, l = lit "aria-" ++ t) ∧ r.options.keepAria = false) ∨
        ((¬ ∃ t, l = lit "aria-" ++ t) ∧ r.options.unknownAttrs = true))
  | .plain (.known k) v =>
    k.prefixed = false ∧
      ((k.aria = true ∧ r.options.keepAria = false) ∨
       (k = .Role ∧ r.options.keepRole = false) ∨
       (k.aria = false ∧ k ≠ .Role ∧
        ((r.options.unknownAttrs = true ∧ k ≠ .XMLNS ∧ ¬ Expects e.1 k) ∨
         (r.options.defaultAttrs = true ∧ ¬ HasId e ∧ k.standard = some v ∧ handed r anc k = none) ∨
         (r.options.overrides = true ∧ ¬ HasId e ∧ handed r anc k = some v))))

theorem said_value (r : Run Sel C) (fonts : Val → List (Key × Val)) (hr : ∀ b ∈ blocksOfAll r.rules, Single b)
    (holds : C → Bool) (k : Key) (hk : k ≠ .Kerning) (hi : k ∈ inheritedProperties) :
    ∀ cs : List E, (∀ e ∈ cs, ∀ b, .style b ∈ e.2 → Single b) → said r fonts holds cs k = valueAt r holds k cs
  | [], _ => rfl
  | e :: cs, h => by
    have hk' : k.inheritable = true := by rw [inheritable_eq k hk]; simpa using hi
    rw [said, specified_look r fonts hr holds e cs (h e (by simp)), if_pos hi, value_getD r holds k hk',
      said_value r fonts hr holds k hk hi cs fun x hx => h x (by simp [hx])]

theorem inheritable_kerning : Key.Kerning.inheritable = false := rfl
theorem role_aria : Key.Role.aria = false := rfl
theorem inherited_alone : ∀ k ∈ inheritedProperties, k.alone = false := by decide +kernel

/-- Without conditions, the value found above is the one that is said there. -/
theorem inheritedValue_handed (r : Run Sel C) (hr : ∀ b ∈ blocksOfAll r.rules, Single b)
    (hp : ∀ x ∈ r.rules, ∃ ss b, x = .style ss b) (cs : List E)
    (hs : ∀ e ∈ cs, ∀ b, .style b ∈ e.2 → Single b) (inh : Computed Key Val) (hi : inheritedOf r cs = some inh)
    (hf : ∀ s ∈ tails cs, Cascade.Fits r.test look r.rules s) (hn : ∀ s ∈ tails cs, Cascade.NoClash r.test look r.rules s)
    (k : Key) : inheritedValue inh k = (handed r cs k).map fun v => (v, .static) := by
  unfold inheritedValue handed
  by_cases hk : k ∈ inheritedProperties ∧ k ≠ .Kerning
  · have hki : k.inheritable = true := by rw [inheritable_eq k hk.2]; simpa using hk.1
    rw [if_pos hk, if_pos (typed_all k hk.1), said_value r _ hr _ k hk.2 hk.1 cs hs]
    have hag := inherited_agrees r cs inh hi hf hn k hki
    have h3 := hag.2.2 (fun _ => true) (fun _ => rfl)
    dsimp only at h3
    rw [h3]
    cases hg : Cascade.get Key.inheritable inh k with
    | none => rfl
    | some x =>
      obtain ⟨v, m⟩ := x
      have hm : m = .static := by
        cases cs with
        | nil =>
          simp only [inheritedOf, Option.some.injEq] at hi
          subst hi
          simp [Cascade.get, Cascade.getHigh, Cascade.getInherited, Computed.empty, Cascade.findFirst] at hg
        | cons p ps =>
          simp only [inheritedOf, Option.map_eq_some_iff] at hi
          obtain ⟨q, hq, rfl⟩ := hi
          rw [get_takeOver, if_pos hki] at hg
          have hst := Cascade.takeOver_static .empty q ⟨by simp [Computed.empty], by simp [Computed.empty], by simp [Computed.empty]⟩
            (Cascade.withAll_static hp _ _ _ hq)
          exact hst.1 k v m hg
      subst hm
      rfl
  · rw [if_neg hk]
    have hki : ¬ k.inheritable = true := by
      by_cases he : k = .Kerning
      · subst he; rw [inheritable_kerning]; simp
      · rw [inheritable_eq k he]
        simpa using fun h => hk ⟨h, he⟩
    have : Cascade.get Key.inheritable inh k = none := by
      cases cs with
      | nil =>
        simp only [inheritedOf, Option.some.injEq] at hi
        subst hi
        simp [Cascade.get, Cascade.getHigh, Cascade.getInherited, Computed.empty, Cascade.findFirst]
      | cons p ps =>
        simp only [inheritedOf, Option.map_eq_some_iff] at hi
        obtain ⟨q, _, rfl⟩ := hi
        rw [get_takeOver, if_neg hki]
    rw [this]
    simp

theorem keeps_removed (r : Run Sel C) (n : EName) (as : List Attr) (anc : List E) (inh : Computed Key Val)
    (h : ∀ k, inheritedValue inh k = (handed r anc k).map fun v => (v, .static)) (a : Attr) :
    keeps r.options (elementOf n) (as.any isId) inh a = false ↔ Removed r (n, as) anc a := by
  have hid : as.any isId = false ↔ ¬ HasId (n, as) := by
    rw [← hasId_iff]; simp
  match a with
  | .style _ => simp [keeps, Removed]
  | .plain (.other p l) v =>
    simp only [keeps, Removed, permitsAttr, ← starts_iff, ← far_iff]
    cases keptPrefix p <;> cases r.options.keepData <;> cases startsWith (lit "data-") l <;>
      cases startsWith (lit "aria-") l <;> simp
  | .plain (.known k) v =>
    simp only [keeps, Removed]
    cases hpre : k.prefixed
    · cases har : k.aria
      · by_cases hro : k = .Role
        · subst hro; simp
        · simp only [hro, Bool.false_eq_true, if_false, false_and, false_or, true_and, ne_eq, not_false_eq_true]
          rw [h k, ← expects_iff]
          by_cases h1 : (r.options.unknownAttrs && decide (k ≠ .XMLNS) && !permitsAttr (elementOf n) (.known k)) = true
          · rw [if_pos h1]
            simp only [Bool.and_eq_true, Bool.not_eq_true', decide_eq_true_eq] at h1
            simp [h1.1.1, h1.1.2, h1.2]
          · rw [if_neg h1]
            have h1' : ¬ (r.options.unknownAttrs = true ∧ ¬k = .XMLNS ∧ ¬ permitsAttr (elementOf n) (.known k) = true) := by
              simpa [and_assoc] using h1
            simp only [h1', false_or]
            by_cases h2 : (r.options.defaultAttrs && !as.any isId && ((handed r anc k).map fun v => (v, Mode.static)).isNone &&
                decide (k.standard = some v)) = true
            · rw [if_pos h2]
              simp only [Bool.and_eq_true, Bool.not_eq_true', decide_eq_true_eq, Option.isNone_iff_eq_none,
                Option.map_eq_none_iff] at h2
              simp [h2.1.1.1, ← hid, h2.1.1.2, h2.1.2, h2.2]
            · rw [if_neg h2]
              have h2' : ¬ (r.options.defaultAttrs = true ∧ ¬ HasId (n, as) ∧ k.standard = some v ∧ handed r anc k = none) := by
                rintro ⟨x1, x2, x3, x4⟩
                rw [← hid] at x2
                exact h2 (by simp [x1, x2, x3, x4])
              simp only [h2', false_or]
              have hP : handed r anc k = some v → Group.Presentation ∈ k.groups ∧ k.alone = false := by
                intro hx
                unfold handed at hx
                split at hx
                · next hh => exact ⟨(presentation_iff k).mpr (.inl hh.1), inherited_alone k hh.1⟩
                · simp at hx
              have hst : sameStatic v ((handed r anc k).map fun v => (v, Mode.static)) = true ↔ handed r anc k = some v := by
                cases handed r anc k <;> simp [sameStatic]
              by_cases h3 : handed r anc k = some v
              · obtain ⟨p1, p2⟩ := hP h3
                simp only [p1, p2, h3, ← hid]
                cases r.options.overrides <;> cases as.any isId <;> simp [sameStatic]
              · have : sameStatic v ((handed r anc k).map fun v => (v, Mode.static)) = false := by
                  rw [← Bool.not_eq_true, hst]; exact h3
                simp [this, h3]
      · by_cases hro : k = .Role
        · subst hro; rw [role_aria] at har; simp at har
        · cases r.options.keepAria <;> simp [hro]
    · simp

/-- **C53 (exactly what is removed).** In such a document without conditional rules, an attribute is removed from an element that
is not left alone if and only if: it is an ARIA attribute or `role` that is not to be kept; it is not known for the element;
it has its default value and no ancestor says anything else; or it is a property that is inherited and the nearest ancestor that
says something about it says the same. The last two are not for elements with an id. -/
theorem removed_iff (r : Run Sel C) (doc doc' : List (Node Attr)) (hf : Fair r doc)
    (hp : ∀ x ∈ r.rules, ∃ ss b, x = .style ss b) (h : job r doc = some doc') :
    List.Forall₂ (Pairs (fun c c' => ∀ e cs, c = e :: cs → ¬ Alone e cs → ∃ e' cs', c' = e' :: cs' ∧
      ∀ a, a ∈ e'.2 ↔ a ∈ e.2 ∧ ¬ Removed r e cs' a) (cleaner r))
      (proper r.options.unknownContent doc) (content doc') := by
  refine forall₂_mem (job_same r doc doc' h) ?_
  intro x hx y hs
  refine hs.pairs ?_
  rintro c c' rfl rfl hr e cs rfl hal
  cases hr with
  | same _ h ha => exact absurd ha hal
  | cut n as h ha inh hi =>
    rename_i cs'
    refine ⟨_, _, rfl, ?_⟩
    intro a
    have hg := hf.good _ (proper_content _ _ _ hx)
    have hfit : ∀ s ∈ tails cs', Cascade.Fits r.test look r.rules s := by
      intro s hsm
      obtain ⟨t, ht1, ht2, ht3⟩ := h.tails s hsm
      exact ht3.fits hf.selectors ht2 (hg.2.tails t ht1).1
    have hcl : ∀ s ∈ tails cs', Cascade.NoClash r.test look r.rules s := by
      intro s hsm
      obtain ⟨t, ht1, ht2, ht3⟩ := h.tails s hsm
      exact ht3.noClash hf.selectors ht2 (hg.2.tails t ht1).2
    have key := keeps_removed r n as cs' inh
      (inheritedValue_handed r hf.rules hp cs' (h.single hg.2.single) inh hi hfit hcl) a
    simp only [pruned, List.mem_filter]
    rw [← key]
    simp

/-! ## Other attributes with defaults -/

/-- **C53 (defaults that are not properties).** When an attribute that is not a property is removed as having its default value, leaving
it out has the same effect, but for the attributes named here. Those of filters, masks, `svg` and gradients are wrong; for
`arabic-form`, `dx` of `glyphRef`, `name`, `refX`, `refY`, `target`, `timelinebegin`, `version`, `x` and `y` of filter primitives nothing
is claimed. ARIA attributes are never removed for this reason. -/
theorem defaults_partial (k : Key) (v : Val) (h : k.standard = some v) (ha : k.aria = false)
    (hp : k ∉ inheritedProperties ∧ k ∉ otherProperties)
    (hw : k ∉ [.Divisor, .CXRadialGradient, .CYRadialGradient, .RRadialGradient, .X2LinearGradient, .Y1LinearGradient,
      .WidthSvg, .HeightSvg, .XFilter, .YFilter, .WidthFilter, .HeightFilter, .XMask, .YMask, .WidthMask, .HeightMask])
    (hn : k ∉ [.ArabicForm, .DXGlyphRef, .NameColorProfile, .RefX, .RefY, .Target, .Timelinebegin, .Version, .XFe, .YFe]) :
    absent k = some v := by
  have key : k.aria = true ∨ k.standard = none ∨ k.standard = absent k ∨ (k ∈ inheritedProperties ∨ k ∈ otherProperties) ∨
      k ∈ ([.Divisor, .CXRadialGradient, .CYRadialGradient, .RRadialGradient, .X2LinearGradient, .Y1LinearGradient,
      .WidthSvg, .HeightSvg, .XFilter, .YFilter, .WidthFilter, .HeightFilter, .XMask, .YMask, .WidthMask, .HeightMask] : List Key) ∨
      k ∈ ([.ArabicForm, .DXGlyphRef, .NameColorProfile, .RefX, .RefY, .Target, .Timelinebegin, .Version, .XFe, .YFe] : List Key) := by
    clear h ha hp hw hn
    cases k <;> decide +kernel
  rcases key with e | e | e | e | e | e
  · rw [ha] at e; simp at e
  · rw [h] at e; simp at e
  · rw [← e, h]
  · exact absurd e (by simp [hp.1, hp.2])
  · exact absurd e hw
  · exact absurd e hn

/-! ## Success -/

theorem overSelectors_some {K V N : Type} [DecidableEq K] (test : List Sel → N → Option Bool) (n : N) (ht : ∀ ss, test ss n ≠ none)
    (b : Block K V) (sp : Nat) (m : Mode) (ss : List (Sel × Nat)) : ∀ (c : Computed K V) (acc : List Sel),
    ∃ x, Cascade.overSelectors test n b sp m c acc ss = some x := by
  induction ss with
  | nil => intro c acc; exact ⟨_, rfl⟩
  | cons s ss ih =>
    intro c acc
    rw [Cascade.overSelectors]
    split
    · next h => exact absurd h (ht _)
    · exact ih _ _
    · exact ih _ _

mutual
theorem nested_some {K V N : Type} [DecidableEq K] (test : List Sel → N → Option Bool) (n : N) (ht : ∀ ss, test ss n ≠ none) :
    ∀ (rl : Rule K V Sel C) (sp : Nat) (m : Mode) (c : Computed K V) (acc : List Sel),
      ∃ x, Cascade.nested test n sp m c acc rl = some x
  | .style ss b, sp, m, c, acc => by rw [Cascade.nested]; exact overSelectors_some test n ht b sp m ss c acc
  | .media _ rs, sp, m, c, acc => by rw [Cascade.nested]; exact nestedAll_some test n ht rs sp .dynamic c acc
  | .other _ _, sp, m, c, acc => by rw [Cascade.nested]; exact ⟨_, rfl⟩
theorem nestedAll_some {K V N : Type} [DecidableEq K] (test : List Sel → N → Option Bool) (n : N) (ht : ∀ ss, test ss n ≠ none) :
    ∀ (rs : List (Rule K V Sel C)) (sp : Nat) (m : Mode) (c : Computed K V) (acc : List Sel),
      ∃ x, Cascade.nestedAll test n sp m c acc rs = some x
  | [], sp, m, c, acc => ⟨_, rfl⟩
  | rl :: rs, sp, m, c, acc => by
    obtain ⟨x, hx⟩ := nested_some test n ht rl sp m c acc
    rw [Cascade.nestedAll, hx]
    exact nestedAll_some test n ht rs sp m x.1 x.2
end

theorem withStyle_some {K V N : Type} [DecidableEq K] (test : List Sel → N → Option Bool) (n : N) (ht : ∀ ss, test ss n ≠ none)
    (rs : List (Rule K V Sel C)) : ∀ c : Computed K V, ∃ x, Cascade.withStyle test n c rs = some x := by
  induction rs with
  | nil => intro c; exact ⟨_, rfl⟩
  | cons rl rs ih =>
    intro c
    obtain ⟨x, hx⟩ := nested_some test n ht rl 0 .static c []
    rw [Cascade.withStyle, hx]
    exact ih x.1

theorem withAll_some {K V N : Type} [DecidableEq K] (test : List Sel → N → Option Bool) (look : N → Level K V)
    (rs : List (Rule K V Sel C)) (ht : ∀ ss n, test ss n ≠ none) (ps : List N) :
    ∀ n, ∃ x, Cascade.withAll test look rs n ps = some x := by
  induction ps with
  | nil => intro n; exact withStyle_some test n (fun ss => ht ss n) rs _
  | cons p ps ih =>
    intro n
    obtain ⟨x, hx⟩ := withStyle_some test n (fun ss => ht ss n) rs (Cascade.withOwn (look n) .empty)
    obtain ⟨y, hy⟩ := ih p
    rw [Cascade.withAll, hx, hy]
    exact ⟨_, rfl⟩

mutual
theorem visit_some (r : Run Sel C) (ht : ∀ ss c, r.test ss c ≠ none) : ∀ (n : Node Attr) (f : Bool) (a : List E),
    ∃ ns, visit r f a n = some ns
  | .text s, f, a => ⟨_, rfl⟩
  | .css s, f, a => ⟨_, rfl⟩
  | .comment s, f, a => ⟨_, rfl⟩
  | .pi t d, f, a => ⟨_, rfl⟩
  | .elem n as ks, f, a => by
    obtain ⟨k1, h1⟩ := visitAll_some r ht ks true ((n, as) :: a)
    obtain ⟨k2, h2⟩ := visitAll_some r ht ks false ((n, as) :: a)
    obtain ⟨k3, h3⟩ := visitAll_some r ht ks false [(n, pruned r.options n .empty as)]
    have hi : ∃ inh, inheritedOf r a = some inh := by
      cases a with
      | nil => exact ⟨_, rfl⟩
      | cons p ps =>
        obtain ⟨q, hq⟩ := withAll_some r.test look r.rules ht (tails ps) (p :: ps)
        exact ⟨_, by rw [inheritedOf, hq]; rfl⟩
    obtain ⟨inh, hi⟩ := hi
    obtain ⟨k4, h4⟩ := visitAll_some r ht ks false ((n, pruned r.options n inh as) :: a)
    rw [visit, h1, h2, h3, hi]
    dsimp only
    rw [h4]
    split
    · exact ⟨_, rfl⟩
    · split
      · exact ⟨_, rfl⟩
      · split
        · exact ⟨_, rfl⟩
        · exact ⟨_, rfl⟩
theorem visitAll_some (r : Run Sel C) (ht : ∀ ss c, r.test ss c ≠ none) : ∀ (l : List (Node Attr)) (f : Bool) (a : List E),
    ∃ ns, visitAll r f a l = some ns
  | [], f, a => ⟨_, rfl⟩
  | n :: l, f, a => by
    obtain ⟨x, hx⟩ := visit_some r ht n f a
    obtain ⟨y, hy⟩ := visitAll_some r ht l f a
    exact ⟨_, by rw [visitAll, hx, hy]⟩
end

/-- **C53 (no errors).** If the selectors of all style sheets can be read, the job succeeds. -/
theorem succeeds_partial (r : Run Sel C) (doc : List (Node Attr)) (h : ∀ ss c, r.test ss c ≠ none) : ∃ doc', job r doc = some doc' :=
  visitAll_some r h doc false []

/-! ## Switched off -/

theorem keeps_off (o : Options) (h : o = ⟨false, false, false, false, false, o.keepData, true, true⟩) (e : Option El) (b : Bool)
    (inh : Computed Key Val) (a : Attr) : keeps o e b inh a = true := by
  rw [h]
  match a with
  | .style _ => rfl
  | .plain (.known k) v =>
    simp only [keeps, Bool.false_and, Bool.false_eq_true, if_false]
    split
    · rfl
    · split
      · rfl
      · split <;> rfl
  | .plain (.other p l) v =>
    simp only [keeps, Bool.not_false]
    split
    · rfl
    · split
      · rfl
      · split <;> rfl

theorem pruned_off (o : Options) (h : o = ⟨false, false, false, false, false, o.keepData, true, true⟩) (n : EName)
    (inh : Computed Key Val) (as : List Attr) : pruned o n inh as = as := by
  unfold pruned
  rw [List.filter_eq_self]
  intro a _
  exact keeps_off o h _ _ _ a

mutual
theorem visit_off (r : Run Sel C) (h : r.options = ⟨false, false, false, false, false, r.options.keepData, true, true⟩) :
    ∀ (n : Node Attr) (f : Bool) (a : List E) (ns : List (Node Attr)), visit r f a n = some ns → ns = [n]
  | .text s, f, a, ns, hv => by simpa [visit, eq_comm] using hv
  | .css s, f, a, ns, hv => by simpa [visit, eq_comm] using hv
  | .comment s, f, a, ns, hv => by simpa [visit, eq_comm] using hv
  | .pi t d, f, a, ns, hv => by
    have hm : r.options.markup = false := by rw [h]
    simpa [visit, hm, eq_comm] using hv
  | .elem n as ks, f, a, ns, hv => by
    rw [visit] at hv
    split at hv
    · rw [Option.map_eq_some_iff] at hv
      obtain ⟨ks', hk, rfl⟩ := hv
      rw [visitAll_off r h ks _ _ ks' hk]
    · split at hv
      · rw [Option.map_eq_some_iff] at hv
        obtain ⟨ks', hk, rfl⟩ := hv
        rw [visitAll_off r h ks _ _ ks' hk]
      · have : removes r.options a n = false := by rw [h]; rfl
        rw [this] at hv
        simp only [Bool.false_eq_true, if_false] at hv
        split at hv
        · simp at hv
        · rw [Option.map_eq_some_iff] at hv
          obtain ⟨ks', hk, rfl⟩ := hv
          rw [visitAll_off r h ks _ _ ks' hk, pruned_off _ h]
theorem visitAll_off (r : Run Sel C) (h : r.options = ⟨false, false, false, false, false, r.options.keepData, true, true⟩) :
    ∀ (l : List (Node Attr)) (f : Bool) (a : List E) (ns : List (Node Attr)), visitAll r f a l = some ns → ns = l
  | [], f, a, ns, hv => by simpa [visitAll, eq_comm] using hv
  | n :: l, f, a, ns, hv => by
    rw [visitAll] at hv
    split at hv
    · next x y hx hy =>
      simp only [Option.some.injEq] at hv
      subst hv
      rw [visit_off r h n f a x hx, visitAll_off r h l f a y hy]
      rfl
    · simp at hv
end

/-- **C53 (switched off).** With everything switched off, and ARIA attributes and `role` to be kept, the document stays as it is. -/
theorem off_same (r : Run Sel C) (h : r.options = ⟨false, false, false, false, false, r.options.keepData, true, true⟩)
    (doc doc' : List (Node Attr)) (hj : job r doc = some doc') : doc' = doc :=
  visitAll_off r h doc false [] doc' hj

end Verif.Unknowns
