import Verif.Shared.Lemmas
import Mathlib.Data.List.Induction

/-!
# C97: the information on a selection is what its elements share

The theorems speak of the selected nodes directly: `Selected lookup ids es` says that the ids that
belong to a node belong to the elements `es`, in the order of the selection.
-/

namespace Verif.Shared

variable {N A K G : Type} [DecidableEq N] [DecidableEq A]

/-- The nodes of the selected ids are the elements `es`; ids without a node are ignored.  The names
of the attributes of an element are distinct. -/
structure Selected (lookup : Nat → Option (Node N A)) (ids : List Nat)
    (es : List (Element N A)) : Prop where
  nodes : ids.filterMap lookup = es.map Node.element
  unique : ∀ e ∈ es, (e.attributes.map (·.1)).Nodup

omit [DecidableEq N] [DecidableEq A] in
theorem selected_any {lookup : Nat → Option (Node N A)} {ids : List Nat}
    {es : List (Element N A)} (h : Selected lookup ids es) :
    ((ids.filterMap lookup).map Node.asElement).any Option.isNone = false ∧
      ((ids.filterMap lookup).map Node.asElement).filterMap id = es := by
  rw [h.nodes]
  constructor
  · simp [Node.asElement]
  · clear h
    induction es with
    | nil => rfl
    | cons e rest ih => simpa [Node.asElement] using ih

theorem info_selected (t : Tables N A K G) {lookup : Nat → Option (Node N A)} {ids : List Nat}
    {es : List (Element N A)} (h : Selected lookup ids es) :
    info t lookup ids = match loop t true start es with
      | none => .error
      | some s => .found (finish s) := by
  unfold info
  simp only [(selected_any h).1, (selected_any h).2, Bool.false_eq_true, if_false]
  cases loop t true start es <;> rfl

theorem info_found {t : Tables N A K G} {lookup : Nat → Option (Node N A)} {ids : List Nat}
    {es : List (Element N A)} (h : Selected lookup ids es) {r : Info N A K G}
    (hr : info t lookup ids = .found r) : ∃ s, Holds t es s ∧ r = finish s := by
  rw [info_selected t h] at hr
  cases hl : loop t true start es with
  | none => rw [hl] at hr; cases hr
  | some s =>
    rw [hl] at hr
    cases hr
    exact ⟨s, by simpa using loop_holds es [] start s (holds_start t) h.unique hl, rfl⟩

/-- **C97 (nothing)**: there is no information exactly if a selected node is not an element. -/
theorem nothing_iff (t : Tables N A K G) (lookup : Nat → Option (Node N A)) (ids : List Nat) :
    info t lookup ids = .nothing ↔ ∃ i ∈ ids, lookup i = some .other := by
  unfold info
  dsimp only
  constructor
  · intro h
    split_ifs at h with ha
    · simp only [List.any_map, List.any_eq_true, List.mem_filterMap, Function.comp] at ha
      obtain ⟨n, ⟨i, hi, hn⟩, hx⟩ := ha
      cases n with
      | element e => simp [Node.asElement] at hx
      | other => exact ⟨i, hi, hn⟩
    · split at h <;> cases h
  · rintro ⟨i, hi, hn⟩
    rw [if_pos]
    simp only [List.any_map, List.any_eq_true, List.mem_filterMap, Function.comp]
    exact ⟨.other, ⟨i, hi, hn⟩, rfl⟩

/-- **C97 (errors)**: an error is reported exactly if an element has an attribute that cannot be
printed and all the elements selected before it have this attribute with one and the same
value. -/
theorem error_iff (t : Tables N A K G) {lookup : Nat → Option (Node N A)} {ids : List Nat}
    {es : List (Element N A)} (h : Selected lookup ids es) :
    info t lookup ids = .error ↔
      ∃ init e rest, es = init ++ e :: rest ∧ ∃ a, (a, none) ∈ e.attributes ∧
        ∃ v, ∀ e' ∈ init, (a, some v) ∈ e'.attributes := by
  have hn := loop_none es [] (start : Vars N A K G) (holds_start t) h.unique
  simp only [List.isEmpty_nil, List.nil_append] at hn
  rw [info_selected t h, ← hn]
  cases loop t true start es <;> simp

/-- **C97 (found)**: if every attribute can be printed, the information is given. -/
theorem found (t : Tables N A K G) {lookup : Nat → Option (Node N A)} {ids : List Nat}
    {es : List (Element N A)} (h : Selected lookup ids es)
    (hp : ∀ e ∈ es, ∀ a, (a, none) ∉ e.attributes) : ∃ r, info t lookup ids = .found r := by
  cases hi : info t lookup ids with
  | found r => exact ⟨r, rfl⟩
  | nothing =>
    obtain ⟨i, hi, ho⟩ := (nothing_iff t lookup ids).1 hi
    have : (Node.other : Node N A) ∈ ids.filterMap lookup := List.mem_filterMap.2 ⟨i, hi, ho⟩
    rw [h.nodes] at this
    simp at this
  | error =>
    obtain ⟨init, e, rest, rfl, a, ha, -⟩ := (error_iff t h).1 hi
    exact absurd ha (hp e (by simp) a)

/-- **C97 (name)**: a name is given exactly if something is selected and all of it has that
name. -/
theorem name_iff {t : Tables N A K G} {lookup : Nat → Option (Node N A)} {ids : List Nat}
    {es : List (Element N A)} (h : Selected lookup ids es) {r : Info N A K G}
    (hr : info t lookup ids = .found r) (n : N) :
    r.elementId = some n ↔ es ≠ [] ∧ ∀ e ∈ es, e.name = n := by
  obtain ⟨s, hs, rfl⟩ := info_found h hr
  have hids := hs.ids
  have hnd := hs.nodup
  simp only [finish]
  constructor
  · intro he
    split_ifs at he with h1
    obtain ⟨m, hm⟩ := List.length_eq_one_iff.1 h1
    rw [hm] at he hids
    simp only [List.head?_cons, Option.some.injEq] at he
    subst he
    refine ⟨?_, fun e he => ?_⟩
    · rintro rfl
      simpa using (hids m).1 (by simp)
    · simpa using (hids e.name).2 ⟨e, he, rfl⟩
  · rintro ⟨hne, hall⟩
    obtain ⟨e, rest, rfl⟩ := List.exists_cons_of_ne_nil hne
    have hn : n ∈ s.ids := (hids n).2 ⟨e, by simp, hall e (by simp)⟩
    have hall' : ∀ m ∈ s.ids, m = n := by
      intro m hm
      obtain ⟨e', he', rfl⟩ := (hids m).1 hm
      exact hall e' he'
    generalize s.ids = l at hn hall' hnd
    match l, hn, hall', hnd with
    | [m], hn, _, _ => simp at hn; simp [hn]
    | m :: m' :: l, _, hall', hnd =>
      have := hall' m (by simp)
      have := hall' m' (by simp)
      simp_all

/-- **C97 (values)**: an attribute is given with a value exactly if something is selected and every
selected element has the attribute with that value. -/
theorem values_iff {t : Tables N A K G} {lookup : Nat → Option (Node N A)} {ids : List Nat}
    {es : List (Element N A)} (h : Selected lookup ids es) {r : Info N A K G}
    (hr : info t lookup ids = .found r) (a : A) (v : Text) :
    get r.values a = some v ↔ es ≠ [] ∧ ∀ e ∈ es, (a, some v) ∈ e.attributes := by
  obtain ⟨s, hs, rfl⟩ := info_found h hr
  exact hs.values a v

/-- **C97 (elements and attributes)**: the permitted elements and the expected attributes are those
of every selected element. -/
theorem members_iff {t : Tables N A K G} {lookup : Nat → Option (Node N A)} {ids : List Nat}
    {es : List (Element N A)} (h : Selected lookup ids es) {r : Info N A K G}
    (hr : info t lookup ids = .found r) :
    (∀ n, n ∈ r.elements ↔ es ≠ [] ∧ ∀ e ∈ es, n ∈ t.elements e.name) ∧
      ∀ a, a ∈ r.attributes ↔ es ≠ [] ∧ ∀ e ∈ es, a ∈ t.attributes e.name := by
  obtain ⟨s, hs, rfl⟩ := info_found h hr
  exact ⟨hs.elements, hs.attributes⟩

/-- **C97 (violated)**: the permitted categories and the expected groups are all there are, as soon
as something is selected, whatever the selected elements permit and expect. -/
theorem flags_violated {t : Tables N A K G} {lookup : Nat → Option (Node N A)} {ids : List Nat}
    {es : List (Element N A)} (h : Selected lookup ids es) {r : Info N A K G}
    (hr : info t lookup ids = .found r) :
    (∀ k, r.categories k = true ↔ es ≠ []) ∧ ∀ g, r.groups g = true ↔ es ≠ [] := by
  obtain ⟨s, hs, rfl⟩ := info_found h hr
  have : s.ids.isEmpty = true ↔ es = [] := by
    constructor
    · intro hi
      cases es with
      | nil => rfl
      | cons e rest =>
        have := (hs.ids e.name).2 ⟨e, by simp, rfl⟩
        rw [List.isEmpty_iff.1 hi] at this
        simp at this
    · rintro rfl
      rw [List.isEmpty_iff, List.eq_nil_iff_forall_not_mem]
      intro n hn
      simpa using (hs.ids n).1 hn
  simp only [finish]
  by_cases he : es = []
  · simp [he, this.2 he]
  · have hi : ¬s.ids.isEmpty = true := fun hi => he (this.1 hi)
    rw [if_neg hi, if_neg hi]
    exact ⟨fun k => by simp [hs.categories, he], fun g => by simp [hs.groups, he]⟩

/-- The text of a node that holds nothing but text. -/
inductive Plain : List Child → Text → Prop
  | nil : Plain [] []
  | none {l : List Child} {s : Text} : Plain l s → Plain (.text none :: l) s
  | some {l : List Child} {s : Text} (v : Text) : Plain l s → Plain (.text (some v) :: l) (v ++ s)

theorem foldl_append (l : List Text) (acc : Text) :
    l.foldl (fun acc item => acc ++ item) acc =
      acc ++ l.foldl (fun acc item => acc ++ item) [] := by
  induction l generalizing acc with
  | nil => simp
  | cons x l ih => rw [List.foldl_cons, ih, List.foldl_cons, ih ([] ++ x)]; simp

omit [DecidableEq N] [DecidableEq A] in
theorem plain_iff (e : Element N A) (s : Text) :
    Plain e.children s ↔ e.children.all Child.isText = true ∧ e.textContent = s := by
  unfold Element.textContent
  generalize e.children = l
  induction l generalizing s with
  | nil =>
    constructor
    · rintro ⟨⟩; simp
    · rintro ⟨-, rfl⟩; exact .nil
  | cons c l ih =>
    cases c with
    | other v =>
      constructor
      · rintro ⟨⟩
      · simp [Child.isText]
    | text v =>
      cases v with
      | none =>
        have : Plain (.text none :: l) s ↔ Plain l s :=
          ⟨fun h => by cases h; assumption, .none⟩
        rw [this, ih]
        simp only [List.all_cons, Child.isText, Bool.true_and, List.filterMap_cons, Child.content]
      | some v =>
        have : Plain (.text (some v) :: l) s ↔ ∃ s', Plain l s' ∧ s = v ++ s' :=
          ⟨fun h => by cases h with | some _ h => exact ⟨_, h, rfl⟩,
            fun ⟨s', h, e⟩ => e ▸ .some v h⟩
        rw [this]
        simp only [ih, List.all_cons, Child.isText, Bool.true_and, List.filterMap_cons,
          Child.content, List.foldl_cons, List.nil_append]
        rw [foldl_append _ v]
        constructor
        · rintro ⟨s', ⟨h1, h2⟩, rfl⟩
          exact ⟨h1, by rw [h2]⟩
        · rintro ⟨h1, h2⟩
          exact ⟨_, ⟨h1, rfl⟩, h2.symm⟩

omit [DecidableEq N] [DecidableEq A] in
theorem nextText_some (x : Option Text) (e : Element N A) (s : Text) :
    nextText x e = some s ↔ x = some [] ∧ Plain e.children s := by
  rw [plain_iff]
  cases x with
  | none => simp [nextText]
  | some y =>
    simp only [nextText]
    split_ifs with h
    · simp only [Bool.and_eq_true, decide_eq_true_eq] at h
      simp [h.1, h.2]
    · simp only [Bool.and_eq_true, decide_eq_true_eq] at h
      simp only [Option.some.injEq, false_iff]
      exact fun ⟨a, b, _⟩ => h ⟨a, b⟩

omit [DecidableEq N] [DecidableEq A] in
theorem text_last (init : List (Element N A)) :
    init.foldl nextText (some []) = some [] ↔ ∀ e ∈ init, Plain e.children [] := by
  induction init using List.reverseRecOn with
  | nil => simp
  | append_singleton init e ih =>
    rw [List.foldl_append, List.foldl_cons, List.foldl_nil, nextText_some, ih]
    simp only [List.mem_append, List.mem_singleton, or_imp, forall_and, forall_eq]

/-- **C97 (text, violated)**: exactly what is given as the text that the selected elements share: the
text of the last one, if all the others are empty.  Nothing is given unless all hold only
text. -/
theorem text_iff {t : Tables N A K G} {lookup : Nat → Option (Node N A)} {ids : List Nat}
    {init : List (Element N A)} {last : Element N A} (h : Selected lookup ids (init ++ [last]))
    {r : Info N A K G} (hr : info t lookup ids = .found r) (s : Text) :
    r.text = some s ↔ (∀ e ∈ init, Plain e.children []) ∧ Plain last.children s := by
  obtain ⟨st, hs, rfl⟩ := info_found h hr
  simp only [finish]
  rw [hs.text, List.foldl_append, List.foldl_cons, List.foldl_nil, nextText_some, text_last]

/-- **C97 (text of one)**: for a single element the text is right. -/
theorem text_one {t : Tables N A K G} {lookup : Nat → Option (Node N A)} {ids : List Nat}
    {e : Element N A} (h : Selected lookup ids [e])
    {r : Info N A K G} (hr : info t lookup ids = .found r) (s : Text) :
    r.text = some s ↔ Plain e.children s := by
  have := text_iff (init := []) (last := e) h hr s
  simpa using this

theorem plain_unique {l : List Child} {s s' : Text} (h : Plain l s) (h' : Plain l s') : s = s' := by
  induction h generalizing s' with
  | nil => cases h'; rfl
  | none _ ih => cases h' with | none h' => exact ih h'
  | some v _ ih => cases h' with | some _ h' => rw [ih h']

/-- **C97 (same text, violated)**: two or more elements with the same text get no text, unless it is
empty. -/
theorem same_text_violated {t : Tables N A K G} {lookup : Nat → Option (Node N A)} {ids : List Nat}
    {es : List (Element N A)} {s : Text} (h : Selected lookup ids es) (h2 : 2 ≤ es.length)
    (hsame : ∀ e ∈ es, Plain e.children s) (hs : s ≠ [])
    {r : Info N A K G} (hr : info t lookup ids = .found r) : r.text = none := by
  have hne : es ≠ [] := by rintro rfl; simp at h2
  obtain ⟨init, last, rfl⟩ : ∃ init last, es = init ++ [last] :=
    ⟨es.dropLast, es.getLast hne, (List.dropLast_append_getLast hne).symm⟩
  cases ht : r.text with
  | none => rfl
  | some x =>
    obtain ⟨hi, -⟩ := (text_iff h hr x).1 ht
    cases init with
    | nil => simp at h2
    | cons e rest =>
      exact absurd (plain_unique (hsame e (by simp)) (hi e (by simp))) hs

/-- **C97 (other text, violated)**: an empty element selected together with one with text, in this
order, gets the text of the second. -/
theorem other_text_violated {t : Tables N A K G} {lookup : Nat → Option (Node N A)}
    {ids : List Nat} {e e' : Element N A} {s : Text} (h : Selected lookup ids [e, e'])
    (he : Plain e.children []) (he' : Plain e'.children s)
    {r : Info N A K G} (hr : info t lookup ids = .found r) : r.text = some s :=
  (text_iff (init := [e]) (last := e') h hr s).2 ⟨by simpa using he, he'⟩

/-! ## Examples -/

/-- Tables over names that are numbers: element `n` permits the category `n`, the elements `1` to
`n`, and expects the attributes `1` to `n`. -/
def tables : Tables Nat Nat Nat Nat :=
  { categories := fun n k => n == k
    elements := fun n => List.range n
    groups := fun n k => n == k
    attributes := fun n => List.range n }

/-- A small document: two elements with the text `ab`, an empty one, and a comment. -/
def document : Nat → Option (Node Nat Nat)
  | 0 => some (.element ⟨3, [(1, some ['x']), (2, some ['y'])], [.text (some ['a', 'b'])]⟩)
  | 1 => some (.element
      ⟨2, [(2, some ['y']), (1, some ['z'])], [.text (some ['a']), .text (some ['b'])]⟩)
  | 2 => some (.element ⟨3, [(1, none), (2, some ['y'])], []⟩)
  | 3 => some .other
  | _ => none

/-- What is looked at in the examples. -/
def look : Outcome Nat Nat Nat Nat →
    Option (Option Nat × Bool × List Nat × List Nat × List (Nat × Text) × Option Text)
  | .found r => some (r.elementId, r.categories 7, r.elements, r.attributes, r.values, r.text)
  | _ => none

example : look (info tables document [0, 9, 1]) =
    some (none, true, [0, 1], [0, 1], [(2, ['y'])], none) := rfl
example : look (info tables document [0, 0]) =
    some (some 3, true, [0, 1, 2], [0, 1, 2], [(2, ['y']), (1, ['x'])], none) := rfl
example : look (info tables document [1]) =
    some (some 2, true, [0, 1], [0, 1], [(1, ['z']), (2, ['y'])], some ['a', 'b']) := rfl
/-- The attribute that cannot be printed is not looked at behind elements that differ in it. -/
example : look (info tables document [0, 1, 2]) =
    some (none, true, [0, 1], [0, 1], [(2, ['y'])], none) := rfl
example : (match info tables document [0, 2] with | .error => true | _ => false) = true := by
  decide +kernel
example : (match info tables document [0, 3] with | .nothing => true | _ => false) = true := by
  decide +kernel
example : look (info tables document [8]) = some (none, false, [], [], [], some []) := rfl

/-- The hypotheses can be met: two elements with the same text. -/
example : ∃ es, Selected document [0, 9, 1] es ∧ 2 ≤ es.length ∧
    ∀ e ∈ es, Plain e.children ['a', 'b'] := by
  refine ⟨[⟨3, [(1, some ['x']), (2, some ['y'])], [.text (some ['a', 'b'])]⟩,
    ⟨2, [(2, some ['y']), (1, some ['z'])], [.text (some ['a']), .text (some ['b'])]⟩],
    ⟨rfl, by simp⟩, by simp, ?_⟩
  simp only [List.mem_cons, List.not_mem_nil, or_false, forall_eq_or_imp, forall_eq]
  exact ⟨.some ['a', 'b'] .nil, .some ['a'] (.some ['b'] .nil)⟩

end Verif.Shared
