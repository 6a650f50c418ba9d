import Verif.PrefixIds.Model

/-!
# Properties of prefixing
-/

namespace Verif.PrefixIds

variable {o : Options} {path : Option (List (List Char))} {d : List El} {p x y : List Char}

/-! ## Names -/

theorem prefixId_of (h : p <+: x) : prefixId p x = x := by
  rw [prefixId, if_pos (List.isPrefixOf_iff_prefix.mpr h)]

theorem prefixId_not (h : ¬ p <+: x) : prefixId p x = p ++ x := by
  rw [prefixId, if_neg (fun hp => h (List.isPrefixOf_iff_prefix.mp hp))]

/-- **C14 (shape)** A name gets the prefix in front unless it already begins with it; afterwards it always begins with it,
and doing it twice is doing it once. -/
theorem prefixId_spec (p x : List Char) : (prefixId p x = if p <+: x then x else p ++ x) ∧ p <+: prefixId p x ∧
    prefixId p (prefixId p x) = prefixId p x := by
  by_cases h : p <+: x
  · rw [prefixId_of h, if_pos h]; exact ⟨rfl, h, prefixId_of h⟩
  · rw [prefixId_not h, if_neg h]; exact ⟨rfl, ⟨x, rfl⟩, prefixId_of ⟨x, rfl⟩⟩

/-- **C14 (distinct, exact)** Two different names become the same exactly when one of them is the prefix followed by the
other one, which does not begin with the prefix itself. -/
theorem collide_iff : prefixId p x = prefixId p y ↔ x = y ∨ (y = p ++ x ∧ ¬ p <+: x) ∨ (x = p ++ y ∧ ¬ p <+: y) := by
  by_cases hx : p <+: x <;> by_cases hy : p <+: y
  · rw [prefixId_of hx, prefixId_of hy]; simp [hx, hy]
  · rw [prefixId_of hx, prefixId_not hy]
    constructor
    · intro h; exact .inr (.inr ⟨h, hy⟩)
    · rintro (rfl | ⟨_, h⟩ | ⟨h, _⟩)
      · exact absurd hx hy
      · exact absurd hx h
      · exact h
  · rw [prefixId_not hx, prefixId_of hy]
    constructor
    · intro h; exact .inr (.inl ⟨h.symm, hx⟩)
    · rintro (rfl | ⟨h, _⟩ | ⟨_, h⟩)
      · exact absurd hy hx
      · exact h.symm
      · exact absurd hy h
  · rw [prefixId_not hx, prefixId_not hy, List.append_cancel_left_eq]
    constructor
    · exact .inl
    · rintro (h | ⟨h, _⟩ | ⟨h, _⟩)
      · exact h
      · exact absurd ⟨x, h.symm⟩ hy
      · exact absurd ⟨y, h.symm⟩ hx

/-- **C14 (violated: distinct)** The ids `x` and `prefix__x` of two elements become one id. -/
theorem distinct_violated : "x".toList ≠ "prefix__x".toList ∧
    prefixId (generate .standard none) "x".toList = prefixId (generate .standard none) "prefix__x".toList := by
  decide +kernel

/-- **C14 (addresses)** An address that is a local fragment gets the prefix behind the `#` (once); every other address is
left alone. -/
theorem prefixReference_spec (p : List Char) : (∀ r, prefixReference p ('#' :: r) = '#' :: prefixId p r) ∧
    (∀ u, u.head? ≠ some '#' → prefixReference p u = u) ∧
    ∀ u, prefixReference p (prefixReference p u) = prefixReference p u := by
  have h1 : ∀ r, prefixReference p ('#' :: r) = '#' :: prefixId p r := by
    intro r
    simp only [prefixReference, prefixId]
    split <;> rfl
  have h2 : ∀ u, u.head? ≠ some '#' → prefixReference p u = u := by
    intro u hu
    unfold prefixReference
    split
    · simp at hu
    · rfl
  refine ⟨h1, h2, fun u => ?_⟩
  by_cases hu : u.head? = some '#'
  · cases u with
    | nil => cases hu
    | cons c r =>
      simp only [List.head?_cons, Option.some.injEq] at hu
      subst hu
      rw [h1, h1, (prefixId_spec p r).2.2]
  · rw [h2 u hu, h2 u hu]

/-! ## Documents -/

/-- **C14 (twice is once)** For every document, all options and every path. -/
theorem job_idempotent (o : Options) (path : Option (List (List Char))) (d : List El) :
    job o path (job o path d) = job o path d := by
  have ha : ∀ p r, inAttribute o p (inAttribute o p r) = inAttribute o p r := by
    rintro p ⟨k, t⟩
    cases k <;> by_cases hi : o.ids = true <;> by_cases hc : o.classes = true <;>
      simp [inAttribute, hi, hc, (prefixId_spec p t).2.2, (prefixReference_spec p).2.2]
  have hs : ∀ p r, inSheet o p (inSheet o p r) = inSheet o p r := by
    rintro p ⟨k, t⟩
    cases k <;> by_cases hi : o.ids = true <;> by_cases hc : o.classes = true <;>
      simp [inSheet, hi, hc, (prefixId_spec p t).2.2, (prefixReference_spec p).2.2]
  have he : ∀ p e, element o p (element o p e) = element o p e := by
    intro p e
    by_cases h : (e.isStyle && e.isEmpty) = true
    · simp only [element, h, if_true]
    · simp only [element, if_neg h, Bool.false_eq_true]
      congr 1
      · by_cases hst : e.isStyle = true
        · simp only [hst, if_true, List.map_map]
          congr 1
          funext r; exact hs p r
        · simp [hst]
      · simp only [List.map_map]
        congr 1
        funext a
        simp only [Function.comp, List.map_map]
        congr 1
        funext r; exact ha p r
  unfold job
  by_cases h : (!o.ids && !o.classes) = true
  · simp [h]
  · rw [if_neg h, if_neg h, List.map_map]
    congr 1
    funext e; exact he _ e

/-- A place in a document: the `m`-th thing in the `j`-th attribute of the `k`-th element, or in its style sheets. -/
inductive Place where
  | attr (k j m : Nat)
  | sheet (k m : Nat)

/-- What stands at a place. -/
def at? (d : List El) : Place → Option Ref
  | .attr k j m => d[k]?.bind fun e => e.attrs[j]?.bind fun a => a[m]?
  | .sheet k m => d[k]?.bind fun e => e.css[m]?

/-- Only `style` elements have style sheets, and no `style` element is empty. -/
def Proper (d : List El) : Prop := ∀ e ∈ d, (e.isStyle = false → e.css = []) ∧ ¬ (e.isStyle = true ∧ e.isEmpty = true)

/-- What follows a leading `#`. -/
def fragment : List Char → Option (List Char)
  | '#' :: r => some r
  | _ => none

/-- The id that is named at a place: ids, references to ids and id selectors name themselves, addresses name their
fragment, classes name no id. -/
def names (r : Ref) : Option (List Char) :=
  match r.kind with
  | .id => some r.text
  | .cls => none
  | .url => fragment r.text

theorem fragment_prefix (p u : List Char) : fragment (prefixReference p u) = (fragment u).map (prefixId p) := by
  cases u with
  | nil => rfl
  | cons c r =>
    by_cases hc : c = '#'
    · subst hc; rw [(prefixReference_spec p).1]; rfl
    · rw [(prefixReference_spec p).2.1 _ (by simpa using hc)]
      have : fragment (c :: r) = none := by
        unfold fragment; split
        · next h => simp at h; exact absurd h.1 hc
        · rfl
      rw [this]; rfl

theorem names_attr (h : o.ids = true) (p : List Char) (r : Ref) : names (inAttribute o p r) = (names r).map (prefixId p) := by
  obtain ⟨k, t⟩ := r
  cases k
  · simp only [inAttribute, h, if_true, names, Option.map_some]
  · simp only [inAttribute]; split <;> rfl
  · simp only [inAttribute, names, fragment_prefix]

theorem names_sheet (h : o.ids = true) (p : List Char) (r : Ref) : names (inSheet o p r) = (names r).map (prefixId p) := by
  obtain ⟨k, t⟩ := r
  cases k
  · simp only [inSheet, h, if_true, names, Option.map_some]
  · simp only [inSheet]; split <;> rfl
  · simp only [inSheet, h, if_true, names, fragment_prefix]

theorem at_job (hd : Proper d) (ho : (o.ids || o.classes) = true) (pl : Place) :
    at? (job o path d) pl = (at? d pl).map fun r => match pl with
      | .attr .. => inAttribute o (generate o path) r
      | .sheet .. => inSheet o (generate o path) r := by
  have hj : job o path d = d.map (element o (generate o path)) := by
    unfold job
    rw [if_neg]
    intro h
    simp only [Bool.and_eq_true, Bool.not_eq_true'] at h
    rw [h.1, h.2] at ho
    cases ho
  rw [hj]
  cases pl with
  | attr k j m =>
    simp only [at?, List.getElem?_map]
    cases hk : d[k]? with
    | none => rfl
    | some e =>
      have hp := (hd e (List.mem_of_getElem? hk)).2
      have : ¬ (e.isStyle && e.isEmpty) = true := by simpa using hp
      simp only [Option.map_some, Option.bind_some, element, if_neg this, List.getElem?_map]
      cases e.attrs[j]? with
      | none => rfl
      | some a => simp
  | sheet k m =>
    simp only [at?, List.getElem?_map]
    cases hk : d[k]? with
    | none => rfl
    | some e =>
      have hp := hd e (List.mem_of_getElem? hk)
      have : ¬ (e.isStyle && e.isEmpty) = true := by simpa using hp.2
      simp only [Option.map_some, Option.bind_some, element, if_neg this]
      by_cases hs : e.isStyle = true
      · simp [hs]
      · have := hp.1 (by simpa using hs)
        simp [hs, this]

/-- **C14 (references follow, partial)** When ids are prefixed, then in a document without empty `style` elements every place
(id, reference to an id, address, selector) that named `n` names `n` with the prefix; so every reference to an id still
names that id. A reference to an id newly names another one only if the two ids collide. What is missing: empty `style`
elements, and the option that prefixes class names only. -/
theorem follow_partial (ho : o.ids = true) (hd : Proper d) (pl : Place) :
    ((at? (job o path d) pl).bind names = ((at? d pl).bind names).map (prefixId (generate o path))) ∧
    ∀ pl' : Place, ((at? d pl').bind names).isSome → ((at? d pl).bind names).isSome →
      ((at? (job o path d) pl').bind names = (at? (job o path d) pl).bind names ↔
        (at? d pl').bind names = (at? d pl).bind names ∨
        ∃ x y, (at? d pl').bind names = some x ∧ (at? d pl).bind names = some y ∧
          ((y = generate o path ++ x ∧ ¬ generate o path <+: x) ∨ (x = generate o path ++ y ∧ ¬ generate o path <+: y))) := by
  have key : ∀ pl, (at? (job o path d) pl).bind names = ((at? d pl).bind names).map (prefixId (generate o path)) := by
    intro pl
    rw [at_job hd (by simp [ho])]
    cases h : at? d pl with
    | none => rfl
    | some r =>
      cases pl with
      | attr => exact names_attr ho _ r
      | sheet => exact names_sheet ho _ r
  refine ⟨key pl, fun pl' h1 h2 => ?_⟩
  rw [key, key]
  obtain ⟨x, hx⟩ := Option.isSome_iff_exists.mp h1
  obtain ⟨y, hy⟩ := Option.isSome_iff_exists.mp h2
  rw [hx, hy]
  simp only [Option.map_some, Option.some.injEq, collide_iff]
  constructor
  · rintro (h | h)
    · exact .inl h
    · exact .inr ⟨x, y, rfl, rfl, h⟩
  · rintro (h | ⟨_, _, rfl, rfl, h⟩)
    · exact .inl h
    · exact .inr h

/-- **C14 (classes)** When class names are prefixed, then in a document without empty `style` elements every class and
every class selector gets the prefix; otherwise they stay. -/
theorem classes_follow (hd : Proper d) (ho : (o.ids || o.classes) = true) (pl : Place) {t : List Char}
    (h : at? d pl = some ⟨.cls, t⟩) :
    at? (job o path d) pl = some ⟨.cls, if o.classes then prefixId (generate o path) t else t⟩ := by
  rw [at_job hd ho, h]
  cases pl <;>
  · simp only [Option.map_some, inAttribute, inSheet]
    split <;> rfl

/-- **C14 (rest)** Addresses that are not local fragments stay as they are, with all options. -/
theorem remote_untouched (pl : Place) {t : List Char} (h : at? d pl = some ⟨.url, t⟩) (ht : t.head? ≠ some '#') :
    at? (job o path d) pl = some ⟨.url, t⟩ := by
  have h2 := (prefixReference_spec (generate o path)).2.1 t ht
  have ha : inAttribute o (generate o path) ⟨.url, t⟩ = ⟨.url, t⟩ := by simp [inAttribute, h2]
  have hs : inSheet o (generate o path) ⟨.url, t⟩ = ⟨.url, t⟩ := by simp only [inSheet]; split <;> simp [h2]
  unfold job
  split
  · exact h
  · cases pl with
    | attr k j m =>
      simp only [at?, List.getElem?_map] at h ⊢
      cases hk : d[k]? with
      | none => rw [hk] at h; cases h
      | some e =>
        rw [hk] at h
        simp only [Option.bind_some, Option.map_some, element] at h ⊢
        split
        · exact h
        · simp only [List.getElem?_map]
          cases hj : e.attrs[j]? with
          | none => rw [hj] at h; cases h
          | some a =>
            rw [hj] at h
            simp only [Option.bind_some, Option.map_some, List.getElem?_map] at h ⊢
            rw [h, Option.map_some, ha]
    | sheet k m =>
      simp only [at?, List.getElem?_map] at h ⊢
      cases hk : d[k]? with
      | none => rw [hk] at h; cases h
      | some e =>
        rw [hk] at h
        simp only [Option.bind_some, Option.map_some, element] at h ⊢
        split
        · exact h
        · split
          · simp only [List.getElem?_map]
            rw [h, Option.map_some, hs]
          · exact h

/-- **C14 (violated: class names only)** With the option to prefix class names but not ids, addresses in attributes are
prefixed all the same, and no longer name the id. -/
theorem classes_only_violated :
    let o : Options := ⟨"__".toList, .standard, false, true⟩
    let d : List El := [⟨false, true, [], [[⟨.id, "a".toList⟩]]⟩, ⟨false, true, [], [[⟨.url, "#a".toList⟩]]⟩]
    (at? d (.attr 1 0 0)).bind names = (at? d (.attr 0 0 0)).bind names ∧
    (at? (job o none d) (.attr 1 0 0)).bind names ≠ (at? (job o none d) (.attr 0 0 0)).bind names := by
  decide +kernel

/-- **C14 (violated: empty style elements)** The id of an empty `style` element stays, references to it change. -/
theorem empty_style_violated :
    let d : List El := [⟨true, true, [], [[⟨.id, "a".toList⟩]]⟩, ⟨false, true, [], [[⟨.url, "#a".toList⟩]]⟩]
    (at? d (.attr 1 0 0)).bind names = (at? d (.attr 0 0 0)).bind names ∧
    (at? (job .standard none d) (.attr 1 0 0)).bind names ≠ (at? (job .standard none d) (.attr 0 0 0)).bind names := by
  decide +kernel

/-- **C14 (violated: the whole document)** The address `#`, which names the document itself, becomes the address of an id. -/
theorem whole_document_violated : prefixReference (generate .standard none) "#".toList = "#prefix__".toList := by decide +kernel

/-! ## The prefix itself -/

/-- **C37** The prefix that is generated: the given text and the delimiter; nothing; or, by default, the first component of
the path (points and spaces replaced) and the delimiter, or `prefix` and the delimiter when there is no path. -/
theorem generate_spec (o : Options) (path : Option (List (List Char))) :
    (∀ s, o.generator = .given s → generate o path = s ++ o.delim) ∧ (o.generator = .off → generate o path = []) ∧
    (o.generator = .standard → ∀ name rest, path = some (name :: rest) →
      ∃ n, generate o path = n ++ o.delim ∧ n.length = name.length ∧ '.' ∉ n ∧ ' ' ∉ n ∧
        ∀ (i : Nat) (c : Char), name[i]? = some c → n[i]? = some c ∨ (n[i]? = some '_' ∧ (c = '.' ∨ c = ' '))) ∧
    (o.generator = .standard → path = none → generate o path = "prefix".toList ++ o.delim) := by
  refine ⟨?_, ?_, ?_, ?_⟩
  · intro s h; simp [generate, h]
  · intro h; simp [generate, h]
  · intro h name rest hp
    refine ⟨underscores name, by simp [generate, h, hp, standardPrefix, basename, pathPrefix], by simp [underscores], ?_, ?_, ?_⟩
    · intro hm
      simp only [underscores, List.mem_map] at hm
      obtain ⟨c, _, hc⟩ := hm
      split at hc
      · cases hc
      · next h => exact h (.inl hc)
    · intro hm
      simp only [underscores, List.mem_map] at hm
      obtain ⟨c, _, hc⟩ := hm
      split at hc
      · cases hc
      · next h => exact h (.inr hc)
    · intro i c hc
      simp only [underscores, List.getElem?_map, hc, Option.map_some]
      split
      · next h => exact .inr ⟨rfl, h⟩
      · exact .inl rfl
  · intro h hp; simp [generate, h, hp, standardPrefix]

/-- **C37 (violated)** The default prefix is not made of the file name: all files below one directory get the same one. -/
theorem generate_violated (dir a b : List Char) (o : Options) (h : o.generator = .standard) :
    generate o (some [dir, a]) = generate o (some [dir, b]) := by
  simp [generate, h, standardPrefix, basename]

/-- With the prefix turned off nothing changes. -/
theorem off_unchanged (h : o.generator = .off) : job o path d = d := by
  have hg : generate o path = [] := by simp [generate, h]
  have hp : ∀ x, prefixId [] x = x := fun x => prefixId_of (List.nil_prefix)
  have hr : ∀ u, prefixReference [] u = u := by
    intro u
    by_cases hu : u.head? = some '#'
    · cases u with
      | nil => cases hu
      | cons c r =>
        simp only [List.head?_cons, Option.some.injEq] at hu
        subst hu
        rw [(prefixReference_spec []).1, hp]
    · exact (prefixReference_spec []).2.1 u hu
  have ha : ∀ r, inAttribute o [] r = r := by
    rintro ⟨k, t⟩; cases k <;> simp [inAttribute, hp, hr]
  have hs : ∀ r, inSheet o [] r = r := by
    rintro ⟨k, t⟩; cases k <;> simp [inSheet, hp, hr]
  unfold job
  split
  · rfl
  · rw [hg]
    conv => rhs; rw [← List.map_id d]
    apply List.map_congr_left
    intro e _
    unfold element
    split
    · rfl
    · have : (fun r => inAttribute o [] r) = id := funext ha
      have h2 : inAttribute o [] = id := funext ha
      have h3 : inSheet o [] = id := funext hs
      obtain ⟨a, b, c, e⟩ := e
      simp only [h2, h3, List.map_id, id]
      congr 1
      · split <;> rfl
      · conv => rhs; rw [← List.map_id e]
        apply List.map_congr_left
        intro r _; rfl

/-! ## Examples -/

example : prefixId "p__".toList "a".toList = "p__a".toList ∧ prefixId "p__".toList "p__a".toList = "p__a".toList := by decide +kernel
example : prefixReference "p__".toList "#a".toList = "#p__a".toList ∧
    prefixReference "p__".toList "a.svg#a".toList = "a.svg#a".toList := by decide +kernel
example : generate .standard (some ["my file.svg".toList]) = "my_file_svg__".toList := by decide +kernel
example : generate .standard (some ["icons".toList, "a.svg".toList]) = "icons__".toList := by decide +kernel

/-- A document with an id, two references and a style sheet. -/
def sample : List El :=
  [⟨true, false, [⟨.id, "a".toList⟩, ⟨.cls, "c".toList⟩, ⟨.url, "#a".toList⟩], []⟩,
   ⟨false, true, [], [[⟨.id, "a".toList⟩], [⟨.cls, "c".toList⟩, ⟨.cls, "d".toList⟩]]⟩,
   ⟨false, true, [], [[⟨.url, "#a".toList⟩], [⟨.id, "a".toList⟩]]⟩]

example : Proper sample := by
  intro e he
  simp only [sample, List.mem_cons, List.not_mem_nil, or_false] at he
  rcases he with rfl | rfl | rfl <;> simp

example : job .standard none sample =
  [⟨true, false, [⟨.id, "prefix__a".toList⟩, ⟨.cls, "prefix__c".toList⟩, ⟨.url, "#prefix__a".toList⟩], []⟩,
   ⟨false, true, [], [[⟨.id, "prefix__a".toList⟩], [⟨.cls, "prefix__c".toList⟩, ⟨.cls, "prefix__d".toList⟩]]⟩,
   ⟨false, true, [], [[⟨.url, "#prefix__a".toList⟩], [⟨.id, "prefix__a".toList⟩]]⟩] := by decide +kernel

example : ((at? sample (.attr 2 0 0)).bind names).isSome ∧ ((at? sample (.attr 1 0 0)).bind names).isSome ∧
    at? sample (.sheet 0 1) = some ⟨.cls, "c".toList⟩ := by decide +kernel

end Verif.PrefixIds
