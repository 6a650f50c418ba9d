import Verif.Lint.Lemmas

/-!
# The reports about the whole document
-/

namespace Verif.Lint

open Verif.Names
open Verif.Namespaces (Src Maps)

variable {K : Type} [DecidableEq K]

/-! ## Namespaces -/

/-- **C80 (exactly the unwritten prefixes).** For every document, `no_unused_xmlns` reports a declaration at an
element if and only if the element has that declaration and no name in the element, neither of an element nor of an
attribute, is written with that prefix for that URI. -/
theorem reportNs_iff (V : Vocab K) (doc : List (Node K)) (pos : Nat) (d : Decl) :
    (pos, d) ∈ reportNs V doc ↔
      ∃ e ∈ subsAll doc, e.pos = pos ∧ Declares V e d ∧ ∀ f ∈ subs e, ¬ Writes V d f := by
  have h := (visitAll_spec V doc [] [] trivial (by simp [Clean])).2 (pos, d)
  rw [reportNs, h]
  simp [Reported]

/-- **C80 (each once).** No declaration of an element is reported twice. -/
theorem reportNs_nodup (V : Vocab K) (doc : List (Node K)) (h : ((subsAll doc).map Node.pos).Nodup) :
    (reportNs V doc).Nodup := by
  obtain ⟨l, h1, h2, _⟩ := visitAll_nodup V doc [] [] trivial (by simp [Clean]) h
  rw [reportNs, h1]
  simpa using h2

/-- **C80 (violated: the declaration counts as its own use).** The attribute `xmlns` is itself a name without
prefix in the namespace of SVG. So no document makes the rule report `xmlns="http://www.w3.org/2000/svg"`, even if
every name in it is written with another prefix. -/
theorem svg_default_violated (V : Vocab K) (hx : V.table.pre V.xmlns = .svg) (doc : List (Node K)) (pos : Nat) :
    (pos, ((none, lit "http://www.w3.org/2000/svg") : Decl)) ∉ reportNs V doc := by
  rw [reportNs_iff]
  rintro ⟨e, he, hp, hd, hw⟩
  obtain ⟨a, ha, h | ⟨p, h, _⟩⟩ := hd
  · cases e with
    | other => simp [Node.attrs] at ha
    | elem q n as ks =>
      refine hw (.elem q n as ks) (by simp [subs]) (.inr ⟨a, ha, ?_⟩)
      rw [h.1]
      simp only [Attr.prefix', Attr.name, AttrId.prefix', hx, Prefix.value, StdNs.name, Prefix.ns, NS.uri, StdNs.uri]
      exact ⟨trivial, trivial⟩
  · simp at h

/-! ## Ids -/

theorem fragment_iff {u i : Str} : fragment u = some i ↔ u = 35 :: i := by
  cases u with
  | nil => simp [fragment]
  | cons c r =>
    simp only [fragment]
    split
    · rename_i h; simp [h]
    · rename_i h; simp [h]

theorem idOf_iff (V : Vocab K) (a : Attr K Str) (i : Str) :
    idOf V a = some i ↔ a = .typed V.id i ∨ ∃ p, a = .aliased p (.typed V.id i) := by
  unfold idOf
  split
  · rename_i k v
    split
    · rename_i h; simp [h]
    · rename_i h; simp [h]
  · rename_i p k v
    split
    · rename_i h; simp [h]
    · rename_i h; simp [h]
  · rename_i h1 h2
    simp only [reduceCtorEq, false_iff, not_or, not_exists]
    exact ⟨fun h => h1 _ _ h, fun p h => h2 _ _ _ h⟩

theorem idOf_none (V : Vocab K) (a : Attr K Str) :
    idOf V a = none ↔ (∀ v, a ≠ .typed V.id v) ∧ ∀ p v, a ≠ .aliased p (.typed V.id v) := by
  constructor
  · intro h
    refine ⟨fun v hv => ?_, fun p v hv => ?_⟩
    · rw [(idOf_iff V a v).2 (.inl hv)] at h; cases h
    · rw [(idOf_iff V a v).2 (.inr ⟨p, hv⟩)] at h; cases h
  · rintro ⟨h1, h2⟩
    cases h : idOf V a with
    | none => rfl
    | some i =>
      rcases (idOf_iff V a i).1 h with h3 | ⟨p, h3⟩
      · exact absurd h3 (h1 i)
      · exact absurd h3 (h2 p i)

/-- What the state of the ids knows. -/
structure Knows (s t : Ids) (H R : Str → Prop) : Prop where
  ids : ∀ i, (∃ p, (i, p) ∈ t.ids) ↔ (∃ p, (i, p) ∈ s.ids) ∨ H i
  refs : ∀ i, i ∈ t.refs ↔ i ∈ s.refs ∨ R i
  nodup : (s.ids.map Prod.fst).Nodup → (t.ids.map Prod.fst).Nodup

theorem Knows.trans {s t u : Ids} {H R H' R' : Str → Prop} (a : Knows s t H R) (b : Knows t u H' R') :
    Knows s u (fun i => H i ∨ H' i) (fun i => R i ∨ R' i) :=
  ⟨fun i => by rw [b.ids, a.ids, or_assoc], fun i => by rw [b.refs, a.refs, or_assoc],
    fun h => b.nodup (a.nodup h)⟩

theorem Knows.congr {s t : Ids} {H R H' R' : Str → Prop} (a : Knows s t H R) (h : ∀ i, H i ↔ H' i)
    (r : ∀ i, R i ↔ R' i) : Knows s t H' R' :=
  ⟨fun i => by rw [a.ids, h], fun i => by rw [a.refs, r], a.nodup⟩

theorem Knows.refl (s : Ids) : Knows s s (fun _ => False) (fun _ => False) := ⟨by simp, by simp, id⟩

theorem setId_ids (i j : Str) (pos : Nat) (m : List (Str × Nat)) :
    (∃ p, (j, p) ∈ setId i pos m) ↔ (∃ p, (j, p) ∈ m) ∨ j = i := by
  unfold setId
  by_cases h : j = i
  · subst h
    simp
  · simp [h]

theorem setId_nodup (i : Str) (pos : Nat) (m : List (Str × Nat)) (h : (m.map Prod.fst).Nodup) :
    ((setId i pos m).map Prod.fst).Nodup := by
  unfold setId
  rw [List.map_cons, List.nodup_cons]
  constructor
  · simp
  · exact h.sublist (List.filter_sublist.map _)

theorem idStep_knows (V : Vocab K) (pos : Nat) (s : Ids) (a : Attr K Str) :
    Knows s (idStep V pos s a) (fun i => idOf V a = some i)
      (fun i => idOf V a = none ∧ (i ∈ V.refs a ∨ 35 :: i ∈ V.urls a)) := by
  unfold idStep
  cases h : idOf V a with
  | some j =>
    refine ⟨fun i => ?_, fun i => by simp, fun hn => setId_nodup _ _ _ hn⟩
    simp only [setId_ids, Option.some.injEq, eq_comm]
  | none =>
    refine ⟨fun i => by simp, fun i => ?_, id⟩
    simp only [List.mem_append, List.mem_filterMap, fragment_iff, true_and]
    rw [or_assoc]
    refine or_congr_right (or_congr_right ?_)
    constructor
    · rintro ⟨u, hu, rfl⟩; exact hu
    · intro h; exact ⟨_, h, rfl⟩

theorem idSteps_knows (V : Vocab K) (pos : Nat) : ∀ (as : List (Attr K Str)) (s : Ids),
    Knows s (as.foldl (idStep V pos) s) (fun i => ∃ a ∈ as, idOf V a = some i)
      (fun i => ∃ a ∈ as, idOf V a = none ∧ (i ∈ V.refs a ∨ 35 :: i ∈ V.urls a))
  | [], s => (Knows.refl s).congr (by simp) (by simp)
  | a :: as, s =>
    ((idStep_knows V pos s a).trans (idSteps_knows V pos as _)).congr (by intro i; simp) (by intro i; simp)

theorem idSteps_knows' (V : Vocab K) (pos : Nat) (name : Prefix) (as : List (Attr K Str)) (ks : List (Node K)) (s : Ids) :
    Knows s (as.foldl (idStep V pos) s) (fun i => HasId V i (.elem pos name as ks))
      (fun i => RefersTo V i (.elem pos name as ks)) := by
  refine (idSteps_knows V pos as s).congr (fun i => ?_) (fun i => ?_)
  · simp only [idOf_iff, HasId, Node.attrs]
    constructor
    · rintro ⟨a, ha, rfl | ⟨p, rfl⟩⟩
      · exact .inl ha
      · exact .inr ⟨p, ha⟩
    · rintro (h | ⟨p, h⟩)
      · exact ⟨_, h, .inl rfl⟩
      · exact ⟨_, h, .inr ⟨p, rfl⟩⟩
  · simp only [idOf_none, RefersTo, Node.attrs, and_assoc]

mutual
theorem trackIds_knows (V : Vocab K) : ∀ (n : Node K) (s : Ids),
    Knows s (trackIds V s n) (fun i => ∃ e ∈ subs n, HasId V i e) (fun i => ∃ e ∈ subs n, RefersTo V i e)
  | .other, s => by
    unfold trackIds
    exact (Knows.refl s).congr (by simp [subs]) (by simp [subs])
  | .elem pos name as ks, s => by
    rw [trackIds]
    exact ((idSteps_knows' V pos name as ks s).trans (trackIdsAll_knows V ks _)).congr (by intro i; simp [subs])
      (by intro i; simp [subs])
theorem trackIdsAll_knows (V : Vocab K) : ∀ (ns : List (Node K)) (s : Ids),
    Knows s (trackIdsAll V s ns) (fun i => ∃ e ∈ subsAll ns, HasId V i e)
      (fun i => ∃ e ∈ subsAll ns, RefersTo V i e)
  | [], s => by
    unfold trackIdsAll
    exact (Knows.refl s).congr (by simp [subsAll]) (by simp [subsAll])
  | n :: ns, s => by
    rw [trackIdsAll]
    exact ((trackIds_knows V n s).trans (trackIdsAll_knows V ns _)).congr
      (by intro i; simp [subsAll, or_and_right, exists_or]) (by intro i; simp [subsAll, or_and_right, exists_or])
end

/-- **C80 (exactly the ids without reference).** For every document and style sheets, `no_unused_ids` reports an id
if and only if the document has no scripts, an element has the id, no other attribute refers to it by id or by a
URL `#id`, and no URL in a style sheet does. -/
theorem reportIds_iff (V : Vocab K) (scripts : Bool) (sheets : List Sheet) (doc : List (Node K)) (i : Str) :
    i ∈ reportIds V scripts sheets doc ↔
      scripts = false ∧ (∃ e ∈ subsAll doc, HasId V i e) ∧ (∀ e ∈ subsAll doc, ¬ RefersTo V i e) ∧
        ∀ s ∈ sheets, 35 :: i ∉ s.urls := by
  unfold reportIds
  cases scripts with
  | true => simp
  | false =>
    have k := trackIdsAll_knows V doc ⟨[], sheets.flatMap fun s => s.urls.filterMap fragment⟩
    have h1 := k.ids i
    have h2 := k.refs i
    simp only [List.not_mem_nil, exists_false, false_or, List.mem_flatMap, List.mem_filterMap, fragment_iff] at h1 h2
    simp only [Bool.false_eq_true, if_false, List.mem_map, List.mem_filter, decide_eq_true_eq, true_and]
    constructor
    · rintro ⟨⟨j, p⟩, ⟨hj, hr⟩, rfl⟩
      simp only at h1 h2 hr
      rw [h2, not_or] at hr
      refine ⟨h1.1 ⟨p, hj⟩, fun e he hre => hr.2 ⟨e, he, hre⟩, fun s hs hu => hr.1 ⟨s, hs, _, hu, rfl⟩⟩
    · rintro ⟨h3, h4, h5⟩
      obtain ⟨p, hp⟩ := h1.2 h3
      refine ⟨(i, p), ⟨hp, ?_⟩, rfl⟩
      simp only
      rw [h2, not_or]
      refine ⟨?_, fun ⟨e, he, hre⟩ => h4 e he hre⟩
      rintro ⟨s, hs, u, hu, rfl⟩
      exact h5 s hs hu

/-- **C80 (each once).** No id is reported twice, however many elements have it. -/
theorem reportIds_nodup (V : Vocab K) (scripts : Bool) (sheets : List Sheet) (doc : List (Node K)) :
    (reportIds V scripts sheets doc).Nodup := by
  unfold reportIds
  split
  · exact List.nodup_nil
  · have k := (trackIdsAll_knows V doc ⟨[], sheets.flatMap fun s => s.urls.filterMap fragment⟩).nodup List.nodup_nil
    exact k.sublist (List.filter_sublist.map _)

/-- **C80 (violated: selectors do not count).** The ids in selectors of style sheets are not looked at: an id that
a rule selects, and nothing else refers to, is reported as not referenced anywhere. -/
theorem selector_violated (V : Vocab K) (sheets : List Sheet) (doc : List (Node K)) (i : Str)
    (he : ∃ e ∈ subsAll doc, HasId V i e) (hr : ∀ e ∈ subsAll doc, ¬ RefersTo V i e)
    (hu : ∀ s ∈ sheets, 35 :: i ∉ s.urls) (_hs : ∃ s ∈ sheets, i ∈ s.selectors) :
    i ∈ reportIds V false sheets doc :=
  (reportIds_iff V false sheets doc i).2 ⟨rfl, he, hr, hu⟩

/-! ## Default values -/

/-- **C80 (when a default value can be omitted).** An attribute that `no_default_attributes` reports can be left
out without changing the value that applies to any element if and only if the property is not inherited or the
default already applies to the parent. -/
theorem default_iff {W : Type} [DecidableEq W] (inherited : Bool) (dflt parent : W) (own : Option W)
    (kids : List (Styled W)) (h : reportsDefault dflt own = true) :
    applied inherited dflt parent (.elem own kids) = applied inherited dflt parent (.elem none kids) ↔
      inherited = false ∨ parent = dflt := by
  have h' : own = some dflt := by simpa [reportsDefault] using h
  subst h'
  simp only [applied, Option.getD_some, Option.getD_none]
  cases inherited with
  | false => simp
  | true =>
    simp only [if_true, Bool.true_eq_false, false_or]
    constructor
    · intro h
      exact (List.cons.inj h).1.symm
    · rintro rfl
      rfl

/-! ## The declarations of the source -/

theorem new_value (u : Str) (p : Option Str) : (Prefix.new u p).value = p := by
  unfold Prefix.new
  split
  · rename_i s h
    have := List.find?_some h
    simp only [Bool.and_eq_true, beq_iff_eq] at this
    exact this.2
  · split
    · rfl
    · split
      · rename_i h
        simp only [Bool.and_eq_true, beq_iff_eq] at h
        rw [h.2]
        rfl
      · rfl

theorem start_uri {u : Str} (hu : u ≠ StdNs.uri .xml) :
    (Maps.start (lit "xml") (StdNs.uri .xml)).uriToPrefix u = none := by
  simp [Maps.start, Maps.insert, hu]

theorem start_prefix {p : Option Str} (hp : p ≠ some (lit "xml")) :
    (Maps.start (lit "xml") (StdNs.uri .xml)).prefixToUri p = none := by
  simp [Maps.start, Maps.insert, hp]

/-- **C80 (violated: the prefix of the element that declares it).** A prefix that an element declares for its own
name is reported as unused, if no other name in the element has it: the reader gives the element its prefix before
it looks at the declarations. Without the declaration the document is not well-formed. -/
theorem own_prefix_violated (V : Vocab K) (attr : Prefix → Str → Attr K Str)
    (hattr : ∀ q m, ((attr q m).prefix' V.table).value = q.value) (p u l : Str) (attrs : List Str)
    (hp : p ≠ lit "xml") (hp' : p ≠ lit "xmlns") (hu : u ≠ StdNs.uri .xml) :
    (0, ((some p, u) : Decl)) ∈
      reportNs V (read V attr [.elem [(some p, u)] (some u, l) (attrs.map fun a => (none, a)) false []]) := by
  have h1 : (Maps.start (lit "xml") (StdNs.uri .xml)).prefixToUri (some p) = none := start_prefix (by simpa using hp)
  have h2 : (Maps.start (lit "xml") (StdNs.uri .xml)).prefixToUri none = none := start_prefix (by simp)
  have h3 := start_uri hu
  rw [reportNs_iff, read, readAll, readNode]
  simp only [Namespaces.scanAll, Namespaces.inScope, List.filter_nil, List.append_nil, List.foldl_cons,
    List.foldl_nil, Namespaces.scan, h1, reduceCtorEq, if_false, h2, ne_eq, not_false_eq_true, if_true,
    Namespaces.Scan.put, List.nil_append, Bool.false_eq_true, List.map_cons, List.map_nil, xmlnsAttr]
  refine ⟨_, by rw [subsAll, subs]; exact List.mem_append_left _ (List.mem_cons_self ..), rfl, ?_, ?_⟩
  · exact ⟨_, List.mem_cons_self .., .inr ⟨p, rfl, rfl⟩⟩
  · intro f hf
    simp only [subs, readAll, subsAll, List.mem_cons, List.not_mem_nil, or_false] at hf
    subst hf
    rintro (⟨h, _⟩ | ⟨a, ha, h, _⟩)
    · simp [prefixOf, new_value, Maps.getByUri, h3] at h
    · simp only [List.singleton_append, List.mem_cons, List.mem_map] at ha
      rcases ha with rfl | ⟨b, ⟨c, _, rfl⟩, rfl⟩
      · simp only [Attr.prefix', AttrId.prefix', Prefix.value, StdNs.name, Option.some.injEq] at h
        exact hp' h.symm
      · rw [hattr] at h
        simp [prefixOf, new_value, Maps.getByUri] at h

/-- **C80 (violated: two prefixes for one namespace).** If an element declares two prefixes for the same namespace,
the first is reported as unused, whichever of the two the attributes of the element have in the source: the reader
gives all of them the second. -/
theorem second_prefix_violated (V : Vocab K) (attr : Prefix → Str → Attr K Str)
    (hattr : ∀ q m, ((attr q m).prefix' V.table).value = q.value) (p q u l : Str)
    (attrs : List (Option Str × Str)) (ha : ∀ a ∈ attrs, a.1 = none ∨ a.1 = some u)
    (hp : p ≠ lit "xml") (hq : q ≠ lit "xml") (hp' : p ≠ lit "xmlns") (hpq : p ≠ q) :
    (0, ((some p, u) : Decl)) ∈
      reportNs V (read V attr [.elem [(some p, u), (some q, u)] (none, l) attrs false []]) := by
  have h1 : (Maps.start (lit "xml") (StdNs.uri .xml)).prefixToUri (some p) = none := start_prefix (by simpa using hp)
  have h2 : (Maps.start (lit "xml") (StdNs.uri .xml)).prefixToUri none = none := start_prefix (by simp)
  have h4 : (Maps.start (lit "xml") (StdNs.uri .xml)).prefixToUri (some q) = none := start_prefix (by simpa using hq)
  have hqp : ¬ (some q = some p) := by simpa using fun h => hpq h.symm
  have hn : ¬ ((none : Option Str) = some p) := by simp
  rw [reportNs_iff, read, readAll, readNode]
  simp only [Namespaces.scanAll, Namespaces.inScope, List.filter_nil, List.append_nil, List.foldl_cons,
    List.foldl_nil, Namespaces.scan, h1, reduceCtorEq, if_false, h2, ne_eq, not_false_eq_true, if_true,
    Namespaces.Scan.put, List.nil_append, Bool.false_eq_true, List.map_cons, List.map_nil, xmlnsAttr,
    Maps.insert, hqp, h4, List.cons_append]
  refine ⟨_, by rw [subsAll, subs]; exact List.mem_append_left _ (List.mem_cons_self ..), rfl, ?_, ?_⟩
  · exact ⟨_, List.mem_cons_self .., .inr ⟨p, rfl, rfl⟩⟩
  · intro f hf
    simp only [subs, readAll, subsAll, List.mem_cons, List.not_mem_nil, or_false] at hf
    subst hf
    rintro (⟨h, _⟩ | ⟨a, hm, h, _⟩)
    · simp [prefixOf, new_value, Maps.getByUri] at h
    · simp only [List.mem_cons, List.mem_map] at hm
      rcases hm with rfl | rfl | ⟨b, hb, rfl⟩
      · simp only [Attr.prefix', AttrId.prefix', Prefix.value, StdNs.name, Option.some.injEq] at h
        exact hp' h.symm
      · simp only [Attr.prefix', AttrId.prefix', Prefix.value, StdNs.name, Option.some.injEq] at h
        exact hp' h.symm
      · rw [hattr] at h
        simp only [prefixOf, new_value, Maps.getByUri] at h
        rcases ha b hb with h5 | h5
        · simp [h5] at h
        · simp [h5] at h
          exact hpq h.symm

end Verif.Lint
