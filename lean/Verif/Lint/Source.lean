import Verif.Lint.Props
import Verif.Names.Props

/-!
# Reports for documents with the usual declarations

The element at the root has all declarations, with different prefixes and different URIs, and has no prefix itself.
-/

namespace Verif.Lint

open Verif.Names
open Verif.Namespaces (Src Maps)

variable {K : Type} [DecidableEq K]

/-- The declarations have different prefixes and different URIs; none is empty or is about `xml`. -/
structure Usual (decls : List (Option Str × Str)) : Prop where
  prefixes : (decls.map Prod.fst).Nodup
  uris : (decls.map Prod.snd).Nodup
  apart : ∀ d ∈ decls, d.2 ≠ [] ∧ d.2 ≠ StdNs.uri .xml ∧ d.1 ≠ some (lit "xml") ∧ d.1 ≠ some (lit "xmlns")

mutual
/-- No element has declarations. -/
def NoDecls : Src Str Str Str → Prop
  | .elem decls _ _ _ kids => decls = [] ∧ NoDeclsAll kids
  | .other => True
def NoDeclsAll : List (Src Str Str Str) → Prop
  | [] => True
  | k :: ks => NoDecls k ∧ NoDeclsAll ks
end

mutual
/-- The namespaces of the elements and attributes of the source; nothing below a style sheet has a name. -/
def spaces : Src Str Str Str → List (Option Str)
  | .elem _ name attrs style kids => name.1 :: attrs.map Prod.fst ++ if style then [] else spacesAll kids
  | .other => []
def spacesAll : List (Src Str Str Str) → List (Option Str)
  | [] => []
  | k :: ks => spaces k ++ spacesAll ks
end

/-- The maps know the declarations. -/
def Fits (decls : List (Option Str × Str)) (m : Maps Str Str) : Prop :=
  ∀ d ∈ decls, m.prefixToUri d.1 = some d.2 ∧ m.uriToPrefix d.2 = some d.1

theorem scan_root : ∀ (rest done : List (Option Str × Str)) (s : Namespaces.Scan Str Str),
    Usual (done ++ rest) → Fits done s.maps → s.xmlns = done →
    (∀ p, p ≠ some (lit "xml") → (∀ d ∈ done, d.1 ≠ p) → s.maps.prefixToUri p = none) →
    Fits (done ++ rest) (rest.foldl (Namespaces.scan []) s).maps ∧
      (rest.foldl (Namespaces.scan []) s).xmlns = done ++ rest
  | [], done, s, _, hf, hx, _ => by simpa using ⟨hf, hx⟩
  | d :: rest, done, s, hu, hf, hx, hn => by
    have hd := hu.apart d (by simp)
    have hp := hu.prefixes
    have hq := hu.uris
    rw [List.map_append, List.map_cons, List.nodup_append] at hp hq
    have h1 : ∀ e ∈ done, e.1 ≠ d.1 := fun e he =>
      hp.2.2 e.1 (List.mem_map_of_mem he) d.1 (by simp)
    have h2 : ∀ e ∈ done, e.2 ≠ d.2 := fun e he =>
      hq.2.2 e.2 (List.mem_map_of_mem he) d.2 (by simp)
    have h3 : s.maps.prefixToUri d.1 = none := hn d.1 hd.2.2.1 h1
    have hstep : Namespaces.scan [] s d = s.put d := by
      unfold Namespaces.scan
      rw [if_neg (by simp [h3])]
      obtain ⟨p, u⟩ := d
      cases p with
      | none => simp only [ne_eq]; rw [if_pos hd.1]
      | some p =>
        simp only [ne_eq]
        rw [if_pos]
        intro h
        by_cases hm : ∃ e ∈ done, e.1 = none
        · obtain ⟨e, he, he1⟩ := hm
          have := (hf e he).1
          rw [he1, h] at this
          exact h2 e he (Option.some.inj this).symm
        · rw [hn none (by simp) (fun e he h => hm ⟨e, he, h⟩)] at h
          cases h
    rw [List.foldl_cons, hstep]
    have hcat : done ++ d :: rest = (done ++ [d]) ++ rest := by simp
    rw [hcat] at hu ⊢
    refine scan_root rest (done ++ [d]) (s.put d) hu ?_ ?_ ?_
    · intro e he
      simp only [Namespaces.Scan.put, Maps.insert]
      rcases List.mem_append.1 he with he | he
      · rw [if_neg (h1 e he), if_neg (h2 e he)]
        exact hf e he
      · rw [List.mem_singleton] at he
        subst he
        simp
    · simp [Namespaces.Scan.put, hx]
    · intro p hpx hpd
      simp only [Namespaces.Scan.put, Maps.insert]
      rw [if_neg (fun h => hpd d (by simp) h.symm)]
      exact hn p hpx fun e he => hpd e (by simp [he])

theorem inScope_nil (decls : List (Option Str × Str)) : Namespaces.inScope [] decls = decls := by
  simp [Namespaces.inScope]

theorem scan_inner (decls : List (Option Str × Str)) (m : Maps Str Str) (h : Fits decls m) :
    Namespaces.scanAll [] m [] decls = ⟨m, [], []⟩ := by
  unfold Namespaces.scanAll
  rw [inScope_nil]
  suffices ∀ l : List (Option Str × Str), (∀ d ∈ l, d ∈ decls) →
      l.foldl (Namespaces.scan []) ⟨m, [], []⟩ = ⟨m, [], []⟩ from this decls fun _ h => h
  intro l
  induction l with
  | nil => simp
  | cons d l ih =>
    intro hl
    rw [List.foldl_cons]
    have : Namespaces.scan [] ⟨m, [], []⟩ d = ⟨m, [], []⟩ := by
      unfold Namespaces.scan
      rw [if_pos (h d (hl d (by simp))).1]
    rw [this]
    exact ih fun e he => hl e (by simp [he])

/-- Prefixes and URIs of the elements read. -/
def Shows (V : Vocab K) (m : Maps Str Str) (ns : List (Node K)) (l : List (Option Str)) : Prop :=
  ∀ d : Decl, (∃ f ∈ subsAll ns, Writes V d f) ↔ ∃ n ∈ l, key (prefixOf m n) = d

omit [DecidableEq K] in
theorem writes_elem (V : Vocab K) (attr : Prefix → Str → Attr K Str) (m : Maps Str Str)
    (hattr : ∀ q m, (attr q m).prefix' V.table = q) (pos : Nat) (n : Option Str) (attrs : List (Option Str × Str))
    (ks : List (Node K)) (d : Decl) :
    Writes V d (.elem pos (prefixOf m n) (attrs.map fun a => attr (prefixOf m a.1) a.2) ks) ↔
      ∃ x ∈ n :: attrs.map Prod.fst, key (prefixOf m x) = d := by
  obtain ⟨p, u⟩ := d
  simp only [Writes, List.mem_map, List.mem_cons, key, Prod.mk.injEq]
  constructor
  · rintro (h | ⟨a, ⟨b, hb, rfl⟩, h⟩)
    · exact ⟨n, .inl rfl, h⟩
    · rw [hattr] at h
      exact ⟨b.1, .inr ⟨b, hb, rfl⟩, h⟩
  · rintro ⟨x, rfl | ⟨b, hb, rfl⟩, h⟩
    · exact .inl h
    · exact .inr ⟨_, ⟨b, hb, rfl⟩, by rw [hattr]; exact h⟩

omit [DecidableEq K] in
theorem subsAll_single (n : Node K) : subsAll [n] = subs n := by simp [subsAll]

mutual
theorem readNode_inner (V : Vocab K) (attr : Prefix → Str → Attr K Str)
    (hattr : ∀ q m, (attr q m).prefix' V.table = q) (decls : List (Option Str × Str)) (m : Maps Str Str)
    (hf : Fits decls m) : ∀ (n : Src Str Str Str), NoDecls n →
    (readNode V attr decls m n).2 = m ∧ Shows V m [(readNode V attr decls m n).1] (spaces n) ∧
      (∀ e ∈ subs (readNode V attr decls m n).1, ∀ a ∈ e.attrs, ∃ q l, a = attr q l)
  | .other, _ => by
    rw [readNode]
    exact ⟨rfl, by simp [Shows, subsAll, subs, spaces], by simp [subs]⟩
  | .elem ds name attrs style kids, hd => by
    rw [NoDecls] at hd
    obtain ⟨rfl, hk⟩ := hd
    obtain ⟨h1, h2, h3⟩ := readAll_inner V attr hattr decls m hf kids hk
    rw [readNode]
    simp only [scan_inner decls m hf, List.map_nil, List.nil_append, inScope_nil]
    cases style with
    | true =>
      simp only [if_true]
      refine ⟨trivial, fun d => ?_, ?_⟩
      · simp only [subsAll, subs, List.append_nil, List.mem_singleton, exists_eq_left, spaces, if_true]
        exact writes_elem V attr m hattr ..
      · simp only [subs, subsAll, List.append_nil, List.mem_singleton]
        rintro e rfl a ha
        simp only [Node.attrs, List.mem_map] at ha
        obtain ⟨b, _, rfl⟩ := ha
        exact ⟨_, _, rfl⟩
    | false =>
      simp only [Bool.false_eq_true, if_false]
      refine ⟨by simpa [Namespaces.restore] using h1, fun d => ?_, ?_⟩
      · rw [subsAll_single, subs]
        simp only [List.mem_cons, exists_eq_or_imp]
        rw [h2 d, writes_elem V attr m hattr, spaces]
        simp [or_and_right, exists_or, or_assoc]
      · intro e he a ha
        rw [subs, List.mem_cons] at he
        rcases he with rfl | he
        · simp only [Node.attrs, List.mem_map] at ha
          obtain ⟨b, _, rfl⟩ := ha
          exact ⟨_, _, rfl⟩
        · exact h3 e he a ha
theorem readAll_inner (V : Vocab K) (attr : Prefix → Str → Attr K Str)
    (hattr : ∀ q m, (attr q m).prefix' V.table = q) (decls : List (Option Str × Str)) (m : Maps Str Str)
    (hf : Fits decls m) : ∀ (ns : List (Src Str Str Str)), NoDeclsAll ns →
    (readAll V attr decls m ns).2 = m ∧ Shows V m (readAll V attr decls m ns).1 (spacesAll ns) ∧
      (∀ e ∈ subsAll (readAll V attr decls m ns).1, ∀ a ∈ e.attrs, ∃ q l, a = attr q l)
  | [], _ => by
    rw [readAll]
    exact ⟨rfl, by simp [Shows, subsAll, spacesAll], by simp [subsAll]⟩
  | n :: ns, hd => by
    rw [NoDeclsAll] at hd
    obtain ⟨h1, h2, h3⟩ := readNode_inner V attr hattr decls m hf n hd.1
    obtain ⟨h4, h5, h6⟩ := readAll_inner V attr hattr decls m hf ns hd.2
    rw [readAll]
    simp only [h1]
    refine ⟨h4, fun d => ?_, ?_⟩
    · have a := h2 d
      have b := h5 d
      rw [subsAll_single] at a
      simp only [subsAll, spacesAll, List.mem_append, or_and_right, exists_or, a, b]
    · intro e he
      rw [subsAll, List.mem_append] at he
      rcases he with he | he
      · exact h3 e he
      · exact h6 e he
end

theorem key_prefixOf {decls : List (Option Str × Str)} {m : Maps Str Str} (hf : Fits decls m) {p u : Str}
    (h : (some p, u) ∈ decls) (x : Option Str) : key (prefixOf m x) = (some p, u) ↔ x = some u := by
  cases x with
  | none => simp [key, prefixOf, new_value, Maps.getByUri]
  | some v =>
    have hfu := (hf _ h).2
    simp only [key, prefixOf, Option.getD_some, Prod.mk.injEq, new_value, Option.some.injEq]
    constructor
    · rintro ⟨h1, h2⟩
      have := (new_uri_value v (m.getByUri (some v)) (by rw [h1]; simp)).1
      rw [Prefix.uri] at this
      rw [← this, h2]
    · rintro rfl
      have h1 : m.getByUri (some v) = some p := by simp [Maps.getByUri, hfu]
      refine ⟨h1, ?_⟩
      have := (new_uri_value v (m.getByUri (some v)) (by rw [h1]; simp)).1
      rwa [Prefix.uri] at this

/-- **C80 (the usual documents).** Let the element at the root have all the declarations of the document, with
different prefixes and URIs, and be without prefix itself. Then `xmlns:p="u"` is reported if and only if it is
declared and no other element and no attribute of the source has the namespace `u`. -/
theorem usual_iff (V : Vocab K) (attr : Prefix → Str → Attr K Str)
    (hattr : ∀ q m, (attr q m).prefix' V.table = q) (hx : V.table.pre V.xmlns = .svg)
    (hno : ∀ q m d, declared V (attr q m) ≠ some d)
    (decls : List (Option Str × Str)) (hu : Usual decls) (ns : Option Str) (l : Str)
    (attrs : List (Option Str × Str)) (kids : List (Src Str Str Str)) (hk : NoDeclsAll kids)
    (hns : ∀ u, ns = some u → u ≠ StdNs.uri .xml) (p u : Str) :
    (0, ((some p, u) : Decl)) ∈ reportNs V (read V attr [.elem decls (ns, l) attrs false kids]) ↔
      (some p, u) ∈ decls ∧ some u ∉ attrs.map Prod.fst ++ spacesAll kids := by
  have h2 := scan_root decls [] ⟨Maps.start (lit "xml") (StdNs.uri .xml), [], []⟩ (by simpa using hu)
    (by simp [Fits]) rfl (fun q hq _ => start_prefix hq)
  rw [List.nil_append] at h2
  obtain ⟨hf, hxm⟩ := h2
  have hsc : Namespaces.scanAll [] (Maps.start (lit "xml") (StdNs.uri .xml)) decls [] =
      decls.foldl (Namespaces.scan []) ⟨Maps.start (lit "xml") (StdNs.uri .xml), [], []⟩ := by
    simp [Namespaces.scanAll, Namespaces.inScope]
  have hin : Namespaces.inScope decls [] = decls := by simp [Namespaces.inScope]
  obtain ⟨h3, h4, h5⟩ := readAll_inner V attr hattr decls _ hf kids hk
  rw [reportNs_iff, read, readAll, readNode]
  simp only [hsc, hxm, Bool.false_eq_true, if_false, readAll, subsAll_single, hin]
  generalize hM : (decls.foldl (Namespaces.scan []) ⟨Maps.start (lit "xml") (StdNs.uri .xml), [], []⟩).maps = M at *
  have hroot : (prefixOf (Maps.start (lit "xml") (StdNs.uri .xml)) ns).value = none := by
    rw [prefixOf, new_value]
    cases ns with
    | none => rfl
    | some v => simp [Maps.getByUri, start_uri (hns v rfl)]
  constructor
  · rintro ⟨e, he, _, hd, hw⟩
    rw [subs, List.mem_cons] at he
    rcases he with rfl | he
    · have hmem : (some p, u) ∈ decls := by
        obtain ⟨a, ha, hd⟩ := hd
        simp only [Node.attrs, List.mem_append, List.mem_map] at ha
        rcases ha with ⟨⟨q, v⟩, hq, rfl⟩ | ⟨b, _, rfl⟩
        · cases q with
          | none =>
            rcases hd with ⟨_, h⟩ | ⟨p', _, h⟩
            · simp at h
            · simp [xmlnsAttr] at h
          | some q =>
            rcases hd with ⟨h, _⟩ | ⟨p', h1, h⟩
            · simp [xmlnsAttr] at h
            · simp only [xmlnsAttr, Attr.unparsed.injEq, AttrId.unknown.injEq, true_and] at h
              simp only [Option.some.injEq] at h1
              obtain ⟨rfl, rfl⟩ := h
              subst h1
              exact hq
        · exact absurd ((declared_iff V (.elem 0 (.std .svg) [attr (prefixOf M b.1) b.2] []) (some p, u)).2
            ⟨_, by simp [Node.attrs], hd⟩) (by simpa [Node.attrs] using hno _ _ _)
      refine ⟨hmem, fun hs => ?_⟩
      rcases List.mem_append.1 hs with hs | hs
      · rw [List.mem_map] at hs
        obtain ⟨b, hb, hb1⟩ := hs
        refine hw _ (by rw [subs]; exact List.mem_cons_self ..) ?_
        refine Or.inr ⟨attr (prefixOf M b.1) b.2, ?_, ?_⟩
        · exact List.mem_append_right _ (List.mem_map.2 ⟨b, hb, rfl⟩)
        · rw [hattr]
          have := (key_prefixOf hf hmem b.1).2 hb1
          simpa [key] using this
      · obtain ⟨f, hf', hfw⟩ := (h4 (some p, u)).2 ⟨some u, hs, (key_prefixOf hf hmem _).2 rfl⟩
        exact hw f (by rw [subs]; exact List.mem_cons_of_mem _ hf') hfw
    · exfalso
      obtain ⟨a, ha, h⟩ := (declared_iff V e (some p, u)).2 hd
      obtain ⟨q, m, rfl⟩ := h5 e he a ha
      exact hno _ _ _ h
  · rintro ⟨hmem, hno'⟩
    refine ⟨_, by rw [subs]; exact List.mem_cons_self .., rfl, ?_, ?_⟩
    · exact ⟨_, List.mem_append_left _ (List.mem_map.2 ⟨_, hmem, rfl⟩), .inr ⟨p, rfl, rfl⟩⟩
    · intro f hf' hw
      rw [subs, List.mem_cons] at hf'
      rcases hf' with rfl | hf'
      · rcases hw with ⟨h, _⟩ | ⟨a, ha, h, h'⟩
        · rw [hroot] at h
          cases h
        · simp only [List.mem_append, List.mem_map] at ha
          rcases ha with ⟨⟨q, v⟩, hq, rfl⟩ | ⟨b, hb, rfl⟩
          · cases q with
            | none =>
              simp [xmlnsAttr, Attr.prefix', Attr.name, AttrId.prefix', hx, Prefix.value, StdNs.name] at h
            | some q =>
              simp only [xmlnsAttr, Attr.prefix', AttrId.prefix', Prefix.value, StdNs.name] at h
              exact (hu.apart _ hmem).2.2.2 h.symm
          · rw [hattr] at h h'
            refine hno' (List.mem_append_left _ (List.mem_map.2 ⟨b, hb, ?_⟩))
            exact (key_prefixOf hf hmem b.1).1 (by rw [key, h, h'])
      · obtain ⟨x, hxm', hxk⟩ := (h4 (some p, u)).1 ⟨f, hf', hw⟩
        have := (key_prefixOf hf hmem x).1 hxk
        subst this
        exact hno' (List.mem_append_right _ hxm')

/-- **C80 (violated: attributes count as uses of the default namespace).** A namespace that an element declares without
prefix is not reported if the element has an attribute without prefix, whatever the names of elements are: such an
attribute is in no namespace, but the reader gives it the default one. -/
theorem default_attr_violated (V : Vocab K) (attr : Prefix → Str → Attr K Str)
    (hattr : ∀ q m, ((attr q m).prefix' V.table).value = q.value ∧ ((attr q m).prefix' V.table).ns.uri = q.ns.uri)
    (name : Option Str × Str) (u a : Str) (hu : u ≠ []) (attrs : List (Option Str × Str)) (ha : (none, a) ∈ attrs) :
    (0, ((none, u) : Decl)) ∉ reportNs V (read V attr [.elem [(none, u)] name attrs false []]) := by
  have h2 : (Maps.start (lit "xml") (StdNs.uri .xml)).prefixToUri none = none := start_prefix (by simp)
  rw [reportNs_iff, read, readAll, readNode]
  simp only [Namespaces.scanAll, Namespaces.inScope, List.filter_nil, List.append_nil, List.foldl_cons,
    List.foldl_nil, Namespaces.scan, reduceCtorEq, if_false, h2, ne_eq, not_false_eq_true, if_true, hu,
    Namespaces.Scan.put, List.nil_append, Bool.false_eq_true, List.map_cons, List.map_nil, xmlnsAttr]
  rintro ⟨e, he, _, _, hw⟩
  simp only [readAll, subsAll, subs, List.append_nil, List.mem_singleton] at he
  subst he
  have hw := hw _ (by rw [subs]; exact List.mem_cons_self ..)
  refine hw (Or.inr ⟨_, List.mem_append_right _ (List.mem_map.2 ⟨(none, a), ha, rfl⟩), ?_⟩)
  rw [(hattr _ _).1, (hattr _ _).2]
  have := new_uri_value u none (by simp [hu])
  simp only [prefixOf, Option.getD_none, Maps.insert, h2, if_true, Option.getD_some, Maps.getByUri]
  exact ⟨this.2, this.1⟩

end Verif.Lint
