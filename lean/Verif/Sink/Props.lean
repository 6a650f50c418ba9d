import Verif.Sink.Spec

/-! # C90: the namespaces of documents that are parsed with xml5ever -/

namespace Verif.Sink

open Verif.Names

/-! ## Names and prefixes -/

theorem prefix_spec (n : Name) : n.prefix.value = n.pre ∧ n.prefix.ns.uri = meaning n := by
  by_cases h : n.uri = [] ∧ n.pre = none
  · have e : n.prefix = .std .svg := by simp only [Name.prefix, h.1, h.2]; exact new_none
    rw [e, meaning, if_pos ⟨h.2, h.1⟩, h.2]
    exact ⟨rfl, rfl⟩
  · obtain ⟨h1, h2⟩ := new_uri_value n.uri n.pre h
    refine ⟨h2, ?_⟩
    rw [meaning, if_neg fun k => h ⟨k.2, k.1⟩]
    exact h1

theorem prefix_wf (n : Name) : n.prefix.WF := new_wf _ _

theorem meaning_ne {n : Name} (h : Fair n) : meaning n ≠ [] := by
  unfold meaning
  split
  · decide
  · rename_i k
    by_cases hp : n.pre = none
    · exact fun e => k ⟨hp, e⟩
    · exact h.1 hp

theorem meaning_xmlns {n : Name} (h : Fair n) : meaning n ≠ xmlnsUri := by
  unfold meaning
  split
  · decide
  · exact h.2.2.2

theorem meaning_some {n : Name} (h : n.pre ≠ none) : meaning n = n.uri := by rw [meaning, if_neg fun k => h k.1]

theorem meaning_none {n : Name} (h : n.pre = none) (k : n.uri = []) : meaning n = svgUri := by rw [meaning, if_pos ⟨h, k⟩]

theorem get_insert (m : Map) (p q : Option Str) (u : Str) : (m.insert p u).get q = if p = q then some u else m.get q := by
  unfold Map.get Map.insert
  by_cases h : p = q
  · simp [h]
  · simp [h]

theorem findNew_eq {m : Map} {p : Prefix} (h : p.ns.uri ≠ []) :
    findNew m p = if m.get p.value = some p.ns.uri then none else some (m.insert p.value p.ns.uri, .decl p.value p.ns.uri) := by
  unfold findNew
  by_cases k : m.get p.value = some p.ns.uri
  · simp [k]
  · simp [h, k]

/-- A prefix that attributes have: of an attribute of the document, or of a declaration. -/
structure Usable (p : Prefix) : Prop where
  uri : p.ns.uri ≠ []
  none : p.value = none → p.ns.uri = svgUri
  xml : p.value ≠ some (lit "xml")
  xmlns : p.value = some (lit "xmlns") → p.ns.uri = xmlnsUri

theorem usable_attr {a : Name} (h : Fair a) (k : a.pre = none → a.uri = []) : Usable a.prefix := by
  obtain ⟨hv, hu⟩ := prefix_spec a
  refine ⟨by rw [hu]; exact meaning_ne h, fun e => ?_, by rw [hv]; exact h.2.2.1, fun e => ?_⟩
  · rw [hv] at e; rw [hu, meaning_none e (k e)]
  · rw [hv] at e; exact absurd e h.2.1

theorem usable_decl (p : Option Str) (u : Str) : Usable (Attr.decl p u).prefix := by
  cases p with
  | none => exact ⟨(by decide : (Prefix.std .svg).ns.uri ≠ []), fun _ => rfl, (by decide : (Prefix.std .svg).value ≠ some (lit "xml")),
      (by decide : (Prefix.std .svg).value = some (lit "xmlns") → (Prefix.std .svg).ns.uri = xmlnsUri)⟩
  | some q => exact ⟨(by decide : (Prefix.std .xmlns).ns.uri ≠ []), (by decide : (Prefix.std .xmlns).value = none → (Prefix.std .xmlns).ns.uri = svgUri),
      (by decide : (Prefix.std .xmlns).value ≠ some (lit "xml")), fun _ => rfl⟩

/-! ## Inserting declarations -/

theorem insertAt_some {as : List Attr} {i : Nat} (a : Attr) (h : i ≤ as.length) : insertAt as i a = some (as.take i ++ a :: as.drop i) := by
  rw [insertAt, if_pos h]

/-- What is found about missing declarations. -/
theorem missing_decl (m : Map) (ps : List Prefix) : ∀ a ∈ (missing m ps).2, ∃ p ∈ ps, a = .decl p.value p.ns.uri := by
  induction ps generalizing m with
  | nil => simp [missing]
  | cons p ps ih =>
    intro a ha
    simp only [missing] at ha
    cases h : findNew m p with
    | none =>
      rw [h] at ha
      obtain ⟨q, hq, e⟩ := ih m a ha
      exact ⟨q, by simp [hq], e⟩
    | some x =>
      obtain ⟨m', b⟩ := x
      rw [h] at ha
      unfold findNew at h
      split at h
      · cases h
        rcases List.mem_cons.1 ha with rfl | ha
        · exact ⟨p, by simp, rfl⟩
        · obtain ⟨q, hq, e⟩ := ih _ a ha
          exact ⟨q, by simp [hq], e⟩
      · cases h

theorem decl_loc {p : Prefix} (h : Usable p) : (Attr.decl p.value p.ns.uri).loc ≠ lit "xml" := by
  cases e : p.value with
  | none => simp only [Attr.loc]; decide
  | some q => simp only [Attr.loc]; intro k; exact h.xml (by rw [e, k])

/-! ## Documents that keep their namespaces -/

/-- The declarations of the root are those of the map, each once, `xmlns` first. -/
structure Inv (U : Option Str → Str) (own : List (Option Str × Str)) (s : State) : Prop where
  svg : s.map.get none = some svgUri
  known : ∀ p u, s.map.get p = some u → u = U p ∧ p ≠ some (lit "xmlns")
  iff : ∀ p u, s.map.get p = some u ↔ Attr.decl p u ∈ s.root
  once : s.root.Pairwise fun a b => ∀ p u v, ¬ (a = .decl p u ∧ b = .decl p v)
  head : hasXmlns s.root = true
  own : s.root.filterMap Attr.written = own
  other : ∀ p l, Attr.own p l ∈ s.root → p.ns.uri ≠ xmlnsUri ∧ p.WF

theorem Inv.add {U : Option Str → Str} {own : List (Option Str × Str)} {m : Map} {x y : List Attr} (h : Inv U own ⟨m, x ++ y⟩) (hx : x ≠ [])
    {p : Option Str} (hp : m.get p = none) (hne : p ≠ some (lit "xmlns")) :
    Inv U own ⟨m.insert p (U p), x ++ .decl p (U p) :: y⟩ := by
  have hfresh : ∀ u, Attr.decl p u ∉ x ++ y := fun u hm => by
    have := (h.iff p u).2 hm
    simp only at this
    rw [hp] at this; cases this
  refine ⟨?_, ?_, ?_, ?_, ?_, ?_, ?_⟩
  · simp only [get_insert]
    split
    · rename_i e; subst e; have := h.svg; simp only at this; rw [hp] at this; cases this
    · exact h.svg
  · intro q u hq
    simp only [get_insert] at hq
    split at hq
    · rename_i e; subst e; cases hq; exact ⟨rfl, hne⟩
    · exact h.known q u hq
  · intro q u
    have := h.iff q u
    simp only [get_insert, List.mem_append, List.mem_cons, Attr.decl.injEq] at this ⊢
    split
    · rename_i e
      subst e
      have hf := hfresh u
      simp only [List.mem_append] at hf
      constructor
      · intro e; cases e; exact .inr (.inl ⟨rfl, rfl⟩)
      · rintro (k | ⟨_, rfl⟩ | k)
        · exact absurd (.inl k) hf
        · rfl
        · exact absurd (.inr k) hf
    · rename_i e
      have e' : ¬ q = p := fun h => e h.symm
      simp only [e', false_and, false_or]
      exact this
  · have := List.pairwise_append.1 h.once
    refine List.pairwise_append.2 ⟨this.1, List.pairwise_cons.2 ⟨?_, this.2.1⟩, ?_⟩
    · rintro b hb q u v ⟨e1, e2⟩
      cases e1; subst e2
      exact hfresh v (by simp [hb])
    · intro a ha b hb
      rcases List.mem_cons.1 hb with rfl | hb
      · rintro q u v ⟨e1, e2⟩
        cases e2; subst e1
        exact hfresh u (by simp [ha])
      · exact this.2.2 a ha b hb
  · have := h.head
    cases x with
    | nil => exact absurd rfl hx
    | cons a x => cases a with
      | decl q u => cases q with
        | none => rfl
        | some q => simp [hasXmlns] at this
      | own q l => simp [hasXmlns] at this
  · have := h.own
    simp only [List.filterMap_append, List.filterMap_cons, Attr.written] at this ⊢
    exact this
  · intro q l hq
    apply h.other q l
    simp only [List.mem_append, List.mem_cons, reduceCtorEq, false_or] at hq
    simpa using hq

/-- The prefixes are used for the namespaces of `U`. -/
def Uses (U : Option Str → Str) (p : Prefix) : Prop := p.ns.uri = U p.value ∧ p.value ≠ some (lit "xmlns")

/-- The map knows at least as much. -/
def Map.Le (m m' : Map) : Prop := ∀ p u, m.get p = some u → m'.get p = some u

theorem insertAll_inv {U : Option Str → Str} {own : List (Option Str × Str)} (ps : List Prefix) (hu : ∀ p ∈ ps, Usable p ∧ Uses U p) :
    ∀ (m : Map) (root : List Attr) (i : Nat), Inv U own ⟨m, root⟩ → 1 + i ≤ root.length →
    ∃ root', insertAll 1 i (missing m ps).2 root = some root' ∧ Inv U own ⟨(missing m ps).1, root'⟩ ∧ m.Le (missing m ps).1 ∧
      ∀ p ∈ ps, (missing m ps).1.get p.value = some p.ns.uri := by
  induction ps with
  | nil => intro m root i h _; exact ⟨root, rfl, h, fun _ _ h => h, by simp⟩
  | cons p ps ih =>
    intro m root i h hi
    have hps := fun q hq => hu q (List.mem_cons_of_mem p hq)
    obtain ⟨hU, hus⟩ := hu p (by simp)
    simp only [missing, findNew_eq hU.uri]
    by_cases hk : m.get p.value = some p.ns.uri
    · rw [if_pos hk]
      obtain ⟨root', h1, h2, h3, h4⟩ := ih hps m root i h hi
      refine ⟨root', h1, h2, h3, fun q hq => ?_⟩
      rcases List.mem_cons.1 hq with rfl | hq
      · exact h3 _ _ hk
      · exact h4 q hq
    · rw [if_neg hk]
      have hnone : m.get p.value = none := by
        cases e : m.get p.value with
        | none => rfl
        | some u => have := (h.known _ _ e).1; exact absurd (by rw [e, this, hus.1]) hk
      have hlen : 1 + i ≤ root.length := hi
      have hx : root.take (1 + i) ≠ [] := fun e => by
        have := congrArg List.length e
        rw [List.length_take, List.length_nil] at this
        omega
      have hadd := Inv.add (x := root.take (1 + i)) (y := root.drop (1 + i)) (m := m) (p := p.value) (by simpa using h) hx hnone hus.2
      rw [← hus.1] at hadd
      obtain ⟨root', h1, h2, h3, h4⟩ := ih hps _ _ (i + 1) hadd (by simp; omega)
      refine ⟨root', ?_, h2, fun q u hq => h3 q u ?_, fun q hq => ?_⟩
      · simp only [insertAll, if_neg (decl_loc hU), insertAt_some _ hlen]
        exact h1
      · rw [get_insert]
        split
        · rename_i e; subst e; rw [hnone] at hq; cases hq
        · exact hq
      · rcases List.mem_cons.1 hq with rfl | hq
        · exact h3 _ _ (by rw [get_insert, if_pos rfl])
        · exact h4 q hq

theorem addAttrs_inv {U : Option Str → Str} {own : List (Option Str × Str)} {s : State} (h : Inv U own s) {as : List Attr}
    (hu : ∀ a ∈ as, Usable a.prefix ∧ Uses U a.prefix) :
    ∃ s', addAttrs s as = some s' ∧ Inv U own s' ∧ s.map.Le s'.map ∧ ∀ a ∈ as, s'.map.get a.prefix.value = some a.prefix.ns.uri := by
  have hl : 1 + 0 ≤ s.root.length := by
    have := h.head
    cases hr : s.root with
    | nil => rw [hr] at this; simp [hasXmlns] at this
    | cons _ _ => simp
  obtain ⟨root', h1, h2, h3, h4⟩ := insertAll_inv (own := own) (as.map Attr.prefix) (by simpa using hu) s.map s.root 0 h hl
  refine ⟨⟨_, root'⟩, ?_, h2, h3, fun a ha => h4 _ (by simp only [List.mem_map]; exact ⟨a, ha, rfl⟩)⟩
  simp only [addAttrs, h.head, if_true, h1]

theorem setNamed_new {as : List Attr} {q u : Str} (h : ∀ v, Attr.decl (some q) v ∉ as) (ho : ∀ p l, Attr.own p l ∈ as → p.ns.uri ≠ xmlnsUri ∧ p.WF) :
    setNamed as (.decl (some q) u) = as ++ [.decl (some q) u] := by
  have : as.findIdx? (fun b => b.prefix.eq (Attr.decl (some q) u).prefix && b.loc = (Attr.decl (some q) u).loc) = none := by
    rw [List.findIdx?_eq_none_iff]
    intro b hb
    cases b with
    | decl p v =>
      cases p with
      | none => rfl
      | some r =>
        have : r ≠ q := fun e => h v (e ▸ hb)
        simp [Attr.loc, this]
    | own p l =>
      obtain ⟨h1, h2⟩ := ho p l hb
      have : p.eq (.std .xmlns) = false := by
        rw [← Bool.not_eq_true, prefix_eq_iff h2 (q := .std .xmlns) trivial]
        exact h1
      simp [Attr.prefix, this]
  rw [setNamed, this]

theorem addChild_inv {U : Option Str → Str} {own : List (Option Str × Str)} {s : State} (hU : U none = svgUri) (h : Inv U own s) {n : Name}
    (hn : Fair n) (hm : meaning n = U n.pre) {as : List Attr} (hu : ∀ a ∈ as, Usable a.prefix ∧ Uses U a.prefix) :
    ∃ s', addChild s n.prefix as = some (s', as) ∧ Inv U own s' ∧ s.map.Le s'.map ∧ s'.map.get n.pre = some (meaning n) ∧
      ∀ a ∈ as, s'.map.get a.prefix.value = some a.prefix.ns.uri := by
  obtain ⟨hv, hui⟩ := prefix_spec n
  have hne : n.prefix.ns.uri ≠ [] := by rw [hui]; exact meaning_ne hn
  by_cases hk : s.map.get n.prefix.value = some n.prefix.ns.uri
  · obtain ⟨s', h1, h2, h3, h4⟩ := addAttrs_inv h hu
    refine ⟨s', ?_, h2, h3, h3 _ _ (by rw [← hv, ← hui]; exact hk), h4⟩
    simp only [addChild, findNew_eq hne, if_pos hk, h1, Option.map_some]
  · cases hp : n.pre with
    | none =>
      refine absurd ?_ hk
      rw [hv, hui, hm, hp, hU]; exact h.svg
    | some q =>
      have hvq : n.prefix.value = some q := by rw [hv, hp]
      have hnone : s.map.get (some q) = none := by
        cases e : s.map.get (some q) with
        | none => rfl
        | some u => have := (h.known _ _ e).1; exact absurd (by rw [hvq, e, this, hui, hm, hp]) hk
      have hroot : s.root ≠ [] := fun e => by have := h.head; rw [e] at this; simp [hasXmlns] at this
      have hadd := Inv.add (x := s.root) (y := []) (m := s.map) (p := some q) (by simpa using h) hroot hnone (by rw [← hp]; exact hn.2.1)
      have hUq : U (some q) = n.prefix.ns.uri := by rw [hui, hm, hp]
      rw [hUq] at hadd
      obtain ⟨s', h1, h2, h3, h4⟩ := addAttrs_inv hadd hu
      refine ⟨s', ?_, h2, fun p u hpu => h3 p u ?_, ?_, h4⟩
      · have hset := setNamed_new (q := q) (u := n.prefix.ns.uri) (fun v hv => by
          have := (h.iff (some q) v).2 hv; rw [hnone] at this; cases this) h.other
        have hf : findNew s.map n.prefix = some (s.map.insert (some q) n.prefix.ns.uri, .decl (some q) n.prefix.ns.uri) := by
          rw [findNew_eq hne, if_neg hk, hvq]
        simp only [addChild, hf, hset, h1, Option.map_some]
      · simp only [get_insert]
        split
        · rename_i e; subst e; rw [hnone] at hpu; cases hpu
        · exact hpu
      · rw [← hui]
        exact h3 _ _ (by simp only [get_insert, if_true])

theorem ownAttrs_written (as : List Name) : (ownAttrs as).filterMap Attr.written = as.map fun a => (a.pre, a.loc) := by
  induction as with
  | nil => rfl
  | cons a as ih =>
    have e : Attr.written (.own a.prefix a.loc) = some (a.pre, a.loc) := by simp only [Attr.written, (prefix_spec a).1]
    simp only [ownAttrs, List.map_cons, List.filterMap_cons, e] at ih ⊢
    rw [ih]

theorem ownAttrs_none (as : List Name) (sc : Scope) : within (ownAttrs as) sc = sc := by
  funext p
  have : (ownAttrs as).findSome? (Attr.declares p) = none := by
    rw [List.findSome?_eq_none_iff]
    intro a ha
    simp only [ownAttrs, List.mem_map] at ha
    obtain ⟨x, _, rfl⟩ := ha
    rfl
  simp only [within, this]

theorem ownAttrs_legal (as : List Name) : Legal (ownAttrs as) := by
  constructor
  · refine List.pairwise_of_forall_mem_list ?_
    rintro a ha b _ p u v ⟨rfl, _⟩
    simp [ownAttrs] at ha
  · intro u h
    simp [ownAttrs] at h

/-- What is asked of the names of a document. -/
structure Plain (U : Option Str → Str) (es as : List Name) : Prop where
  elems : ∀ n ∈ es, Fair n ∧ meaning n = U n.pre
  attrs : ∀ a ∈ as, Fair a ∧ (a.pre = none → a.uri = []) ∧ meaning a = U a.pre

theorem Plain.own {U : Option Str → Str} {es as : List Name} (h : Plain U es as) (bs : List Name) (hb : ∀ b ∈ bs, b ∈ as) :
    ∀ a ∈ ownAttrs bs, Usable a.prefix ∧ Uses U a.prefix := by
  intro a ha
  simp only [ownAttrs, List.mem_map] at ha
  obtain ⟨b, hb', rfl⟩ := ha
  obtain ⟨h1, h2, h3⟩ := h.attrs b (hb b hb')
  refine ⟨usable_attr h1 h2, ?_⟩
  simp only [Attr.prefix, Uses, (prefix_spec b).1, (prefix_spec b).2]
  exact ⟨h3, h1.2.1⟩

mutual
theorem child_inv {U : Option Str → Str} {own : List (Option Str × Str)} (hU : U none = svgUri) : ∀ (e : Elem) (s : State),
    Plain U (elemNames e) (attrNames e) → Inv U own s →
    ∃ s' o, child s e = some (s', o) ∧ Inv U own s' ∧ s.map.Le s'.map ∧ ∀ sc : Scope, (∀ p u, s'.map.get p = some u → sc p = some u) → Kept sc e o
  | .mk n as ks, s, hp, h => by
    obtain ⟨hn, hm⟩ := hp.elems n (by simp [elemNames])
    obtain ⟨s1, e1, i1, l1, k1, a1⟩ := addChild_inv hU h hn hm (hp.own as fun b hb => by simp [attrNames, hb])
    obtain ⟨s2, os, e2, i2, l2, k2⟩ := children_inv hU ks s1
      ⟨fun n hn => hp.elems n (by simp [elemNames, hn]), fun a ha => hp.attrs a (by simp [attrNames, ha])⟩ i1
    refine ⟨s2, .mk n.prefix n.loc (ownAttrs as) os, by simp only [child, e1, e2], i2, fun p u hpu => l2 _ _ (l1 _ _ hpu), fun sc hsc => ?_⟩
    simp only [Kept, ownAttrs_none]
    refine ⟨ownAttrs_legal as, (prefix_spec n).1, trivial, hsc _ _ (l2 _ _ k1), ownAttrs_written as, fun a ha hpa => ?_, k2 sc hsc⟩
    have := a1 (.own a.prefix a.loc) (by simp only [ownAttrs, List.mem_map]; exact ⟨a, ha, rfl⟩)
    simp only [Attr.prefix, (prefix_spec a).1, (prefix_spec a).2, meaning_some hpa] at this
    exact hsc _ _ (l2 _ _ this)
theorem children_inv {U : Option Str → Str} {own : List (Option Str × Str)} (hU : U none = svgUri) : ∀ (es : List Elem) (s : State),
    Plain U (elemNamesAll es) (attrNamesAll es) → Inv U own s →
    ∃ s' os, children s es = some (s', os) ∧ Inv U own s' ∧ s.map.Le s'.map ∧ ∀ sc : Scope, (∀ p u, s'.map.get p = some u → sc p = some u) → KeptAll sc es os
  | [], s, _, h => ⟨s, [], rfl, h, fun _ _ h => h, fun _ _ => trivial⟩
  | e :: es, s, hp, h => by
    obtain ⟨s1, o, e1, i1, l1, k1⟩ := child_inv hU e s
      ⟨fun n hn => hp.elems n (by simp [elemNamesAll, hn]), fun a ha => hp.attrs a (by simp [attrNamesAll, ha])⟩ h
    obtain ⟨s2, os, e2, i2, l2, k2⟩ := children_inv hU es s1
      ⟨fun n hn => hp.elems n (by simp [elemNamesAll, hn]), fun a ha => hp.attrs a (by simp [attrNamesAll, ha])⟩ i1
    exact ⟨s2, o :: os, by simp only [children, e1, e2], i2, fun p u hpu => l2 _ _ (l1 _ _ hpu),
      fun sc hsc => ⟨k1 sc fun p u hpu => hsc p u (l2 _ _ hpu), k2 sc hsc⟩⟩
end

theorem parse_kept {U : Option Str → Str} (hU : U none = svgUri) (e : Elem) (hr : e.name.pre = none)
    (hp : Plain U (elemNames e) (attrNames e)) : ∃ o, parse e = some o ∧ Kept top e o := by
  cases e with
  | mk n as ks =>
    have hr : n.pre = none := hr
    obtain ⟨hn, hm⟩ := hp.elems n (by simp [elemNames])
    obtain ⟨hv, hui⟩ := prefix_spec n
    rw [hr, hU] at hm
    rw [hr] at hv
    rw [hm] at hui
    have hown := hp.own as fun b hb => by simp [attrNames, hb]
    have i0 : Inv U (as.map fun a => (a.pre, a.loc)) ⟨Map.insert [] none svgUri, .decl none svgUri :: ownAttrs as⟩ := by
      have hd : ∀ p u, Attr.decl p u ∉ ownAttrs as := fun p u h => by simp [ownAttrs] at h
      refine ⟨by rw [get_insert, if_pos rfl], ?_, ?_, ?_, rfl, ?_, ?_⟩
      · intro p u hpu
        simp only [get_insert] at hpu
        split at hpu
        · rename_i e; subst e; cases hpu; exact ⟨hU.symm, by simp⟩
        · simp [Map.get] at hpu
      · intro p u
        simp only [get_insert, List.mem_cons, Attr.decl.injEq, hd, or_false]
        split
        · rename_i e; subst e; simp [eq_comm]
        · rename_i e
          have e' : ¬ p = none := fun h => e h.symm
          simp [Map.get, e']
      · rw [List.pairwise_cons]
        refine ⟨?_, (ownAttrs_legal as).1⟩
        rintro b hb p u v ⟨_, rfl⟩
        exact hd _ _ hb
      · simp only [List.filterMap_cons, Attr.written, ownAttrs_written]
      · intro p l hpl
        simp only [List.mem_cons, reduceCtorEq, false_or, ownAttrs, List.mem_map, Attr.own.injEq] at hpl
        obtain ⟨a, ha, rfl, rfl⟩ := hpl
        have hf := (hp.attrs a (by simp [attrNames, ha])).1
        exact ⟨by rw [(prefix_spec a).2]; exact meaning_xmlns hf, prefix_wf a⟩
    obtain ⟨s1, e1, i1, l1, a1⟩ := addAttrs_inv (as := .decl none svgUri :: ownAttrs as) i0 (by
      intro a ha
      rcases List.mem_cons.1 ha with rfl | ha
      · exact ⟨usable_decl _ _, by rw [Uses]; exact ⟨hU.symm, by decide⟩⟩
      · exact hown a ha)
    obtain ⟨s2, os, e2, i2, l2, k2⟩ := children_inv hU ks s1
      ⟨fun n hn => hp.elems n (by simp [elemNames, hn]), fun a ha => hp.attrs a (by simp [attrNames, ha])⟩ i1
    have hadd : addRoot n.prefix (ownAttrs as) = some s1 := by
      have hne : n.prefix.ns.uri ≠ [] := by rw [hui]; decide
      have hg : Map.get [] (none : Option Str) = none := rfl
      simp only [addRoot, findNew_eq hne, hv, hui, hg, reduceCtorEq, if_false, e1]
    refine ⟨.mk n.prefix n.loc s2.root os, by simp only [parse, hadd, e2], ?_⟩
    have hsc : ∀ p u, s2.map.get p = some u → within s2.root top p = some u := by
      intro p u hpu
      have hmem := (i2.iff p u).1 hpu
      unfold within
      cases hf : s2.root.findSome? (Attr.declares p) with
      | none =>
        have := List.findSome?_eq_none_iff.1 hf _ hmem
        simp [Attr.declares] at this
      | some v =>
        obtain ⟨a, ha, hav⟩ := List.exists_of_findSome?_eq_some hf
        cases a with
        | decl q w =>
          simp only [Attr.declares] at hav
          split at hav
          · rename_i e
            subst e
            cases hav
            have := (i2.iff _ _).2 ha
            rw [hpu] at this
            exact this.symm
          · cases hav
        | own q l => simp [Attr.declares] at hav
    simp only [Kept]
    refine ⟨⟨i2.once, fun u hu => ?_⟩, by rw [hv, hr], trivial, ?_, i2.own, fun a ha hpa => ?_, k2 _ hsc⟩
    · exact (i2.known _ _ ((i2.iff _ _).2 hu)).2 rfl
    · rw [hr, hm]; exact hsc _ _ i2.svg
    · have := a1 (.own a.prefix a.loc) (by simp only [ownAttrs, List.mem_cons, List.mem_map]; exact .inr ⟨a, ha, rfl⟩)
      simp only [Attr.prefix, (prefix_spec a).1, (prefix_spec a).2, meaning_some hpa] at this
      exact hsc _ _ (l2 _ _ this)

end Verif.Sink
