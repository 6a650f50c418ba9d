import Verif.Sink.Props

/-! # C90: exactly which documents keep their namespaces -/

namespace Verif.Sink

open Verif.Names

/-- A declaration of the prefix is there. -/
def Has (p : Option Str) (as : List Attr) : Prop := ∃ u, Attr.decl p u ∈ as

/-- The number of default declarations. -/
def defaults (as : List Attr) : Nat := as.countP fun
  | .decl none _ => true
  | _ => false

theorem insertAll_mono {off : Nat} : ∀ (new : List Attr) (i : Nat) (root root' : List Attr), insertAll off i new root = some root' →
    (∀ a ∈ root, a ∈ root') ∧ (∀ a ∈ new, a.loc ≠ lit "xml" → a ∈ root') ∧ defaults root + defaults new ≤ defaults root'
  | [], i, root, root', h => by simp [insertAll] at h; subst h; exact ⟨fun _ h => h, by simp, by simp [defaults]⟩
  | a :: new, i, root, root', h => by
    simp only [insertAll] at h
    split at h
    · rename_i hx
      obtain ⟨h1, h2, h3⟩ := insertAll_mono new _ _ _ h
      refine ⟨h1, fun b hb hn => ?_, ?_⟩
      · rcases List.mem_cons.1 hb with rfl | hb
        · exact absurd hx hn
        · exact h2 b hb hn
      · have : defaults (a :: new) = defaults new := by
          simp only [defaults, List.countP_cons]
          cases a with
          | decl p u => cases p with
            | none => exact absurd hx (by simp only [Attr.loc]; decide)
            | some q => simp
          | own p l => simp
        omega
    · cases e : insertAt root (off + i) a with
      | none => simp [e] at h
      | some r =>
        rw [e] at h
        unfold insertAt at e
        split at e
        · cases e
          obtain ⟨h1, h2, h3⟩ := insertAll_mono new _ _ _ h
          refine ⟨fun b hb => h1 b ?_, fun b hb hn => ?_, ?_⟩
          · rw [← List.take_append_drop (off + i) root] at hb
            simp only [List.mem_append, List.mem_cons] at hb ⊢
            rcases hb with hb | hb
            · exact .inl hb
            · exact .inr (.inr hb)
          · rcases List.mem_cons.1 hb with rfl | hb
            · exact h1 _ (by simp)
            · exact h2 b hb hn
          · have e : defaults (root.take (off + i) ++ a :: root.drop (off + i)) + defaults new = defaults root + defaults (a :: new) := by
              conv => rhs; rw [← List.take_append_drop (off + i) root]
              simp only [defaults, List.countP_append, List.countP_cons]
              omega
            omega
        · cases e

theorem addAttrs_mono {s s' : State} {as : List Attr} (h : addAttrs s as = some s') :
    (∀ a ∈ s.root, a ∈ s'.root) ∧ (∀ a ∈ (missing s.map (as.map Attr.prefix)).2, a.loc ≠ lit "xml" → a ∈ s'.root) ∧
      defaults s.root + defaults (missing s.map (as.map Attr.prefix)).2 ≤ defaults s'.root ∧ s'.map = (missing s.map (as.map Attr.prefix)).1 := by
  unfold addAttrs at h
  split at h
  · cases h
  · rename_i r hr
    cases h
    obtain ⟨h1, h2, h3⟩ := insertAll_mono _ _ _ _ hr
    exact ⟨h1, h2, h3, rfl⟩

theorem setNamed_has {as : List Attr} {p q : Option Str} {u : Str} (hq : q ≠ none) (h : Has p as) : Has p (setNamed as (.decl q u)) := by
  obtain ⟨v, hv⟩ := h
  unfold setNamed
  split
  · rename_i i hi
    obtain ⟨hlt, hprop, _⟩ := List.findIdx?_eq_some_iff_getElem.1 hi
    obtain ⟨j, hj, he⟩ := List.getElem_of_mem hv
    by_cases hij : i = j
    · subst hij
      rw [he] at hprop
      cases q with
      | none => exact absurd rfl hq
      | some q =>
        cases p with
        | none => simp [Attr.prefix, Prefix.eq, Prefix.isNs, Prefix.ns] at hprop
        | some p =>
          simp only [Attr.loc, Bool.and_eq_true] at hprop
          obtain rfl := of_decide_eq_true hprop.2
          exact ⟨u, List.mem_iff_getElem.2 ⟨i, by simpa using hlt, by simp⟩⟩
    · exact ⟨v, List.mem_iff_getElem.2 ⟨j, by simpa using hj, by simp [hij, he]⟩⟩
  · exact ⟨v, by simp [hv]⟩

theorem setNamed_new_has {as : List Attr} {p : Option Str} {u : Str} : Attr.decl p u ∈ setNamed as (.decl p u) := by
  unfold setNamed
  split
  · rename_i i hi
    obtain ⟨hlt, _, _⟩ := List.findIdx?_eq_some_iff_getElem.1 hi
    exact List.mem_iff_getElem.2 ⟨i, by simpa using hlt, by simp⟩
  · simp

theorem setNamed_defaults {as : List Attr} {q u : Str} : defaults (setNamed as (.decl (some q) u)) = defaults as := by
  unfold setNamed
  split
  · rename_i i hi
    obtain ⟨hlt, hprop, _⟩ := List.findIdx?_eq_some_iff_getElem.1 hi
    have hb : (match as[i] with | .decl none _ => true | _ => false) = false := by
      cases hx : as[i] with
      | decl p v => cases p with
        | none => rw [hx] at hprop; simp [Attr.prefix, Prefix.eq, Prefix.isNs, Prefix.ns] at hprop
        | some p => rfl
      | own p l => rfl
    have e1 : as = as.take i ++ as[i] :: as.drop (i + 1) := by simp
    rw [List.set_eq_take_append_cons_drop, if_pos hlt]
    conv => rhs; rw [e1]
    simp only [defaults, List.countP_append, List.countP_cons, hb]
  · simp [defaults, List.countP_append]

/-! ## A root with a prefix -/

theorem missing_xmlns {m : Map} {ps : List Prefix} (hm : m.get (some (lit "xmlns")) = none) (hp : Prefix.std .xmlns ∈ ps)
    (hv : ∀ p ∈ ps, p.value = some (lit "xmlns") → p = .std .xmlns) : Attr.decl (some (lit "xmlns")) xmlnsUri ∈ (missing m ps).2 := by
  induction ps generalizing m with
  | nil => simp at hp
  | cons p ps ih =>
    simp only [missing]
    by_cases e : p = .std .xmlns
    · subst e
      have hf : findNew m (.std .xmlns) = some (m.insert (some (lit "xmlns")) xmlnsUri, .decl (some (lit "xmlns")) xmlnsUri) := by
        rw [findNew_eq (by decide)]
        exact if_neg (by rw [show (Prefix.std .xmlns).value = some (lit "xmlns") from rfl, hm]; simp)
      simp [hf]
    · have hp' : Prefix.std .xmlns ∈ ps := by
        rcases List.mem_cons.1 hp with h | h
        · exact absurd h.symm e
        · exact h
      have hne : p.value ≠ some (lit "xmlns") := fun k => e (hv p (by simp) k)
      cases hf : findNew m p with
      | none => exact ih hm hp' fun q hq => hv q (by simp [hq])
      | some x =>
        obtain ⟨m', a⟩ := x
        unfold findNew at hf
        split at hf
        · cases hf
          exact List.mem_cons_of_mem _ (ih (by rw [get_insert, if_neg hne]; exact hm) hp' fun q hq => hv q (by simp [hq]))
        · cases hf

/-- Below the root, declarations stay and none but defaults are made elsewhere. -/
theorem addChild_mono {s s' : State} {p : Prefix} {as os : List Attr} (h : addChild s p as = some (s', os)) :
    (∀ q, Has q s.root → Has q s'.root) ∧ defaults s.root ≤ defaults s'.root ∧ (os = as ∨ ∃ u, os = .decl none u :: as) := by
  unfold addChild at h
  split at h
  · simp only [Option.map_eq_some_iff, Prod.mk.injEq] at h
    obtain ⟨t, ht, rfl, rfl⟩ := h
    obtain ⟨h1, _, h3, _⟩ := addAttrs_mono ht
    exact ⟨fun q ⟨u, hu⟩ => ⟨u, h1 _ hu⟩, by omega, .inl rfl⟩
  · rename_i m u _
    simp only [Option.map_eq_some_iff, Prod.mk.injEq] at h
    obtain ⟨t, ht, rfl, rfl⟩ := h
    obtain ⟨h1, _, h3, _⟩ := addAttrs_mono ht
    exact ⟨fun q ⟨u, hu⟩ => ⟨u, h1 _ hu⟩, by simp only at h3; omega, .inr ⟨u, rfl⟩⟩
  · rename_i m a hn hf
    simp only [Option.map_eq_some_iff, Prod.mk.injEq] at h
    obtain ⟨t, ht, rfl, rfl⟩ := h
    obtain ⟨h1, _, h3, _⟩ := addAttrs_mono ht
    unfold findNew at hf
    split at hf
    · simp only [Option.some.injEq, Prod.mk.injEq] at hf
      obtain ⟨_, rfl⟩ := hf
      cases hv : p.value with
      | none => exact absurd (by rw [hv]) (hn p.ns.uri)
      | some q =>
        simp only [hv] at h1 h3
        refine ⟨fun r hr => ?_, ?_, .inl rfl⟩
        · obtain ⟨u, hu⟩ := setNamed_has (q := some q) (u := p.ns.uri) (by simp) hr
          exact ⟨u, h1 _ hu⟩
        · rw [setNamed_defaults] at h3; omega
    · cases hf

mutual
theorem child_mono : ∀ (e : Elem) (s s' : State) (o : Out), child s e = some (s', o) → (∀ q, Has q s.root → Has q s'.root) ∧ defaults s.root ≤ defaults s'.root
  | .mk n as ks, s, s', o, h => by
    simp only [child] at h
    cases e1 : addChild s n.prefix (ownAttrs as) with
    | none => simp [e1] at h
    | some x =>
      obtain ⟨s1, os⟩ := x
      rw [e1] at h
      simp only at h
      cases e2 : children s1 ks with
      | none => simp [e2] at h
      | some y =>
        obtain ⟨s2, outs⟩ := y
        rw [e2] at h
        cases h
        have h1 := addChild_mono e1
        have h2 := children_mono ks s1 _ outs e2
        exact ⟨fun q hq => h2.1 q (h1.1 q hq), by omega⟩
theorem children_mono : ∀ (es : List Elem) (s s' : State) (os : List Out), children s es = some (s', os) →
    (∀ q, Has q s.root → Has q s'.root) ∧ defaults s.root ≤ defaults s'.root
  | [], s, s', os, h => by simp [children] at h; rw [h.1]; exact ⟨fun _ h => h, Nat.le_refl _⟩
  | e :: es, s, s', os, h => by
    simp only [children] at h
    cases e1 : child s e with
    | none => simp [e1] at h
    | some x =>
      obtain ⟨s1, o⟩ := x
      rw [e1] at h
      simp only at h
      cases e2 : children s1 es with
      | none => simp [e2] at h
      | some y =>
        obtain ⟨s2, outs⟩ := y
        rw [e2] at h
        cases h
        have h1 := child_mono e s s1 o e1
        have h2 := children_mono es s1 _ outs e2
        exact ⟨fun q hq => h2.1 q (h1.1 q hq), by omega⟩
end

theorem attr_xmlns {a : Name} (h : Fair a) : a.prefix.value ≠ some (lit "xmlns") := by rw [(prefix_spec a).1]; exact h.2.1

theorem addRoot_prefixed {n : Name} {as : List Name} {s : State} (hn : Fair n) (has : ∀ a ∈ as, Fair a) (hp : n.pre ≠ none)
    (h : addRoot n.prefix (ownAttrs as) = some s) : Has (some (lit "xmlns")) s.root := by
  obtain ⟨hv, hu⟩ := prefix_spec n
  have hne : n.prefix.ns.uri ≠ [] := by rw [hu]; exact meaning_ne hn
  cases hq : n.pre with
  | none => exact absurd hq hp
  | some q =>
    have hf : findNew [] n.prefix = some (Map.insert [] (some q) n.prefix.ns.uri, .decl (some q) n.prefix.ns.uri) := by
      rw [findNew_eq hne, hv, hq]
      exact if_neg (by simp [Map.get])
    simp only [addRoot, hf] at h
    obtain ⟨_, h2, _, _⟩ := addAttrs_mono h
    refine ⟨xmlnsUri, h2 _ (missing_xmlns ?_ ?_ ?_) (by simp only [Attr.loc]; decide)⟩
    · have : some q ≠ some (lit "xmlns") := by rw [← hq]; exact hn.2.1
      simp only [get_insert, if_neg this]
      rfl
    · rw [List.mem_map]
      exact ⟨_, setNamed_new_has, rfl⟩
    · intro p hp hv
      rw [List.mem_map] at hp
      obtain ⟨a, ha, rfl⟩ := hp
      cases a with
      | decl r u => cases r with
        | none => exact absurd hv (by simp only [Attr.prefix]; decide)
        | some r => rfl
      | own r l =>
        have : Attr.own r l ∈ ownAttrs as := by
          unfold setNamed at ha
          split at ha
          · have := List.mem_or_eq_of_mem_set ha
            simpa using this
          · simpa using ha
        simp only [ownAttrs, List.mem_map, Attr.own.injEq] at this
        obtain ⟨b, hb, rfl, rfl⟩ := this
        exact absurd hv (attr_xmlns (has b hb))

/-! ## Elements without a prefix in other namespaces -/

theorem missing_default {ps : List Prefix} (hp : ∀ p ∈ ps, Usable p) : ∀ (m : Map), m.get none = some svgUri → (missing m ps).1.get none = some svgUri := by
  induction ps with
  | nil => intro m h; exact h
  | cons p ps ih =>
    intro m h
    have hps := fun q hq => hp q (List.mem_cons_of_mem p hq)
    simp only [missing, findNew_eq (hp p (by simp)).uri]
    split
    · rename_i e
      split at e
      · exact ih hps m h
      · cases e
    · rename_i m' a e
      split at e
      · cases e
      · cases e
        refine ih hps _ ?_
        rw [get_insert]
        split
        · rename_i k; rw [(hp p (by simp)).none k]
        · exact h

theorem missing_first {ps : List Prefix} (hp : ∀ p ∈ ps, Usable p) {m : Map} (h : m.get none ≠ some svgUri) :
    1 ≤ defaults (missing m (.std .svg :: ps)).2 ∧ (missing m (.std .svg :: ps)).1.get none = some svgUri := by
  have hf : findNew m (.std .svg) = some (m.insert none svgUri, .decl none svgUri) := by
    rw [findNew_eq (by decide)]
    exact if_neg h
  simp only [missing, hf]
  refine ⟨by simp [defaults, List.countP_cons], missing_default hp _ (by rw [get_insert, if_pos rfl])⟩

theorem own_usable {as : List Name} (h : ∀ a ∈ as, Fair a ∧ (a.pre = none → a.uri = [])) : ∀ p ∈ (ownAttrs as).map Attr.prefix, Usable p := by
  intro p hp
  simp only [ownAttrs, List.map_map, List.mem_map, Function.comp_apply, Attr.prefix] at hp
  obtain ⟨a, ha, rfl⟩ := hp
  exact usable_attr (h a ha).1 (h a ha).2

theorem addChild_default {s s' : State} {n : Name} {as : List Name} {os : List Attr} (hn : Fair n)
    (has : ∀ a ∈ as, Fair a ∧ (a.pre = none → a.uri = [])) (hs : s.map.get none = some svgUri)
    (h : addChild s n.prefix (ownAttrs as) = some (s', os)) :
    s'.map.get none = some svgUri ∧ (n.pre = none → meaning n ≠ svgUri → defaults s.root + 1 ≤ defaults s'.root) := by
  obtain ⟨hv, hu⟩ := prefix_spec n
  have hne : n.prefix.ns.uri ≠ [] := by rw [hu]; exact meaning_ne hn
  have hus := own_usable has
  simp only [addChild, findNew_eq hne] at h
  by_cases hk : s.map.get n.prefix.value = some n.prefix.ns.uri
  · simp only [if_pos hk, Option.map_eq_some_iff, Prod.mk.injEq] at h
    obtain ⟨t, ht, rfl, rfl⟩ := h
    obtain ⟨_, _, _, h4⟩ := addAttrs_mono ht
    refine ⟨by rw [h4]; exact missing_default hus _ hs, fun hp hm => ?_⟩
    rw [hv, hp, hs, hu] at hk
    exact absurd (Option.some.inj hk).symm hm
  · rw [if_neg hk] at h
    cases hp : n.pre with
    | none =>
      simp only [hv, hp, Option.map_eq_some_iff, Prod.mk.injEq] at h
      obtain ⟨t, ht, rfl, rfl⟩ := h
      obtain ⟨_, _, h3, h4⟩ := addAttrs_mono ht
      have hm : n.prefix.ns.uri ≠ svgUri := fun e => hk (by rw [hv, hp, hs, e])
      have hf := missing_first hus (m := s.map.insert none n.prefix.ns.uri) (by rw [get_insert, if_pos rfl]; exact fun e => hm (Option.some.inj e))
      simp only [List.map_cons] at h3 h4
      have e0 : (Attr.decl none n.prefix.ns.uri).prefix = .std .svg := rfl
      rw [e0] at h3 h4
      exact ⟨by rw [h4]; exact hf.2, fun _ _ => by omega⟩
    | some q =>
      simp only [hv, hp, Option.map_eq_some_iff, Prod.mk.injEq] at h
      obtain ⟨t, ht, rfl, rfl⟩ := h
      obtain ⟨_, _, _, h4⟩ := addAttrs_mono ht
      refine ⟨?_, fun k => by simp at k⟩
      rw [h4]
      exact missing_default hus _ (by simp only [get_insert, reduceCtorEq, if_false]; exact hs)

mutual
theorem child_default : ∀ (e : Elem) (s s' : State) (o : Out), Bound e → s.map.get none = some svgUri → child s e = some (s', o) →
    s'.map.get none = some svgUri ∧ ((∃ n ∈ elemNames e, n.pre = none ∧ meaning n ≠ svgUri) → defaults s.root + 1 ≤ defaults s'.root)
  | .mk n as ks, s, s', o, hb, hs, h => by
    simp only [child] at h
    cases e1 : addChild s n.prefix (ownAttrs as) with
    | none => simp [e1] at h
    | some x =>
      obtain ⟨s1, os⟩ := x
      rw [e1] at h
      simp only at h
      cases e2 : children s1 ks with
      | none => simp [e2] at h
      | some y =>
        obtain ⟨s2, outs⟩ := y
        rw [e2] at h
        cases h
        obtain ⟨d1, d2⟩ := addChild_default (hb.1 n (by simp [elemNames])) (fun a ha => hb.2 a (by simp [attrNames, ha])) hs e1
        obtain ⟨d3, d4⟩ := children_default ks s1 _ outs (fun n hn => hb.1 n (by simp [elemNames, hn])) (fun a ha => hb.2 a (by simp [attrNames, ha])) d1 e2
        have m1 := (addChild_mono e1).2.1
        have m2 := (children_mono ks s1 _ outs e2).2
        refine ⟨d3, ?_⟩
        rintro ⟨m, hm, hp, hx⟩
        simp only [elemNames, List.mem_cons] at hm
        rcases hm with rfl | hm
        · have := d2 hp hx; omega
        · have := d4 ⟨m, hm, hp, hx⟩; omega
theorem children_default : ∀ (es : List Elem) (s s' : State) (os : List Out), (∀ n ∈ elemNamesAll es, Fair n) →
    (∀ a ∈ attrNamesAll es, Fair a ∧ (a.pre = none → a.uri = [])) → s.map.get none = some svgUri → children s es = some (s', os) →
    s'.map.get none = some svgUri ∧ ((∃ n ∈ elemNamesAll es, n.pre = none ∧ meaning n ≠ svgUri) → defaults s.root + 1 ≤ defaults s'.root)
  | [], s, s', os, _, _, hs, h => by simp [children] at h; rw [← h.1]; exact ⟨hs, by simp [elemNamesAll]⟩
  | e :: es, s, s', os, hb1, hb2, hs, h => by
    simp only [children] at h
    cases e1 : child s e with
    | none => simp [e1] at h
    | some x =>
      obtain ⟨s1, o⟩ := x
      rw [e1] at h
      simp only at h
      cases e2 : children s1 es with
      | none => simp [e2] at h
      | some y =>
        obtain ⟨s2, outs⟩ := y
        rw [e2] at h
        cases h
        obtain ⟨d1, d2⟩ := child_default e s s1 o ⟨fun n hn => hb1 n (by simp [elemNamesAll, hn]), fun a ha => hb2 a (by simp [attrNamesAll, ha])⟩ hs e1
        obtain ⟨d3, d4⟩ := children_default es s1 _ outs (fun n hn => hb1 n (by simp [elemNamesAll, hn])) (fun a ha => hb2 a (by simp [attrNamesAll, ha])) d1 e2
        have m1 := (child_mono e s s1 o e1).2
        have m2 := (children_mono es s1 _ outs e2).2
        refine ⟨d3, ?_⟩
        rintro ⟨m, hm, hp, hx⟩
        simp only [elemNamesAll, List.mem_append] at hm
        rcases hm with hm | hm
        · have := d2 ⟨m, hm, hp, hx⟩; omega
        · have := d4 ⟨m, hm, hp, hx⟩; omega
end

theorem addRoot_default {n : Name} {as : List Name} {s : State} (hn : Fair n) (has : ∀ a ∈ as, Fair a ∧ (a.pre = none → a.uri = []))
    (hp : n.pre = none) (h : addRoot n.prefix (ownAttrs as) = some s) :
    s.map.get none = some svgUri ∧ 1 ≤ defaults s.root ∧ (meaning n ≠ svgUri → 2 ≤ defaults s.root) := by
  obtain ⟨hv, hu⟩ := prefix_spec n
  have hne : n.prefix.ns.uri ≠ [] := by rw [hu]; exact meaning_ne hn
  have hus := own_usable has
  have hf : findNew [] n.prefix = some (Map.insert [] none n.prefix.ns.uri, .decl none n.prefix.ns.uri) := by
    rw [findNew_eq hne, hv, hp]
    exact if_neg (by simp [Map.get])
  simp only [addRoot, hf] at h
  obtain ⟨_, _, h3, h4⟩ := addAttrs_mono h
  simp only [List.map_cons] at h3 h4
  have e0 : (Attr.decl none n.prefix.ns.uri).prefix = .std .svg := rfl
  rw [e0] at h3 h4
  have hc : defaults (Attr.decl none n.prefix.ns.uri :: ownAttrs as) = defaults (ownAttrs as) + 1 := by simp [defaults, List.countP_cons]
  rw [hc] at h3
  by_cases hm : meaning n = svgUri
  · refine ⟨?_, by omega, fun k => absurd hm k⟩
    rw [h4]
    refine missing_default (fun p hp => ?_) _ (by rw [get_insert, if_pos rfl, hu, hm])
    rcases List.mem_cons.1 hp with rfl | hp
    · exact usable_decl none []
    · exact hus p hp
  · have hfi := missing_first hus (m := Map.insert [] none n.prefix.ns.uri) (by rw [get_insert, if_pos rfl, hu]; exact fun e => hm (Option.some.inj e))
    exact ⟨by rw [h4]; exact hfi.2, by omega, fun _ => by omega⟩

theorem legal_defaults {as : List Attr} (h : Legal as) : defaults as ≤ 1 := by
  replace h := h.1
  induction as with
  | nil => simp [defaults]
  | cons a as ih =>
    obtain ⟨h1, h2⟩ := List.pairwise_cons.1 h
    have := ih h2
    cases a with
    | decl p u => cases p with
      | none =>
        have : defaults as = 0 := by
          rw [defaults, List.countP_eq_zero]
          intro b hb
          cases b with
          | decl q v => cases q with
            | none => exact absurd ⟨rfl, rfl⟩ (h1 _ hb none u v)
            | some q => simp
          | own q l => simp
        simp only [defaults, List.countP_cons] at this ⊢
        simp [this]
      | some q => simpa [defaults, List.countP_cons] using this
    | own q l => simpa [defaults, List.countP_cons] using this

/-! ## Prefixes with more than one meaning -/

theorem within_child {as : List Name} {os : List Attr} (h : os = ownAttrs as ∨ ∃ u, os = .decl none u :: ownAttrs as) (sc : Scope) (q : Str) :
    within os sc (some q) = sc (some q) := by
  have e := congrFun (ownAttrs_none as sc) (some q)
  rcases h with rfl | ⟨u, rfl⟩
  · exact e
  · have : within (.decl none u :: ownAttrs as) sc (some q) = within (ownAttrs as) sc (some q) := by
      simp [within, Attr.declares]
    rw [this, e]

mutual
theorem child_scope : ∀ (e : Elem) (s s' : State) (o : Out) (sc : Scope), child s e = some (s', o) → Kept sc e o →
    ∀ n ∈ elemNames e ++ attrNames e, ∀ q, n.pre = some q → sc (some q) = some n.uri
  | .mk n as ks, s, s', o, sc, h, hk => by
    simp only [child] at h
    cases e1 : addChild s n.prefix (ownAttrs as) with
    | none => simp [e1] at h
    | some x =>
      obtain ⟨s1, os⟩ := x
      rw [e1] at h
      simp only at h
      cases e2 : children s1 ks with
      | none => simp [e2] at h
      | some y =>
        obtain ⟨s2, outs⟩ := y
        rw [e2] at h
        cases h
        have hw := within_child (as := as) (addChild_mono e1).2.2 sc
        simp only [Kept] at hk
        obtain ⟨_, _, _, k4, _, k6, k7⟩ := hk
        intro m hm q hq
        have hc := children_scope ks s1 _ outs (within os sc) e2 k7
        simp only [elemNames, attrNames, List.mem_append, List.mem_cons] at hm
        rcases hm with (rfl | hm) | (hm | hm)
        · rw [hq, hw, meaning_some (by simp [hq])] at k4; exact k4
        · rw [← hw]; exact hc m (by simp [hm]) q hq
        · have := k6 m hm (by simp [hq]); rw [hq, hw] at this; exact this
        · rw [← hw]; exact hc m (by simp [hm]) q hq
theorem children_scope : ∀ (es : List Elem) (s s' : State) (os : List Out) (sc : Scope), children s es = some (s', os) → KeptAll sc es os →
    ∀ n ∈ elemNamesAll es ++ attrNamesAll es, ∀ q, n.pre = some q → sc (some q) = some n.uri
  | [], _, _, _, _, _, _ => by simp [elemNamesAll, attrNamesAll]
  | e :: es, s, s', os, sc, h, hk => by
    simp only [children] at h
    cases e1 : child s e with
    | none => simp [e1] at h
    | some x =>
      obtain ⟨s1, o⟩ := x
      rw [e1] at h
      simp only at h
      cases e2 : children s1 es with
      | none => simp [e2] at h
      | some y =>
        obtain ⟨s2, outs⟩ := y
        rw [e2] at h
        cases h
        simp only [KeptAll] at hk
        intro m hm q hq
        simp only [elemNamesAll, attrNamesAll, List.mem_append] at hm
        rcases hm with (hm | hm) | (hm | hm)
        · exact child_scope e s s1 o sc e1 hk.1 m (by simp [hm]) q hq
        · exact children_scope es s1 _ outs sc e2 hk.2 m (by simp [hm]) q hq
        · exact child_scope e s s1 o sc e1 hk.1 m (by simp [hm]) q hq
        · exact children_scope es s1 _ outs sc e2 hk.2 m (by simp [hm]) q hq
end

/-! ## The property -/

/-- **C90 (exactly)** A document in which prefixes are bound, none of them `xml`, is parsed into one that says the same about namespaces iff
its root has no prefix, all elements without a prefix are in the namespace of SVG (or in none), and no prefix is used for two namespaces. -/
theorem namespaces_kept_iff {e : Elem} (hb : Bound e) : (∃ o, parse e = some o ∧ Kept top e o) ↔
    e.name.pre = none ∧ (∀ n ∈ elemNames e, n.pre = none → n.uri = svgUri ∨ n.uri = []) ∧
      ∀ n ∈ elemNames e ++ attrNames e, ∀ m ∈ elemNames e ++ attrNames e, n.pre ≠ none → n.pre = m.pre → n.uri = m.uri := by
  have hmean : ∀ n : Name, n.pre = none → (meaning n = svgUri ↔ n.uri = svgUri ∨ n.uri = []) := by
    intro n hn
    by_cases h : n.uri = []
    · simp [meaning, hn, h]
    · simp [meaning, h]
  constructor
  · rintro ⟨o, ho, hk⟩
    cases e with
    | mk n as ks =>
      simp only [parse] at ho
      cases e1 : addRoot n.prefix (ownAttrs as) with
      | none => simp [e1] at ho
      | some s =>
        rw [e1] at ho
        simp only at ho
        cases e2 : children s ks with
        | none => simp [e2] at ho
        | some y =>
          obtain ⟨s2, outs⟩ := y
          rw [e2] at ho
          cases ho
          simp only [Kept] at hk
          obtain ⟨hl, _, _, k4, _, k6, k7⟩ := hk
          have hn := hb.1 n (by simp [elemNames])
          have hpre : n.pre = none := by
            by_cases hp : n.pre = none
            · exact hp
            · have hx := addRoot_prefixed hn (fun a ha => (hb.2 a (by simp [attrNames, ha])).1) hp e1
              obtain ⟨u, hu⟩ := (children_mono ks s _ outs e2).1 _ hx
              exact absurd hu (hl.2 u)
          obtain ⟨d1, d2, d3⟩ := addRoot_default hn (fun a ha => hb.2 a (by simp [attrNames, ha])) hpre e1
          obtain ⟨_, d4⟩ := children_default ks s _ outs (fun m hm => hb.1 m (by simp [elemNames, hm])) (fun a ha => hb.2 a (by simp [attrNames, ha])) d1 e2
          have hle := legal_defaults hl
          have hm2 := (children_mono ks s _ outs e2).2
          have hsvg : ∀ m ∈ elemNames (.mk n as ks), m.pre = none → meaning m = svgUri := by
            intro m hm hp
            by_cases hx : meaning m = svgUri
            · exact hx
            · simp only [elemNames, List.mem_cons] at hm
              rcases hm with rfl | hm
              · have := d3 hx; omega
              · have := d4 ⟨m, hm, hp, hx⟩; omega
          refine ⟨hpre, fun m hm hp => (hmean m hp).1 (hsvg m hm hp), ?_⟩
          have hc := children_scope ks s _ outs _ e2 k7
          have key : ∀ m ∈ elemNames (.mk n as ks) ++ attrNames (.mk n as ks), ∀ q, m.pre = some q → within s2.root top (some q) = some m.uri := by
            intro m hm q hq
            simp only [elemNames, attrNames, List.mem_append, List.mem_cons] at hm
            rcases hm with (rfl | hm) | (hm | hm)
            · rw [hpre] at hq; cases hq
            · exact hc m (by simp [hm]) q hq
            · have := k6 m hm (by simp [hq]); rw [hq] at this; exact this
            · exact hc m (by simp [hm]) q hq
          intro a ha b hbm hne hab
          cases hq : a.pre with
          | none => exact absurd hq hne
          | some q =>
            have h1 := key a ha q hq
            have h2 := key b hbm q (by rw [← hab, hq])
            rw [h1] at h2
            exact Option.some.inj h2
  · rintro ⟨h1, h2, h3⟩
    let U : Option Str → Str := fun p => if p = none then svgUri else
      match (elemNames e ++ attrNames e).find? fun n => n.pre = p with
      | some n => n.uri
      | none => []
    have hU : ∀ n ∈ elemNames e ++ attrNames e, n.pre ≠ none → n.uri = U n.pre := by
      intro n hn hp
      simp only [U, if_neg hp]
      cases hf : (elemNames e ++ attrNames e).find? fun m => m.pre = n.pre with
      | none => have := List.find?_eq_none.1 hf n hn; simp at this
      | some m =>
        have hm := List.mem_of_find?_eq_some hf
        have hpm := List.find?_some hf
        simp only [decide_eq_true_eq] at hpm
        exact h3 n hn m hm hp hpm.symm
    refine parse_kept (U := U) (by simp [U]) e h1 ⟨fun n hn => ⟨hb.1 n hn, ?_⟩, fun a ha => ⟨(hb.2 a ha).1, (hb.2 a ha).2, ?_⟩⟩
    · by_cases hp : n.pre = none
      · rw [(hmean n hp).2 (h2 n hn hp), hp]; simp [U]
      · rw [meaning_some hp]; exact hU n (by simp [hn]) hp
    · by_cases hp : a.pre = none
      · rw [meaning_none hp ((hb.2 a ha).2 hp), hp]; simp [U]
      · rw [meaning_some hp]; exact hU a (by simp [ha]) hp

end Verif.Sink
