import Verif.Names.Model

/-!
# C33: qualified names keep their spelling, and equality is equality of expanded names

Specification: the expanded name of Namespaces in XML 1.0, section 2.1 - the pair of namespace URI and
local name - and the spelling `prefix:local`.
-/

namespace Verif.Names

variable {K V : Type}

/-- Specification: the namespace URI a prefix is bound to. -/
def Prefix.uri (p : Prefix) : Str := p.ns.uri

/-- Specification: expanded name of an attribute id. -/
def AttrId.expanded (T : Table K) (i : AttrId K) : Str × Str := ((i.prefix' T).uri, i.loc T)

/-- Specification: expanded name of an attribute. -/
def Attr.expanded (T : Table K) (a : Attr K V) : Str × Str := ((a.prefix' T).uri, a.loc T)

theorem mem_all (s : StdNs) : s ∈ StdNs.all := by cases s <;> decide

theorem uri_injective {s t : StdNs} (h : s.uri = t.uri) : s = t := by
  have : ∀ s ∈ StdNs.all, ∀ t ∈ StdNs.all, s.uri = t.uri → s = t := by decide +kernel
  exact this s (mem_all s) t (mem_all t) h

theorem uri_ne_nil (s : StdNs) : s.uri ≠ [] := by
  have : ∀ s ∈ StdNs.all, s.uri ≠ [] := by decide +kernel
  exact this s (mem_all s)

theorem find_uri (u : Str) :
    (∃ s, StdNs.all.find? (fun s => s.uri == u) = some s ∧ s.uri = u) ∨
    (StdNs.all.find? (fun s => s.uri == u) = none ∧ ∀ s : StdNs, s.uri ≠ u) := by
  cases h : StdNs.all.find? (fun s => s.uri == u) with
  | some s => exact .inl ⟨s, rfl, by simpa using List.find?_some h⟩
  | none =>
    refine .inr ⟨rfl, fun s hs => ?_⟩
    have := List.find?_eq_none.1 h s (mem_all s)
    simp [hs] at this

theorem NS.new_uri (u : Str) : (NS.new u).uri = u := by
  unfold NS.new
  rcases find_uri u with ⟨s, h, e⟩ | ⟨h, _⟩ <;> simp [h, NS.uri]
  exact e

/-- The constructor makes well-formed prefixes only. -/
theorem new_wf (u : Str) (p : Option Str) : (Prefix.new u p).WF := by
  unfold Prefix.new
  cases h : StdNs.all.find? (fun s => s.uri == u && s.name == p) with
  | some s => simp [Prefix.WF]
  | none =>
    simp only
    rcases find_uri u with ⟨s, h, e⟩ | ⟨h, hn⟩
    · simp [h, Prefix.WF]
    · simp only [h]
      split
      · simp [Prefix.WF]
      · simp only [NS.new, h, Prefix.WF]; exact hn

/-- **C33 (construction).** A prefix made from a namespace and a spelling keeps both, unless it is the
missing namespace with no prefix, which is read as SVG's. -/
theorem new_uri_value (u : Str) (p : Option Str) (h : ¬(u = [] ∧ p = none)) :
    (Prefix.new u p).uri = u ∧ (Prefix.new u p).value = p := by
  unfold Prefix.new
  cases h1 : StdNs.all.find? (fun s => s.uri == u && s.name == p) with
  | some s =>
    have := List.find?_some h1
    simp only [Bool.and_eq_true, beq_iff_eq] at this
    exact ⟨this.1, this.2⟩
  | none =>
    simp only
    rcases find_uri u with ⟨s, h2, e⟩ | ⟨h2, hn⟩
    · simp [h2, Prefix.uri, Prefix.ns, NS.uri, Prefix.value, e]
    · simp only [h2]
      rw [if_neg (by simpa using h)]
      exact ⟨NS.new_uri u, rfl⟩

/-- **C33 (construction, no namespace).** -/
theorem new_none : Prefix.new [] none = .std .svg := by decide +kernel

theorem wf_cases {p : Prefix} (h : p.WF) :
    (∃ s, p.ns = .std s ∧ ∀ n, p.isNs n = (Prefix.std s).isNs n) ∨
    (∃ u, p.ns = .unknown u ∧ (∀ s : StdNs, s.uri ≠ u) ∧ ∀ n, p.isNs n = (Prefix.unknown none (.unknown u)).isNs n) := by
  match p, h with
  | .std s, _ => exact .inl ⟨s, rfl, fun _ => rfl⟩
  | .unknown q (.unknown u), h => exact .inr ⟨u, rfl, h, fun n => by cases n <;> rfl⟩
  | .aliased (.std s) a, _ => exact .inl ⟨s, rfl, fun _ => by simp [Prefix.isNs]⟩

/-- **C33 (prefix equality).** Prefixes are equal exactly if they are bound to the same namespace URI,
whatever their spelling. -/
theorem prefix_eq_iff {p q : Prefix} (hp : p.WF) (hq : q.WF) : p.eq q = true ↔ p.uri = q.uri := by
  unfold Prefix.eq Prefix.uri
  rcases wf_cases hp with ⟨s, e, hs⟩ | ⟨u, e, hu, hs⟩ <;>
  rcases wf_cases hq with ⟨t, f, _⟩ | ⟨w, f, hw, _⟩ <;>
  rw [hs, e, f] <;> simp only [Prefix.isNs, NS.uri]
  · simp only [beq_iff_eq]
    exact ⟨fun h => by rw [h], uri_injective⟩
  · simp only [Bool.false_eq_true, false_iff]; exact hw s
  · simp only [Bool.false_eq_true, false_iff]; exact fun h => hu t h.symm
  · simp

/-- Well-formed prefixes with the same URI have the same namespace value. -/
theorem ns_eq_of_uri {p q : Prefix} (hp : p.WF) (hq : q.WF) (h : p.uri = q.uri) : p.ns = q.ns := by
  unfold Prefix.uri at h
  rcases wf_cases hp with ⟨s, e, _⟩ | ⟨u, e, hu, _⟩ <;>
  rcases wf_cases hq with ⟨t, f, _⟩ | ⟨w, f, hw, _⟩ <;>
  rw [e, f] at h ⊢ <;> simp only [NS.uri] at h
  · rw [uri_injective h]
  · exact absurd h (hw s)
  · exact absurd h.symm (hu t)
  · rw [h]

/-- Well-formed ids: the id without alias and its namespace. -/
theorem id_wf_cases (T : Table K) {i : AttrId K} (h : i.WF T) :
    (∃ k, i.unaliased = .known k ∧ i.loc T = T.loc k ∧ (i.prefix' T).ns = .std (T.pre k) ∧ (i.prefix' T).WF) ∨
    (∃ p l, i.unaliased = .unknown p l ∧ i.loc T = l ∧ i.prefix' T = p ∧ p.WF) := by
  match i, h with
  | .known k, _ => exact .inl ⟨k, rfl, rfl, rfl, trivial⟩
  | .aliased p (.known k), h => exact .inl ⟨k, rfl, rfl, h.2, h.1⟩
  | .unknown p l, h => exact .inr ⟨p, l, rfl, rfl, rfl, h⟩

/-- **C33 (attribute ids).** Equal ids have equal expanded names. -/
theorem id_eq_expanded [DecidableEq K] (T : Table K) {i j : AttrId K} (hi : i.WF T) (hj : j.WF T) (h : i.eq j = true) :
    i.expanded T = j.expanded T := by
  unfold AttrId.eq at h
  unfold AttrId.expanded Prefix.uri
  rcases id_wf_cases T hi with ⟨k, u, l, n, _⟩ | ⟨p, l, u, e, n, w⟩ <;>
  rcases id_wf_cases T hj with ⟨k', u', l', n', _⟩ | ⟨p', l', u', e', n', w'⟩ <;>
  rw [u, u'] at h <;> simp at h
  · rw [n, n', l, l', h]
  · rw [n, n', e, e', h.2]
    have := (prefix_eq_iff w w').1 h.1
    unfold Prefix.uri at this; rw [this]

/-- **C33 (equivalence).** Equality of attribute ids is reflexive, symmetric and transitive. -/
theorem id_eq_refl [DecidableEq K] (T : Table K) {i : AttrId K} (hi : i.WF T) : i.eq i = true := by
  unfold AttrId.eq
  rcases id_wf_cases T hi with ⟨k, u, l, n, _⟩ | ⟨p, l, u, e, n, w⟩ <;> rw [u]
  · simp
  · simp [(prefix_eq_iff w w).2 rfl]

theorem id_eq_symm [DecidableEq K] (T : Table K) {i j : AttrId K} (hi : i.WF T) (hj : j.WF T) (h : i.eq j = true) :
    j.eq i = true := by
  unfold AttrId.eq at h ⊢
  rcases id_wf_cases T hi with ⟨k, u, l, n, _⟩ | ⟨p, l, u, e, n, w⟩ <;>
  rcases id_wf_cases T hj with ⟨k', u', l', n', _⟩ | ⟨p', l', u', e', n', w'⟩ <;>
  rw [u, u'] at h <;> simp at h <;> rw [u, u']
  · simp [h]
  · simp only [Bool.and_eq_true, beq_iff_eq]
    exact ⟨(prefix_eq_iff w' w).2 ((prefix_eq_iff w w').1 h.1).symm, h.2.symm⟩

theorem id_eq_trans [DecidableEq K] (T : Table K) {i j m : AttrId K} (hi : i.WF T) (hj : j.WF T) (hm : m.WF T)
    (h : i.eq j = true) (h' : j.eq m = true) : i.eq m = true := by
  unfold AttrId.eq at h h' ⊢
  rcases id_wf_cases T hi with ⟨k, u, l, n, _⟩ | ⟨p, l, u, e, n, w⟩ <;>
  rcases id_wf_cases T hj with ⟨k', u', l', n', _⟩ | ⟨p', l', u', e', n', w'⟩ <;>
  rcases id_wf_cases T hm with ⟨k'', u'', l'', n'', _⟩ | ⟨p'', l'', u'', e'', n'', w''⟩ <;>
  rw [u, u'] at h <;> rw [u', u''] at h' <;> simp at h h' <;> rw [u, u'']
  · simp [h, h']
  · simp only [Bool.and_eq_true, beq_iff_eq]
    exact ⟨(prefix_eq_iff w w'').2 (((prefix_eq_iff w w').1 h.1).trans ((prefix_eq_iff w' w'').1 h'.1)),
      h.2.trans h'.2⟩

theorem parseAttrId_wf (T : Table K) (attrs : List K) {p : Prefix} (hp : p.WF) (l : Str) :
    (parseAttrId T attrs p l).WF T := by
  unfold parseAttrId
  split
  · rename_i k hk
    have := List.find?_some hk
    simp only [Bool.and_eq_true, beq_iff_eq] at this
    split
    · exact ⟨hp, (ns_eq_of_uri (q := .std (T.pre k)) hp trivial ((prefix_eq_iff (p := .std (T.pre k)) trivial hp).1 this.1).symm)⟩
    · trivial
  · exact hp

/-- **C33 (recognition).** The id recognised for a spelled name has the expanded name of the spelling. -/
theorem parseAttrId_expanded (T : Table K) (attrs : List K) {p : Prefix} (hp : p.WF) (l : Str) :
    (parseAttrId T attrs p l).expanded T = (p.uri, l) := by
  unfold parseAttrId
  split
  · rename_i k hk
    have := List.find?_some hk
    simp only [Bool.and_eq_true, beq_iff_eq] at this
    have hu := (prefix_eq_iff (p := .std (T.pre k)) trivial hp).1 this.1
    split
    · simp [AttrId.expanded, AttrId.prefix', AttrId.loc, this.2]
    · simp [AttrId.expanded, AttrId.prefix', AttrId.loc, this.2, ← hu]
  · rfl

/-- **C33 (recognition is by expanded name).** For one element, ids recognised for names with the same
expanded name are equal, whatever prefix they are spelled with. -/
theorem parseAttrId_eq [DecidableEq K] (T : Table K) (attrs : List K) {p q : Prefix} (hp : p.WF) (hq : q.WF)
    (h : p.uri = q.uri) (l : Str) :
    (parseAttrId T attrs p l).eq (parseAttrId T attrs q l) = true := by
  have e : ∀ k : K, (Prefix.std (T.pre k)).eq p = (Prefix.std (T.pre k)).eq q := by
    intro k
    rw [Bool.eq_iff_iff, prefix_eq_iff (p := .std (T.pre k)) trivial hp,
      prefix_eq_iff (p := .std (T.pre k)) trivial hq, h]
  unfold parseAttrId
  simp only [e]
  cases attrs.find? (fun k => (Prefix.std (T.pre k)).eq q && T.loc k == l) with
  | none => simp [AttrId.eq, AttrId.unaliased, (prefix_eq_iff hp hq).2 h]
  | some k => by_cases h1 : p.isAliased <;> by_cases h2 : q.isAliased <;> simp [h1, h2, AttrId.eq, AttrId.unaliased]

/-- **C33 (recognition keeps the spelling).** The prefix printed for a recognised name is the prefix that was
spelled. -/
theorem parseAttrId_spelling (T : Table K) (attrs : List K) (u l : Str) (s : Option Str)
    (h : ¬(u = [] ∧ s = none)) :
    ((parseAttrId T attrs (Prefix.new u s) l).prefix' T).value = s := by
  obtain ⟨hu, hv⟩ := new_uri_value u s h
  unfold parseAttrId
  split
  · rename_i k hk
    have := List.find?_some hk
    simp only [Bool.and_eq_true] at this
    have he := (prefix_eq_iff (p := .std (T.pre k)) trivial (new_wf u s)).1 this.1
    rw [hu] at he
    split
    · exact hv
    · rename_i ha
      -- not an alias: the spelling is the standard one
      have : Prefix.new u s = .std (T.pre k) := by
        have hw := new_wf u s
        generalize hq : Prefix.new u s = q at *
        match q, hw with
        | .std t, _ =>
          have : t.uri = (T.pre k).uri := by rw [hu.symm] at he; exact he.symm
          rw [uri_injective this]
        | .unknown _ (.unknown w), hw =>
          exact absurd (by rw [← hu] at he; exact he) (hw (T.pre k))
        | .aliased (.std _) _, _ => simp [Prefix.isAliased] at ha
      rw [this] at hv
      exact hv
  · exact hv

theorem attrNew_wf {S : Type} (T : Table K) (parse : K → S → Option V) (raw : S → V)
    {i : AttrId K} (hi : i.WF T) (s : S) : (Attr.new parse raw i s).WF T := by
  match i, hi with
  | .known k, _ => unfold Attr.new; split <;> trivial
  | .aliased p (.known k), h => unfold Attr.new Attr.new; split <;> exact h
  | .unknown p l, h => exact h

/-- **C33 (attributes).** A new attribute has the expanded name and the printed prefix of its id. -/
theorem attrNew_name {S : Type} (T : Table K) (parse : K → S → Option V) (raw : S → V)
    {i : AttrId K} (hi : i.WF T) (s : S) :
    (Attr.new parse raw i s).prefix' T = i.prefix' T ∧ (Attr.new parse raw i s).loc T = i.loc T := by
  match i, hi with
  | .known k, _ => unfold Attr.new; split <;> exact ⟨rfl, rfl⟩
  | .aliased p (.known k), h => unfold Attr.new Attr.new; split <;> exact ⟨rfl, rfl⟩
  | .unknown p l, h => exact ⟨rfl, rfl⟩

/-- For well-formed attributes the name without alias carries the same expanded name. -/
theorem attr_name_wf (T : Table K) {a : Attr K V} (h : a.WF T) :
    a.name.WF T ∧ a.name.expanded T = a.expanded T ∧ (a.prefix' T).WF := by
  match a, h with
  | .typed k _, _ => exact ⟨trivial, rfl, trivial⟩
  | .aliased p (.typed k _), h =>
    exact ⟨trivial, by simp [Attr.expanded, AttrId.expanded, Attr.name, Attr.prefix', AttrId.prefix', Attr.loc, Prefix.uri, h.2, Prefix.ns], h.1⟩
  | .aliased p (.unparsed (.known k) _), h =>
    exact ⟨trivial, by simp [Attr.expanded, AttrId.expanded, Attr.name, Attr.prefix', AttrId.prefix', Attr.loc, Prefix.uri, h.2, Prefix.ns], h.1⟩
  | .unparsed i _, h =>
    refine ⟨h, rfl, ?_⟩
    rcases id_wf_cases T h with ⟨k, u, l, n, w⟩ | ⟨p, l, u, e, n, w⟩
    · exact w
    · show (i.prefix' T).WF
      rw [n]; exact w
  | .cssUnknown i _, h =>
    refine ⟨h, rfl, ?_⟩
    rcases id_wf_cases T h with ⟨k, u, l, n, w⟩ | ⟨p, l, u, e, n, w⟩
    · exact w
    · show (i.prefix' T).WF
      rw [n]; exact w

/-- A table for the examples: `href` of XLink, `href` of SVG, and the `type` attribute twice. -/
def exTable : Table (Fin 4) where
  pre k := if k = 0 then .xlink else .svg
  loc k := if k = 0 ∨ k = 1 then lit "href" else lit "type"

/-- `xl:href` with `xl` bound to XLink is recognised as XLink's `href`, spelled `xl`. -/
example : parseAttrId exTable [1, 0] (Prefix.new StdNs.xlink.uri (some (lit "xl"))) (lit "href")
    = .aliased (.aliased (.std .xlink) (some (lit "xl"))) (.known 0) := by decide +kernel

example : (parseAttrId exTable [1, 0] (Prefix.new StdNs.xlink.uri (some (lit "xl"))) (lit "href")).eq
    (parseAttrId exTable [1, 0] (Prefix.new StdNs.xlink.uri (some (lit "xlink"))) (lit "href")) = true := by
  decide +kernel

example : (Prefix.new (lit "urn:x") (some (lit "a"))).WF ∧ (Prefix.new (lit "urn:x") (some (lit "b"))).WF ∧
    (Prefix.new (lit "urn:x") (some (lit "a"))).uri = (Prefix.new (lit "urn:x") (some (lit "b"))).uri :=
  ⟨new_wf _ _, new_wf _ _, by decide +kernel⟩

end Verif.Names
