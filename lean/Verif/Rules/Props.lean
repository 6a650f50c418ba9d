import Verif.Rules.Model
import Verif.Names.Props

/-! # C92: the lint rules on single elements report what breaks them -/

namespace Verif.Rules

open Verif.Names

variable {E K V : Type} [DecidableEq K]

/-- The reports are one for each attribute with `P`, in order, related by `R`. -/
inductive Picks {α β : Type} (P : α → Prop) (R : α → β → Prop) : List α → List β → Prop
  | nil : Picks P R [] []
  | yes {a b as bs} : P a → R a b → Picks P R as bs → Picks P R (a :: as) (b :: bs)
  | no {a as bs} : ¬ P a → Picks P R as bs → Picks P R (a :: as) bs

/-- The row of the tables for an attribute of an element: the first of the attributes of the element and of its groups that has
the namespace and the local name. -/
def row (W : Vocab E K V) (e : ElemId E) (uri loc : Str) : Option K :=
  (e.expected W ++ W.all.filter (e.grouped W)).find? fun k => decide ((W.names.pre k).uri = uri ∧ W.names.loc k = loc)

/-- The element is one of the known elements of SVG. -/
def Named (W : Vocab E K V) (p : Prefix) (loc : Str) (e : E) : Prop := p.uri = StdNs.uri .svg ∧ W.elems.lookup loc = some e

/-- The content model of the element has an attribute of this name. -/
def Allowed (W : Vocab E K V) (e : E) (uri loc : Str) : Prop :=
  ∃ k, (k ∈ W.expected e ∨ k ∈ W.all ∧ W.grouped e k = true) ∧ (W.names.pre k).uri = uri ∧ W.names.loc k = loc

/-- The tables: `xmlns` is in its namespace and not deprecated, the attributes of XLink are in theirs. -/
structure Sound (W : Vocab E K V) : Prop where
  xmlns : W.names.pre W.xmlns = .xmlns
  kept : W.safe W.xmlns = false ∧ W.notSafe W.xmlns = false
  noPath : W.isPath W.xmlns = false
  show' : W.names.pre W.xlinkShow = .xlink
  title : W.names.pre W.xlinkTitle = .xlink
  href : W.names.pre W.xlinkHref = .xlink

/-! ## Reading -/

/-- The value as the type of the attribute has it. -/
def typedAttr (W : Vocab E K V) (k : K) (s : Str) : Attr K V :=
  match W.parse k s with
  | some v => .typed k v
  | none => .unparsed (.known k) (W.raw s)

omit [DecidableEq K] in
theorem read_eq (W : Vocab E K V) {pre : Option Str → Prefix} (hp : ∀ ns, (pre ns).WF) (e : ElemId E) (a : Src) :
    readAttr W pre e a = match row W e (pre a.ns).uri a.loc with
      | none => .unparsed (.unknown (pre a.ns) a.loc) (W.raw a.value)
      | some k => if (pre a.ns).isAliased then .aliased (pre a.ns) (typedAttr W k a.value) else typedAttr W k a.value := by
  have hfun : (fun k => (Prefix.std (W.names.pre k)).eq (pre a.ns) && W.names.loc k == a.loc) =
      fun k => decide ((W.names.pre k).uri = (pre a.ns).uri ∧ W.names.loc k = a.loc) := by
    funext k
    rw [Bool.eq_iff_iff]
    simp only [Bool.and_eq_true, beq_iff_eq, decide_eq_true_eq]
    rw [prefix_eq_iff (p := .std (W.names.pre k)) trivial (hp a.ns)]
    rfl
  unfold readAttr parseAttrId row
  rw [hfun]
  cases (e.expected W ++ W.all.filter (e.grouped W)).find?
      (fun k => decide ((W.names.pre k).uri = (pre a.ns).uri ∧ W.names.loc k = a.loc)) with
  | none => rfl
  | some k =>
    simp only
    split
    · simp only [Attr.new, typedAttr]
      cases W.parse k a.value <;> rfl
    · simp only [Attr.new, typedAttr]
      cases W.parse k a.value <;> rfl

omit [DecidableEq K] in
theorem row_some {W : Vocab E K V} {e : ElemId E} {uri loc : Str} {k : K} (h : row W e uri loc = some k) :
    (k ∈ e.expected W ∨ k ∈ W.all ∧ e.grouped W k = true) ∧ (W.names.pre k).uri = uri ∧ W.names.loc k = loc := by
  have h1 := List.find?_some h
  have h2 := List.mem_of_find?_eq_some h
  simp only [decide_eq_true_eq] at h1
  simp only [List.mem_append, List.mem_filter] at h2
  exact ⟨h2, h1⟩

omit [DecidableEq K] in
theorem row_none {W : Vocab E K V} {e : ElemId E} {uri loc : Str} (h : row W e uri loc = none) (k : K)
    (hk : k ∈ e.expected W ∨ k ∈ W.all ∧ e.grouped W k = true) : ¬ ((W.names.pre k).uri = uri ∧ W.names.loc k = loc) := by
  have := List.find?_eq_none.1 h k (by simp only [List.mem_append, List.mem_filter]; exact hk)
  simpa using this

omit [DecidableEq K] in
theorem typed_name (W : Vocab E K V) (k : K) (s : Str) : (typedAttr W k s).name = .known k := by
  unfold typedAttr
  cases W.parse k s <;> rfl

/-- The id by which an attribute is found. -/
def idOf (W : Vocab E K V) (pre : Option Str → Prefix) (e : ElemId E) (a : Src) : AttrId K :=
  match row W e (pre a.ns).uri a.loc with
  | none => .unknown (pre a.ns) a.loc
  | some k => .known k

omit [DecidableEq K] in
theorem read_name (W : Vocab E K V) {pre : Option Str → Prefix} (hp : ∀ ns, (pre ns).WF) (e : ElemId E) (a : Src) :
    (readAttr W pre e a).name = idOf W pre e a := by
  rw [read_eq W hp, idOf]
  cases row W e (pre a.ns).uri a.loc with
  | none => rfl
  | some k =>
    simp only
    split
    · simp only [Attr.name, typed_name]
    · simp only [typed_name]

omit [DecidableEq K] in
theorem id_wf (W : Vocab E K V) {pre : Option Str → Prefix} (hp : ∀ ns, (pre ns).WF) (e : ElemId E) (a : Src) :
    (idOf W pre e a).WF W.names := by
  unfold idOf
  cases row W e (pre a.ns).uri a.loc with
  | none => exact hp a.ns
  | some k => trivial

omit [DecidableEq K] in
theorem id_expanded (W : Vocab E K V) (pre : Option Str → Prefix) (e : ElemId E) (a : Src) :
    (idOf W pre e a).expanded W.names = ((pre a.ns).uri, a.loc) := by
  unfold idOf
  cases h : row W e (pre a.ns).uri a.loc with
  | none => rfl
  | some k =>
    obtain ⟨_, h1, h2⟩ := row_some h
    simp only [AttrId.expanded, AttrId.prefix', AttrId.loc, Prefix.uri, Prefix.ns, NS.uri, h1, h2]

/-- Different attributes have different names, by the namespaces they are read with. -/
def Distinct (pre : Option Str → Prefix) (as : List Src) : Prop :=
  as.Pairwise fun a b => ((pre a.ns).uri, a.loc) ≠ ((pre b.ns).uri, b.loc)

theorem pairwise_eq {α β : Type} (f : α → β) {l : List α} (h : l.Pairwise fun a b => f a ≠ f b) {a b : α} (ha : a ∈ l)
    (hb : b ∈ l) (e : f a = f b) : a = b := by
  induction h with
  | nil => cases ha
  | cons h1 _ ih =>
    rcases List.mem_cons.1 ha with ea | ha'
    · rcases List.mem_cons.1 hb with eb | hb'
      · rw [ea, eb]
      · rw [ea] at e
        exact absurd e (h1 _ hb')
    · rcases List.mem_cons.1 hb with eb | hb'
      · rw [eb] at e
        exact absurd e.symm (h1 _ ha')
      · exact ih ha' hb'

omit [DecidableEq K] in
theorem ranges_eq (f : Src → AttrId K) (as : List Src) (m : List (AttrId K × Ranges)) :
    as.foldl (fun m a => (f a, a.ranges) :: m) m = (as.map fun a => (f a, a.ranges)).reverse ++ m := by
  induction as generalizing m with
  | nil => rfl
  | cons a as ih => rw [List.foldl_cons, ih]; simp

theorem own_ranges (W : Vocab E K V) {pre : Option Str → Prefix} (hp : ∀ ns, (pre ns).WF) (e : ElemId E) {as : List Src}
    (hd : Distinct pre as) {a : Src} (ha : a ∈ as) :
    getRanges (as.foldl (fun m a => ((readAttr W pre e a).name, a.ranges) :: m) []) (readAttr W pre e a).name = some a.ranges := by
  rw [ranges_eq (fun a => (readAttr W pre e a).name), List.append_nil]
  unfold getRanges
  have hself : (idOf W pre e a).eq (idOf W pre e a) = true := id_eq_refl W.names (id_wf W hp e a)
  cases hf : (as.map fun a => ((readAttr W pre e a).name, a.ranges)).reverse.find? (fun x => x.1.eq (readAttr W pre e a).name) with
  | none =>
    have := List.find?_eq_none.1 hf ((readAttr W pre e a).name, a.ranges)
      (List.mem_reverse.2 (List.mem_map_of_mem ha))
    simp only [read_name W hp] at this
    exact absurd hself this
  | some x =>
    have h1 := List.find?_some hf
    have h2 := List.mem_reverse.1 (List.mem_of_find?_eq_some hf)
    obtain ⟨b, hb, rfl⟩ := List.mem_map.1 h2
    simp only [read_name W hp] at h1
    have h3 := id_eq_expanded W.names (id_wf W hp e b) (id_wf W hp e a) h1
    rw [id_expanded, id_expanded] at h3
    have := pairwise_eq (fun a : Src => ((pre a.ns).uri, a.loc)) hd hb ha h3
    subst this
    rfl

/-! ## Reports -/

theorem picks_of {α β γ : Type} {P : α → Prop} {R : α → γ → Prop} (f : β → Option γ) (g : α → β) : ∀ as : List α,
    (∀ a ∈ as, match f (g a) with | none => ¬ P a | some r => P a ∧ R a r) → Picks P R as ((as.map g).filterMap f)
  | [], _ => .nil
  | a :: as, h => by
    have ha := h a (by simp)
    have ih := picks_of f g as fun b hb => h b (by simp [hb])
    rw [List.map_cons, List.filterMap_cons]
    cases hf : f (g a) with
    | none => rw [hf] at ha; exact .no ha ih
    | some r => rw [hf] at ha; exact .yes ha.1 ha.2 ih

omit [DecidableEq K] in
theorem decls_none {α : Type} (W : Vocab E K V) (f : Attr K V → Option α) (decls : List (Option Str × Str)) (as : List (Attr K V))
    (h : ∀ d, f (xmlnsAttr W d) = none) : (decls.map (xmlnsAttr W) ++ as).filterMap f = as.filterMap f := by
  rw [List.filterMap_append]
  have : (decls.map (xmlnsAttr W)).filterMap f = [] := by
    rw [List.filterMap_eq_nil_iff]
    intro a ha
    obtain ⟨d, _, rfl⟩ := List.mem_map.1 ha
    exact h d
  rw [this, List.nil_append]

theorem unaliased_svg {p : Prefix} (hp : p.WF) (n : StdNs) : p.unaliased = .std n ↔ p.uri = n.uri := by
  have h := wf_cases hp
  match p, hp with
  | .std s, _ =>
    simp only [Prefix.unaliased, Prefix.std.injEq]
    exact ⟨fun h => by rw [h]; rfl, fun h => uri_injective h⟩
  | .unknown _ (.unknown u), hw =>
    simp only [Prefix.unaliased]
    exact ⟨fun h => (by cases h), fun h => absurd h.symm (hw n)⟩
  | .aliased (.std s) _, _ =>
    simp only [Prefix.unaliased, Prefix.std.injEq]
    exact ⟨fun h => by rw [h]; rfl, fun h => uri_injective h⟩

omit [DecidableEq K] in
/-- What an element is read as. -/
theorem elem_cases (W : Vocab E K V) {p : Prefix} (hp : p.WF) (loc : Str) :
    (ElemId.new W p loc = .unknown p loc ∧ ∀ e, ¬ Named W p loc e) ∨
    ∃ e, Named W p loc e ∧ ((ElemId.new W p loc = .known e ∧ p.isAliased = false) ∨
      (ElemId.new W p loc = .aliased p (.known e) ∧ p.isAliased = true)) := by
  unfold ElemId.new
  by_cases hs : p.unaliased = .std .svg
  · have hu := (unaliased_svg hp .svg).1 hs
    rw [if_pos hs]
    cases hl : W.elems.lookup loc with
    | none => exact .inl ⟨rfl, fun e h => by rw [h.2] at hl; cases hl⟩
    | some e =>
      refine .inr ⟨e, ⟨hu, hl⟩, ?_⟩
      cases ha : p.isAliased with
      | true => exact .inr ⟨by simp, rfl⟩
      | false => exact .inl ⟨by simp, rfl⟩
  · rw [if_neg hs]
    exact .inl ⟨rfl, fun e h => hs ((unaliased_svg hp .svg).2 h.1)⟩

/-- **C92 (unknown attributes)** For an element of SVG, whatever its prefix is, exactly the attributes that the content model
of the element does not have are reported, but for declarations of namespaces; each once, with its own range. -/
theorem unknown_attrs (W : Vocab E K V) (hW : Sound W) {pre : Option Str → Prefix} (hp : ∀ ns, (pre ns).WF) (parent : Option (ElemId E))
    {p : Prefix} (hpe : p.WF) (loc : Str) (start : Nat) (decls : List (Option Str × Str)) {as : List Src} (hd : Distinct pre as)
    {e : E} (he : Named W p loc e) :
    Picks (fun a => ¬ Allowed W e (pre a.ns).uri a.loc ∧ (pre a.ns).uri ≠ StdNs.uri .xmlns)
      (fun a r => (∃ i, r.problem = .unknownAttr i ∧ i.expanded W.names = ((pre a.ns).uri, a.loc)) ∧ r.range = some a.ranges.range)
      as (noUnknownAttrs W (readElem W pre parent p loc start decls as)) := by
  have key : ∀ id : ElemId E, id.expected W = W.expected e → id.grouped W = W.grouped e →
      Picks (fun a => ¬ Allowed W e (pre a.ns).uri a.loc ∧ (pre a.ns).uri ≠ StdNs.uri .xmlns)
        (fun a r => (∃ i, r.problem = .unknownAttr i ∧ i.expanded W.names = ((pre a.ns).uri, a.loc)) ∧ r.range = some a.ranges.range)
        as ((decls.map (xmlnsAttr W) ++ as.map (readAttr W pre id)).filterMap fun a => if isExpected W id a then none else
          some (⟨.unknownAttr a.name, (getRanges (as.foldl (fun m a => ((readAttr W pre id a).name, a.ranges) :: m) []) a.name).map
            (·.range)⟩ : Report E K)) := by
    intro id h1 h2
    rw [decls_none]
    · refine picks_of _ _ as fun a ha => ?_
      have ho := own_ranges W hp id hd ha
      have hn := read_name W hp id a
      cases hr : row W id (pre a.ns).uri a.loc with
      | some k =>
        obtain ⟨h3, h4, h5⟩ := row_some hr
        have hi : isExpected W id (readAttr W pre id a) = true := by
          have hn' : (readAttr W pre id a).name = .known k := by rw [hn, idOf, hr]
          unfold isExpected
          rw [hn']
          rcases h3 with h3 | h3
          · have : ((id.expected W).any fun j => (AttrId.known j).eq (.known k)) = true :=
              List.any_eq_true.2 ⟨k, h3, by simp [AttrId.eq, AttrId.unaliased]⟩
            simp [this]
          · simp [AttrId.unaliased, h3.2]
        simp only [hi, if_true]
        rintro ⟨h6, _⟩
        rw [h1, h2] at h3
        exact h6 ⟨k, h3, h4, h5⟩
      | none =>
        have hn' : (readAttr W pre id a).name = .unknown (pre a.ns) a.loc := by rw [hn, idOf, hr]
        have hpx : (readAttr W pre id a).prefix' W.names = pre a.ns := by rw [read_eq W hp, hr]; rfl
        have hany : ((id.expected W).any fun j => (AttrId.known j).eq (.unknown (pre a.ns) a.loc)) = false := by
          rw [List.any_eq_false]
          intro j _
          simp [AttrId.eq, AttrId.unaliased]
        have hi : isExpected W id (readAttr W pre id a) = (pre a.ns).eq (.std .xmlns) := by
          unfold isExpected
          rw [hn', hany, hpx]
          simp [AttrId.unaliased]
        by_cases hx : (pre a.ns).uri = StdNs.uri .xmlns
        · have := (prefix_eq_iff (q := .std .xmlns) (hp a.ns) trivial).2 hx
          simp only [hi, this, if_true]
          exact fun h => h.2 hx
        · have : (pre a.ns).eq (.std .xmlns) = false := by
            cases h : (pre a.ns).eq (.std .xmlns) with
            | false => rfl
            | true => exact absurd ((prefix_eq_iff (q := .std .xmlns) (hp a.ns) trivial).1 h) hx
          simp only [hi, this, Bool.false_eq_true, if_false]
          refine ⟨⟨?_, hx⟩, ⟨_, rfl, ?_⟩, ?_⟩
          · rintro ⟨k, h3, h4⟩
            rw [← h1, ← h2] at h3
            exact row_none hr k h3 h4
          · rw [hn, id_expanded]
          · rw [ho]; rfl
    · intro d
      have : isExpected W id (xmlnsAttr W d) = true := by
        obtain ⟨p', u⟩ := d
        unfold isExpected
        cases p' with
        | some q => simp [xmlnsAttr, Attr.prefix', AttrId.prefix', Prefix.eq, Prefix.isNs, Prefix.ns]
        | none => simp [xmlnsAttr, Attr.prefix', Attr.name, AttrId.prefix', hW.xmlns, Prefix.eq, Prefix.isNs, Prefix.ns]
      simp [this]
  rcases elem_cases W hpe loc with ⟨_, h2⟩ | ⟨e', he', h⟩
  · exact absurd he (h2 e)
  · have : e' = e := by
      have := he'.2.symm.trans he.2
      injection this
    subst this
    rcases h with ⟨h, _⟩ | ⟨h, _⟩
    · simp only [noUnknownAttrs, readElem, h]
      exact key (.known e') rfl rfl
    · simp only [noUnknownAttrs, readElem, h]
      exact key (.aliased p (.known e')) rfl rfl

/-- **C92 (deprecated names)** Exactly the deprecated attributes are reported, whatever their prefix is, each once with the
range of its name and the word whether it can be removed; the element is reported if it is deprecated and the prefix is the
usual one. -/
theorem deprecated_iff (W : Vocab E K V) (hW : Sound W) {pre : Option Str → Prefix} (hp : ∀ ns, (pre ns).WF) (parent : Option (ElemId E))
    {p : Prefix} (hpe : p.WF) (loc : Str) (start : Nat) (decls : List (Option Str × Str)) {as : List Src} (hd : Distinct pre as) :
    ∃ h rs, noDeprecated W (readElem W pre parent p loc start decls as) = h ++ rs ∧
      (h ≠ [] ↔ ∃ e, Named W p loc e ∧ W.legacy e = true ∧ p.isAliased = false) ∧ h.length ≤ 1 ∧
      (∀ r ∈ h, (∃ e, r.problem = .oldElem e) ∧ r.range = some (start, start)) ∧
      Picks (fun a => ∃ k, row W (ElemId.new W p loc) (pre a.ns).uri a.loc = some k ∧ (W.safe k = true ∨ W.notSafe k = true))
        (fun a r => ∃ k, row W (ElemId.new W p loc) (pre a.ns).uri a.loc = some k ∧ r.problem = .oldAttr (.known k) (W.safe k) ∧
          r.range = some a.ranges.name) as rs := by
  refine ⟨_, _, rfl, ?_, ?_, ?_, ?_⟩
  · change (if ElemId.legacy W (ElemId.new W p loc) = true then
        [(⟨.oldElem (ElemId.new W p loc), some (start, start)⟩ : Report E K)] else []) ≠ [] ↔ _
    rcases elem_cases W hpe loc with ⟨h1, h2⟩ | ⟨e, he, ⟨h, ha⟩ | ⟨h, ha⟩⟩
    · rw [h1]
      simp only [ElemId.legacy, Bool.false_eq_true, if_false, ne_eq, not_true_eq_false, false_iff]
      rintro ⟨e, h3, _⟩
      exact h2 e h3
    · rw [h]
      constructor
      · intro hne
        refine ⟨e, he, ?_, ha⟩
        cases hl : W.legacy e with
        | true => rfl
        | false => simp [ElemId.legacy, hl] at hne
      · rintro ⟨e', he', hl, _⟩
        have : e' = e := by
          have := he'.2.symm.trans he.2
          injection this
        subst this
        simp [ElemId.legacy, hl]
    · rw [h]
      constructor
      · intro hne
        simp [ElemId.legacy] at hne
      · rintro ⟨_, _, _, h4⟩
        rw [ha] at h4
        cases h4
  · split <;> simp
  · intro r hr
    split at hr
    · simp only [List.mem_singleton] at hr
      subst hr
      exact ⟨⟨_, rfl⟩, rfl⟩
    · simp at hr
  · simp only [readElem]
    generalize ElemId.new W p loc = id
    rw [decls_none]
    · refine picks_of _ _ as fun a ha => ?_
      have ho := own_ranges W hp id hd ha
      have hn := read_name W hp id a
      cases hr : row W id (pre a.ns).uri a.loc with
      | none =>
        have hn' : (readAttr W pre id a).name = .unknown (pre a.ns) a.loc := by rw [hn, idOf, hr]
        simp only [hn', infoOld, Bool.or_self, Bool.not_false, if_true]
        rintro ⟨k, h, _⟩
        cases h
      | some k =>
        have hn' : (readAttr W pre id a).name = .known k := by rw [hn, idOf, hr]
        simp only [hn', infoOld]
        rw [hn'] at ho
        by_cases hk : (W.safe k || W.notSafe k) = true
        · simp only [hk, Bool.not_true, Bool.false_eq_true, if_false]
          refine ⟨⟨k, rfl, by simpa using hk⟩, k, rfl, rfl, ?_⟩
          rw [ho]; rfl
        · simp only [hk, Bool.not_false, if_true]
          rintro ⟨k', h, h'⟩
          cases h
          exact hk (by simpa using h')
    · intro d
      obtain ⟨p', u⟩ := d
      cases p' with
      | some q => simp [xmlnsAttr, Attr.name, infoOld]
      | none => simp [xmlnsAttr, Attr.name, infoOld, hW.kept.1, hW.kept.2]

omit [DecidableEq K] in
theorem elem_prefix (W : Vocab E K V) {p : Prefix} (hp : p.WF) (loc : Str) :
    (ElemId.new W p loc).prefix'.unaliased = .std .svg ↔ p.uri = StdNs.uri .svg := by
  rcases elem_cases W hp loc with ⟨h, _⟩ | ⟨e, he, ⟨h, _⟩ | ⟨h, _⟩⟩
  · rw [h]; exact unaliased_svg hp .svg
  · rw [h]; exact ⟨fun _ => he.1, fun _ => rfl⟩
  · rw [h]; exact unaliased_svg hp .svg

omit [DecidableEq K] in
theorem elem_unaliased (W : Vocab E K V) {p : Prefix} (hp : p.WF) (loc : Str) :
    (∃ e, Named W p loc e ∧ (ElemId.new W p loc).unaliased = .known e) ∨
      (∀ e, ¬ Named W p loc e) ∧ (ElemId.new W p loc).unaliased = .unknown p loc := by
  rcases elem_cases W hp loc with ⟨h, h'⟩ | ⟨e, he, ⟨h, _⟩ | ⟨h, _⟩⟩
  · exact .inr ⟨h', by rw [h]; rfl⟩
  · exact .inl ⟨e, he, by rw [h]; rfl⟩
  · exact .inl ⟨e, he, by rw [h]; rfl⟩

omit [DecidableEq K] in
theorem named_unique {W : Vocab E K V} {p : Prefix} {loc : Str} {e e' : E} (h : Named W p loc e) (h' : Named W p loc e') : e = e' := by
  have := h.2.symm.trans h'.2
  injection this

omit [DecidableEq K] in
/-- **C92 (unknown elements)** An element below a known element is reported iff it is in the namespace of SVG and the content
model of its parent does not have it, whatever the prefixes are. -/
theorem unknown_elem_iff (W : Vocab E K V) (pre : Option Str → Prefix) {pp p : Prefix} (hpp : pp.WF) (hp : p.WF) (ploc loc : Str) (start : Nat)
    (decls : List (Option Str × Str)) (as : List Src) :
    (noUnknownElems W (readElem W pre (some (ElemId.new W pp ploc)) p loc start decls as) = [⟨.unknownElem (ElemId.new W p loc), some (start, start)⟩] ∨
      noUnknownElems W (readElem W pre (some (ElemId.new W pp ploc)) p loc start decls as) = []) ∧
    (noUnknownElems W (readElem W pre (some (ElemId.new W pp ploc)) p loc start decls as) ≠ [] ↔
      p.uri = StdNs.uri .svg ∧ ∃ pe, Named W pp ploc pe ∧ W.permitsAll pe = false ∧ ∀ c, Named W p loc c → W.permits pe c = false) := by
  have hx : noUnknownElems W (readElem W pre (some (ElemId.new W pp ploc)) p loc start decls as) =
      if (ElemId.new W p loc).prefix'.unaliased ≠ .std .svg then []
      else if (ElemId.new W pp ploc).permits W (ElemId.new W p loc) then []
      else [⟨.unknownElem (ElemId.new W p loc), some (start, start)⟩] := rfl
  rw [hx]
  constructor
  · split
    · exact .inr rfl
    · split
      · exact .inr rfl
      · exact .inl rfl
  · have hpr := elem_prefix W hp loc
    by_cases hs : p.uri = StdNs.uri .svg
    · have h1 := hpr.2 hs
      rw [if_neg (by simpa using h1)]
      have hperm : (ElemId.new W pp ploc).permits W (ElemId.new W p loc) = true ↔
          ∀ pe, Named W pp ploc pe → W.permitsAll pe = true ∨ ∃ c, Named W p loc c ∧ W.permits pe c = true := by
        unfold ElemId.permits
        rcases elem_unaliased W hpp ploc with ⟨pe, hpe, h2⟩ | ⟨hno, h2⟩
        · rw [h2]
          simp only [Bool.or_eq_true]
          rcases elem_unaliased W hp loc with ⟨c, hc, h3⟩ | ⟨hno, h3⟩
          · rw [h3]
            constructor
            · rintro h pe' hpe'
              cases named_unique hpe hpe'
              exact h.imp_right fun h => ⟨c, hc, h⟩
            · intro h
              exact (h pe hpe).imp_right fun ⟨c', hc', h⟩ => by cases named_unique hc hc'; exact h
          · rw [h3]
            constructor
            · rintro h pe' hpe'
              cases named_unique hpe hpe'
              exact .inl (by simpa using h)
            · intro h
              rcases h pe hpe with h | ⟨c, hc, _⟩
              · exact .inl h
              · exact absurd hc (hno c)
        · rw [h2]
          simp only [true_iff]
          exact fun pe hpe => absurd hpe (hno pe)
      by_cases hq : (ElemId.new W pp ploc).permits W (ElemId.new W p loc) = true
      · rw [if_pos hq]
        simp only [ne_eq, not_true_eq_false, false_iff]
        rintro ⟨_, pe, hpe, h2, h3⟩
        rcases hperm.1 hq pe hpe with h | ⟨c, hc, h⟩
        · rw [h] at h2; cases h2
        · rw [h3 c hc] at h; cases h
      · rw [if_neg hq]
        simp only [ne_eq, reduceCtorEq, not_false_eq_true, true_iff]
        refine ⟨hs, ?_⟩
        rcases elem_unaliased W hpp ploc with ⟨pe, hpe, _⟩ | ⟨hno, _⟩
        · refine ⟨pe, hpe, ?_, ?_⟩
          · cases h : W.permitsAll pe with
            | false => rfl
            | true =>
              exact absurd (hperm.2 fun pe' hpe' => by cases named_unique hpe hpe'; exact .inl h) hq
          · intro c hc
            cases h : W.permits pe c with
            | false => rfl
            | true =>
              exact absurd (hperm.2 fun pe' hpe' => by cases named_unique hpe hpe'; exact .inr ⟨c, hc, h⟩) hq
        · exact absurd (hperm.2 fun pe hpe => absurd hpe (hno pe)) hq
    · have h1 : (ElemId.new W p loc).prefix'.unaliased ≠ .std .svg := fun h => hs (hpr.1 h)
      rw [if_pos h1]
      simp only [ne_eq, not_true_eq_false, false_iff]
      exact fun h => hs h.1

omit [DecidableEq K] in
/-- **C92 (unknown elements)** The root is never reported. -/
theorem root_unreported (W : Vocab E K V) (pre : Option Str → Prefix) (p : Prefix) (loc : Str) (start : Nat)
    (decls : List (Option Str × Str)) (as : List Src) : noUnknownElems W (readElem W pre none p loc start decls as) = [] := rfl

/-- What is said about an attribute of XLink. -/
def Advice (W : Vocab E K V) (k : Option K) (s : Str) (p : Problem E K) : Prop :=
  (p = .title ↔ k = some W.xlinkTitle ∧ (W.parse W.xlinkTitle s).isSome = true) ∧
  (p = .href ↔ k = some W.xlinkHref ∧ (W.parse W.xlinkHref s).isSome = true) ∧
  (p = .showReplace ↔ k = some W.xlinkShow ∧ ∃ v, W.parse W.xlinkShow s = some v ∧ W.replaces v = some true) ∧
  (p = .showNew ↔ k = some W.xlinkShow ∧ ∃ v, W.parse W.xlinkShow s = some v ∧ W.replaces v = some false)

theorem xlink_typed (W : Vocab E K V) (hW : Sound W) (hne : W.xlinkShow ≠ W.xlinkTitle ∧ W.xlinkShow ≠ W.xlinkHref ∧ W.xlinkTitle ≠ W.xlinkHref)
    (a : Attr K V) (k : K) (s : Str) (ha : unaliased a = typedAttr W k s) (hn : a.name = .known k) :
    match (xlinkProblem W a : Option (Problem E K)) with
    | none => W.names.pre k ≠ .xlink
    | some p => W.names.pre k = .xlink ∧ Advice W (some k) s p := by
  unfold xlinkProblem
  have hpk : ((a.name.prefix' W.names).unaliased = .std .xlink) ↔ W.names.pre k = .xlink := by
    rw [hn]
    simp [AttrId.prefix', Prefix.unaliased]
  rw [ha]
  unfold typedAttr
  obtain ⟨n1, n2, n3⟩ := hne
  cases hv : W.parse k s with
  | none =>
    by_cases hx : W.names.pre k = .xlink
    · simp only [hpk.2 hx, if_true]
      refine ⟨hx, ?_⟩
      unfold Advice
      simp only [Option.some.injEq, reduceCtorEq, false_iff, not_and]
      refine ⟨?_, ?_, ?_, ?_⟩
      · rintro rfl; simp [hv]
      · rintro rfl; simp [hv]
      · rintro rfl; simp [hv]
      · rintro rfl; simp [hv]
    · have : ¬ (a.name.prefix' W.names).unaliased = .std .xlink := fun h => hx (hpk.1 h)
      simp only [this, if_false]
      exact hx
  | some v =>
    simp only
    by_cases h1 : k = W.xlinkShow
    · subst h1
      have hx := hW.show'
      simp only [if_true]
      cases hr : W.replaces v with
      | none =>
        simp only [hpk.2 hx, if_true]
        refine ⟨hx, ?_⟩
        unfold Advice
        simp [hv, hr, n1, n2]
      | some b =>
        cases b
        · refine ⟨hx, ?_⟩
          unfold Advice
          simp [hv, hr, n1, n2]
        · refine ⟨hx, ?_⟩
          unfold Advice
          simp [hv, hr, n1, n2]
    · by_cases h2 : k = W.xlinkTitle
      · subst h2
        simp only [h1, if_false, if_true]
        refine ⟨hW.title, ?_⟩
        unfold Advice
        simp [hv, Ne.symm n1, n3]
      · by_cases h3 : k = W.xlinkHref
        · subst h3
          simp only [h1, h2, if_false, if_true]
          refine ⟨hW.href, ?_⟩
          unfold Advice
          simp [hv, Ne.symm n2, Ne.symm n3]
        · by_cases hx : W.names.pre k = .xlink
          · simp only [h1, h2, h3, if_false, hpk.2 hx, if_true]
            refine ⟨hx, ?_⟩
            unfold Advice
            simp [h1, h2, h3]
          · have : ¬ (a.name.prefix' W.names).unaliased = .std .xlink := fun h => hx (hpk.1 h)
            simp only [h1, h2, h3, if_false, this]
            exact hx

/-- **C92 (attributes of XLink)** Exactly the attributes in the namespace of XLink are reported, whatever their prefix is and
whether they are known to the tables or not, each once with its own range; the advice is the one for the attribute and its value. -/
theorem xlink_iff (W : Vocab E K V) (hW : Sound W)
    (hne : W.xlinkShow ≠ W.xlinkTitle ∧ W.xlinkShow ≠ W.xlinkHref ∧ W.xlinkTitle ≠ W.xlinkHref)
    {pre : Option Str → Prefix} (hp : ∀ ns, (pre ns).WF) (parent : Option (ElemId E))
    (p : Prefix) (loc : Str) (start : Nat) (decls : List (Option Str × Str)) {as : List Src} (hd : Distinct pre as) :
    Picks (fun a => (pre a.ns).uri = StdNs.uri .xlink)
      (fun a r => Advice W (row W (ElemId.new W p loc) (pre a.ns).uri a.loc) a.value r.problem ∧ r.range = some a.ranges.range)
      as (noXlink W (readElem W pre parent p loc start decls as)) := by
  simp only [noXlink, readElem]
  generalize ElemId.new W p loc = id
  rw [decls_none]
  · refine picks_of _ _ as fun a ha => ?_
    have ho := own_ranges W hp id hd ha
    have hn := read_name W hp id a
    have he := read_eq W hp id a
    cases hr : row W id (pre a.ns).uri a.loc with
    | none =>
      rw [hr] at he
      have hprob : (xlinkProblem W (readAttr W pre id a) : Option (Problem E K)) =
          if (pre a.ns).unaliased = .std .xlink then some (.xlink (.unknown (pre a.ns) a.loc)) else none := by
        rw [he]; rfl
      by_cases hx : (pre a.ns).uri = StdNs.uri .xlink
      · rw [hprob, if_pos ((unaliased_svg (hp a.ns) .xlink).2 hx), ho]
        refine ⟨hx, ?_, rfl⟩
        unfold Advice
        simp
      · rw [hprob, if_neg fun h => hx ((unaliased_svg (hp a.ns) .xlink).1 h)]
        exact hx
    | some k =>
      rw [hr] at he
      have hu : unaliased (readAttr W pre id a) = typedAttr W k a.value := by
        rw [he]
        simp only
        split
        · rfl
        · unfold typedAttr
          cases W.parse k a.value <;> rfl
      have hn' : (readAttr W pre id a).name = .known k := by rw [hn, idOf, hr]
      have := xlink_typed (E := E) W hW hne _ k a.value hu hn'
      have huri := (row_some hr).2.1
      cases hx : (xlinkProblem W (readAttr W pre id a) : Option (Problem E K)) with
      | none =>
        rw [hx] at this
        simp only [Option.map_none]
        rw [← huri]
        exact fun h => this (uri_injective h)
      | some q =>
        rw [hx] at this
        simp only [Option.map_some]
        rw [ho, ← huri, this.1]
        exact ⟨rfl, this.2, rfl⟩
  · intro d
    obtain ⟨p', u⟩ := d
    cases p' with
    | some q => simp [xmlnsAttr, xlinkProblem, unaliased, Attr.name, AttrId.prefix', Prefix.unaliased]
    | none =>
      have h1 : W.xmlns ≠ W.xlinkShow := fun h => by have := hW.show'; rw [← h, hW.xmlns] at this; cases this
      have h2 : W.xmlns ≠ W.xlinkTitle := fun h => by have := hW.title; rw [← h, hW.xmlns] at this; cases this
      have h3 : W.xmlns ≠ W.xlinkHref := fun h => by have := hW.href; rw [← h, hW.xmlns] at this; cases this
      simp [xmlnsAttr, xlinkProblem, unaliased, Attr.name, AttrId.prefix', Prefix.unaliased, hW.xmlns, h1, h2, h3]

/-- The attribute is known, has the usual prefix and its value is not one of its type; `r` is what is left of a path. -/
inductive Bad (W : Vocab E K V) (pre : Option Str → Prefix) (e : ElemId E) (a : Src) (k : K) : Option Str → Prop
  | value : row W e (pre a.ns).uri a.loc = some k → (pre a.ns).isAliased = false → W.parse k a.value = none → Bad W pre e a k none
  | path {v r} : row W e (pre a.ns).uri a.loc = some k → (pre a.ns).isAliased = false → W.parse k a.value = some v →
      W.isPath k = true → W.rest v = some r → Bad W pre e a k (some r)

/-- What is reported for a single attribute. -/
theorem invalid_one (W : Vocab E K V) {pre : Option Str → Prefix} (hp : ∀ ns, (pre ns).WF) (id : ElemId E) {as : List Src}
    (hd : Distinct pre as) {a : Src} (ha : a ∈ as) :
    (invalidReport W (as.foldl (fun m a => ((readAttr W pre id a).name, a.ranges) :: m) []) (readAttr W pre id a) : Option (Option (Report E K))) = some none ∧
        (∀ k r, ¬ Bad W pre id a k r) ∨
    (∃ k, Bad W pre id a k none ∧ (invalidReport W (as.foldl (fun m a => ((readAttr W pre id a).name, a.ranges) :: m) [])
        (readAttr W pre id a) : Option (Option (Report E K))) = some (some ⟨.invalid (.known k), some a.ranges.value⟩)) ∨
    (∃ k r, Bad W pre id a k (some r) ∧ (invalidReport W (as.foldl (fun m a => ((readAttr W pre id a).name, a.ranges) :: m) [])
        (readAttr W pre id a) : Option (Option (Report E K))) =
          if a.ranges.value.2 < r.length then none
          else some (some ⟨.invalid (.known k), some (a.ranges.value.2 - r.length, a.ranges.value.2)⟩)) := by
  have ho := own_ranges W hp id hd ha
  have hn := read_name W hp id a
  have he := read_eq W hp id a
  generalize as.foldl (fun m a => ((readAttr W pre id a).name, a.ranges) :: m) [] = m at *
  cases hr : row W id (pre a.ns).uri a.loc with
  | none =>
    rw [hr] at he
    refine .inl ⟨by rw [he]; rfl, ?_⟩
    intro k r h
    cases h with
    | value h _ _ => rw [hr] at h; cases h
    | path h _ _ _ _ => rw [hr] at h; cases h
  | some k =>
    rw [hr] at he
    simp only at he
    have hn' : (readAttr W pre id a).name = .known k := by rw [hn, idOf, hr]
    rw [hn'] at ho
    cases hal : (pre a.ns).isAliased with
    | true =>
      rw [hal] at he
      refine .inl ⟨by rw [he]; rfl, ?_⟩
      intro k r h
      cases h with
      | value _ h _ => rw [hal] at h; cases h
      | path _ h _ _ _ => rw [hal] at h; cases h
    | false =>
      rw [hal] at he
      simp only [Bool.false_eq_true, if_false] at he
      unfold typedAttr at he
      cases hv : W.parse k a.value with
      | none =>
        rw [hv] at he
        refine .inr (.inl ⟨k, .value hr hal hv, ?_⟩)
        rw [he]
        simp only [invalidReport, ho, Option.map_some]
      | some v =>
        rw [hv] at he
        simp only at he
        rw [he]
        cases hpath : W.isPath k with
        | false =>
          refine .inl ⟨by simp [invalidReport, hpath], ?_⟩
          intro k' r h
          cases h with
          | value h _ h' => rw [hr] at h; cases h; rw [hv] at h'; cases h'
          | path h _ _ h' _ => rw [hr] at h; cases h; rw [hpath] at h'; cases h'
        | true =>
          cases hrest : W.rest v with
          | none =>
            refine .inl ⟨by simp [invalidReport, hpath, hrest], ?_⟩
            intro k' r h
            cases h with
            | value h _ h' => rw [hr] at h; cases h; rw [hv] at h'; cases h'
            | path h _ h' _ h'' => rw [hr] at h; cases h; rw [hv] at h'; cases h'; rw [hrest] at h''; cases h''
          | some r =>
            refine .inr (.inr ⟨k, r, .path hr hal hv hpath hrest, ?_⟩)
            simp only [invalidReport, hpath, if_true, hrest, ho]

theorem bad_unique {W : Vocab E K V} {pre : Option Str → Prefix} {e : ElemId E} {a : Src} {k k' : K} {r r' : Option Str}
    (h : Bad W pre e a k r) (h' : Bad W pre e a k' r') : k = k' ∧ r = r' := by
  cases h with
  | value h1 h2 h3 =>
    cases h' with
    | value h4 h5 h6 => rw [h1] at h4; cases h4; exact ⟨rfl, rfl⟩
    | path h4 h5 h6 h7 h8 => rw [h1] at h4; cases h4; rw [h3] at h6; cases h6
  | path h1 h2 h3 h4' h5' =>
    cases h' with
    | value h4 h5 h6 => rw [h1] at h4; cases h4; rw [h3] at h6; cases h6
    | path h4 h5 h6 h7 h8 =>
      rw [h1] at h4; cases h4
      rw [h3] at h6; cases h6
      rw [h5'] at h8; cases h8
      exact ⟨rfl, rfl⟩

theorem mapM_cons' {α β : Type} (f : α → Option β) (a : α) (as : List α) :
    (a :: as).mapM f = (f a).bind fun b => (as.mapM f).map fun bs => b :: bs := by
  rw [List.mapM_cons]
  cases f a with
  | none => rfl
  | some b => cases as.mapM f <;> rfl

theorem mapM_some_none {α β : Type} (f : α → Option (Option β)) (ds as : List α) (h : ∀ d ∈ ds, f d = some none) :
    ((ds ++ as).mapM f).map (fun l => l.filterMap id) = (as.mapM f).map fun l => l.filterMap id := by
  induction ds with
  | nil => rfl
  | cons d ds ih =>
    rw [List.cons_append, mapM_cons', h d (by simp), ← ih fun d hd => h d (by simp [hd])]
    cases (ds ++ as).mapM f <;> rfl

/-- **C92 (invalid values)** The rule stops with a panic iff more of a path is left than there are bytes up to the end of the value
in the source. Else exactly the attributes of which the value is not one of the type, or of which the path could not be read to the
end, are reported, each once: with the range of the value, or of the last bytes of it as long as the rest of the path. -/
theorem invalid_iff (W : Vocab E K V) (hW : Sound W) {pre : Option Str → Prefix} (hp : ∀ ns, (pre ns).WF) (parent : Option (ElemId E))
    (p : Prefix) (loc : Str) (start : Nat) (decls : List (Option Str × Str)) {as : List Src} (hd : Distinct pre as) :
    (noInvalid W (readElem W pre parent p loc start decls as) = none ↔
      ∃ a ∈ as, ∃ k r, Bad W pre (ElemId.new W p loc) a k (some r) ∧ a.ranges.value.2 < r.length) ∧
    ∀ rs, noInvalid W (readElem W pre parent p loc start decls as) = some rs →
      Picks (fun a => ∃ k r, Bad W pre (ElemId.new W p loc) a k r)
        (fun a r => (∃ k, Bad W pre (ElemId.new W p loc) a k none ∧ r = ⟨.invalid (.known k), some a.ranges.value⟩) ∨
          ∃ k s, Bad W pre (ElemId.new W p loc) a k (some s) ∧
            r = ⟨.invalid (.known k), some (a.ranges.value.2 - s.length, a.ranges.value.2)⟩) as rs := by
  simp only [noInvalid, readElem]
  generalize ElemId.new W p loc = id
  rw [mapM_some_none]
  · have key := fun a (ha : a ∈ as) => invalid_one W hp id hd ha
    generalize as.foldl (fun m a => ((readAttr W pre id a).name, a.ranges) :: m) [] = m at *
    clear hd
    induction as with
    | nil =>
      refine ⟨by simp, ?_⟩
      intro rs h
      cases h
      exact .nil
    | cons a as ih =>
      have ih := ih fun b hb => key b (by simp [hb])
      have ha := key a (by simp)
      rw [List.map_cons, mapM_cons']
      generalize hq : (as.map (readAttr W pre id)).mapM (invalidReport W m) = q at *
      have simpleNone : ∀ x : Option (Report E K), (Option.map (fun l => l.filterMap _root_.id) (Option.map (fun bs => x :: bs) q) = none ↔
          Option.map (fun l : List (Option (Report E K)) => l.filterMap _root_.id) q = none) := by
        intro x; cases q <;> simp
      rcases ha with ⟨h1, h2⟩ | ⟨k, hb, h1⟩ | ⟨k, r, hb, h1⟩
      · rw [h1]
        simp only [Option.bind_some]
        refine ⟨?_, ?_⟩
        · rw [simpleNone, ih.1]
          constructor
          · rintro ⟨b, hb, h⟩
            exact ⟨b, by simp [hb], h⟩
          · rintro ⟨b, hb, k, r, h⟩
            rcases List.mem_cons.1 hb with rfl | hb
            · exact absurd h.1 (h2 k (some r))
            · exact ⟨b, hb, k, r, h⟩
        · intro rs h
          refine .no (fun ⟨k, r, h⟩ => h2 k r h) (ih.2 rs ?_)
          cases q with
          | none => simp at h
          | some q => simpa using h
      · rw [h1]
        simp only [Option.bind_some]
        refine ⟨?_, ?_⟩
        · rw [simpleNone, ih.1]
          constructor
          · rintro ⟨b, hb, h⟩
            exact ⟨b, by simp [hb], h⟩
          · rintro ⟨b, hb', k', r', h⟩
            rcases List.mem_cons.1 hb' with rfl | hb'
            · cases (bad_unique hb h.1).2
            · exact ⟨b, hb', k', r', h⟩
        · intro rs h
          cases q with
          | none => simp at h
          | some q =>
            simp only [Option.map_some, List.filterMap_cons, _root_.id, Option.some.injEq] at h
            subst h
            exact .yes ⟨k, none, hb⟩ (.inl ⟨k, hb, rfl⟩) (ih.2 _ rfl)
      · rw [h1]
        by_cases hlt : a.ranges.value.2 < r.length
        · rw [if_pos hlt]
          refine ⟨⟨fun _ => ⟨a, by simp, k, r, hb, hlt⟩, fun _ => rfl⟩, ?_⟩
          intro rs h
          cases h
        · rw [if_neg hlt]
          simp only [Option.bind_some]
          refine ⟨?_, ?_⟩
          · rw [simpleNone, ih.1]
            constructor
            · rintro ⟨b, hb, h⟩
              exact ⟨b, by simp [hb], h⟩
            · rintro ⟨b, hb', k', r', h⟩
              rcases List.mem_cons.1 hb' with rfl | hb'
              · have := (bad_unique hb h.1).2
                injection this with this
                subst this
                exact absurd h.2 hlt
              · exact ⟨b, hb', k', r', h⟩
          · intro rs h
            cases q with
            | none => simp at h
            | some q =>
              simp only [Option.map_some, List.filterMap_cons, _root_.id, Option.some.injEq] at h
              subst h
              exact .yes ⟨k, some r, hb⟩ (.inr ⟨k, r, hb, rfl⟩) (ih.2 _ rfl)
  · intro d hd
    obtain ⟨⟨p', u⟩, _, rfl⟩ := List.mem_map.1 hd
    cases p' with
    | some q => rfl
    | none => simp [xmlnsAttr, invalidReport, hW.noPath]

end Verif.Rules
