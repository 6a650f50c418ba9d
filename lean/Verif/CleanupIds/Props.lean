import Verif.CleanupIds.Rename

/-!
# C13: cleaning up ids keeps references
-/

namespace Verif.CleanupIds

open Verif.IdGen

/-! ## The job ends -/

theorem visitRefs_total {E : Env} {o : Options} {isId : Bool} {t : Str} {k : Kind} (l : List Ref) {st : St}
    (h : Inv st.gen) : ∃ st' l', visitRefs E o isId t k l st = some (st', l') ∧ Inv st'.gen := by
  induction l generalizing st with
  | nil => exact ⟨st, [], rfl, h⟩
  | cons r l ih =>
    by_cases hr : r.kind = k ∧ isRef E t r = true
    · obtain ⟨st1, m, e1, -, i1⟩ := assign_spec (isId := isId) (t := t) h
      obtain ⟨st2, l2, e2, i2⟩ := ih i1
      exact ⟨st2, _, by simp only [visitRefs, visitRef, if_pos hr, e1, Option.map_some, Option.bind_some, e2]; rfl, i2⟩
    · obtain ⟨st2, l2, e2, i2⟩ := ih h
      exact ⟨st2, _, by simp only [visitRefs, visitRef, if_neg hr, Option.map_some, Option.bind_some, e2]; rfl, i2⟩

theorem renameAll_total {E : Env} {o : Options} {R : List Str} (w : List (Nat × Str)) (s : St × List Attr)
    (h : Inv s.1.gen) : ∃ s', renameAll E o R w s = some s' := by
  induction w generalizing s with
  | nil => exact ⟨s, rfl⟩
  | cons x w ih =>
    have : ∃ s1, rename E o R s x = some s1 ∧ Inv s1.1.gen := by
      unfold rename
      split
      · cases s.2[x.1]? with
        | none => exact ⟨s, rfl, h⟩
        | some a =>
          obtain ⟨st1, l1, e1, i1⟩ := visitRefs_total (E := E) (o := o) (isId := a.isId) (t := x.2) (k := .url) a.refs h
          obtain ⟨st2, l2, e2, i2⟩ := visitRefs_total (E := E) (o := o) (isId := a.isId) (t := x.2) (k := .id) l1 i1
          exact ⟨_, by simp only [visitAttr, e1, e2, Option.bind_some, Option.map_some]; rfl, i2⟩
      · exact ⟨s, rfl, h⟩
    obtain ⟨s1, e1, i1⟩ := this
    obtain ⟨s2, e2⟩ := ih s1 i1
    exact ⟨s2, by simp [renameAll, e1, e2]⟩

/-- **C13 (ends).** Whatever the document and the options, names are found for all ids and the job gives a document. -/
theorem ends (E : Env) (o : Options) (sheet script onlyDefs : Bool) (order : List Nat) (d : List Attr) :
    ∃ d', run E o sheet script onlyDefs order d = some d' := by
  unfold run
  split
  · exact ⟨d, rfl⟩
  · unfold job
    dsimp only
    obtain ⟨g, e1, i1, -⟩ := setReserved_inv (find E o order d).kept
    obtain ⟨c, e2, i2, -⟩ := collect_spec (E := E) (R := (find E o order d).replaceable)
      (keepAttrs (find E o order d).gone d) 0 (s := ⟨[], g⟩) i1
    obtain ⟨s, e3⟩ := renameAll_total (E := E) (o := o) (R := (find E o order d).replaceable) c.renames
      (⟨[], c.gen, []⟩, keepAttrs (find E o order d).gone d) i2
    exact ⟨_, by simp only [e1, e2, e3, Option.bind_some, Option.map_some]; rfl⟩

/-- **C13 (left alone).** Without `force`, a document that has style sheets, scripts or nothing but definitions stays as
it is. -/
theorem left_alone (E : Env) (o : Options) (sheet script onlyDefs : Bool) (order : List Nat) (d : List Attr)
    (hf : o.force = false) (h : sheet = true ∨ script = true ∨ onlyDefs = true) :
    run E o sheet script onlyDefs order d = some d := by
  unfold run
  rw [if_pos]
  rcases h with rfl | rfl | rfl <;> simp [hf]

/-- **C13 (forced).** Otherwise the ids are cleaned up. -/
theorem forced (E : Env) (o : Options) (sheet script onlyDefs : Bool) (order : List Nat) (d : List Attr)
    (h : o.force = true ∨ (sheet = false ∧ script = false ∧ onlyDefs = false)) :
    run E o sheet script onlyDefs order d = job E o order d := by
  unfold run
  rw [if_neg]
  rcases h with h | ⟨rfl, rfl, rfl⟩ <;> simp [*]

/-! ## References are kept -/

/-- The user asked to keep this id: it is listed, or has one of the listed prefixes. -/
def Preserved (o : Options) (x : Str) : Prop := x ∈ o.preserve ∨ ∃ p ∈ o.preservePrefixes, p <+: x

theorem preserved_iff {o : Options} {x : Str} : preserved o x = true ↔ Preserved o x := by
  unfold preserved Preserved
  simp only [Bool.or_eq_true, List.any_eq_true, List.isPrefixOf_iff_prefix, List.contains_iff_mem]
  exact or_comm

theorem preserved_false {o : Options} {x : Str} : preserved o x = false ↔ ¬ Preserved o x := by
  rw [← preserved_iff]; simp

/-- The attribute number `i` is not an id, or an id that is not numeric and that the user asked to keep or that is the
first of its kind. -/
def Survives (E : Env) (o : Options) (order : List Nat) (d : List Attr) (i : Nat) : Prop :=
  ∀ x, idAt d i = some x → E.numeric x = false ∧
    (Preserved o x ∨ ∀ q r, order = q ++ i :: r → ∀ j ∈ q, idAt d j ≠ some x)

/-- Something in the attributes `d` refers to `t`, other than an id. -/
def Referenced (E : Env) (d : List Attr) (t : Str) : Prop :=
  ∃ a ∈ d, a.isId = false ∧ ∃ r ∈ a.refs, Names E r t

/-- Something in the attributes `d` names `t`. -/
def Occurs (E : Env) (d : List Attr) (t : Str) : Prop := ∃ a ∈ d, ∃ r ∈ a.refs, Names E r t

/-- `t` is neither an id that may be changed nor the percent-encoded form of one. -/
def Other (E : Env) (o : Options) (d : List Attr) (t : Str) : Prop :=
  ∀ i x, idAt d i = some x → E.numeric x = false → ¬ Preserved o x → t ≠ x ∧ t ≠ E.encode x

/-- Every `id` attribute is one id. -/
def WellFormed (d : List Attr) : Prop := ∀ a ∈ d, a.isId = true → ∃ x, a.refs = [⟨.id, x⟩]

/-- An attribute with all its references replaced. -/
def mapRefs (g : Ref → Ref) (a : Attr) : Attr := { a with refs := a.refs.map g }

theorem first_with (P : Nat → Prop) (l : List Nat) (i : Nat) (hi : i ∈ l) (hP : P i) :
    ∃ q k r, l = q ++ k :: r ∧ P k ∧ ∀ j ∈ q, ¬ P j := by
  induction l with
  | nil => cases hi
  | cons a l ih =>
    by_cases ha : P a
    · exact ⟨[], a, l, rfl, ha, by simp⟩
    · rcases List.mem_cons.1 hi with rfl | hi
      · exact absurd hP ha
      · obtain ⟨q, k, r, e, h1, h2⟩ := ih hi
        refine ⟨a :: q, k, r, by simp [e], h1, fun j hj => ?_⟩
        rcases List.mem_cons.1 hj with rfl | hj
        · exact ha
        · exact h2 j hj

theorem split_unique {l q r q' r' : List Nat} {k : Nat} (h : l.Nodup) (e : l = q ++ k :: r) (e' : l = q' ++ k :: r') :
    q = q' := by
  subst e
  induction q generalizing q' with
  | nil =>
    cases q' with
    | nil => rfl
    | cons a q' =>
      simp only [List.nil_append, List.cons_append, List.cons.injEq] at e'
      obtain ⟨rfl, e'⟩ := e'
      simp [e'] at h
  | cons a q ih =>
    cases q' with
    | nil =>
      simp only [List.nil_append, List.cons_append, List.cons.injEq] at e'
      obtain ⟨rfl, e'⟩ := e'
      simp at h
    | cons b q' =>
      simp only [List.cons_append, List.cons.injEq] at e'
      obtain ⟨rfl, e'⟩ := e'
      rw [ih (List.nodup_cons.1 h).2 e']

theorem keepAttrs_mem {gone : List Nat} {d : List Attr} {a : Attr} (h : a ∈ keepAttrs gone d) :
    ∃ i, d[i]? = some a ∧ i ∉ gone := by
  unfold keepAttrs at h
  obtain ⟨i, -, e⟩ := List.mem_filterMap.1 h
  by_cases hg : i ∈ gone
  · simp [hg] at e
  · simp [hg] at e
    exact ⟨i, by simp [e], hg⟩

theorem idOf_id {a : Attr} {x : Str} (h : a.isId = true) (e : a.refs = [⟨.id, x⟩]) : idOf a = some x := by
  simp [idOf, h, e]

theorem idOf_some {a : Attr} {x : Str} (h : idOf a = some x) : a.isId = true := by
  unfold idOf at h
  cases hi : a.isId
  · simp [hi] at h
  · rfl

theorem idAt_get {d : List Attr} {i : Nat} {a : Attr} (h : d[i]? = some a) : idAt d i = idOf a := by simp [idAt, h]

/-- **C13 (references follow, partial).** If the document is not one of those below, then there is a renaming `f` of ids
and the new document is the old one, in which: numeric ids and repeated ids are gone; when asked to remove ids, exactly
those that nothing refers to and that the user did not ask to keep are gone; and everything that named an id `t` names
`f t`. Two different ids, or ids and other names in the document, never become the same. Ids that the user asked to keep
and names that are no id do not change; all other ids become short. So whatever was referred to is what is still
referred to. Missing: attributes with several references of which one looks like a generated name or is
percent-encoded, ids that are the percent-encoded form of another, and `minify: false`; for all of these the claim is
false (see below). -/
theorem follow_partial (E : Env) (o : Options) (order : List Nat) (d : List Attr) (hm : o.minify = true)
    (hE : DecodesLetters E) (hw : WellFormed d) (hp : Plain E d) (hc : ∀ a ∈ d, Clear E a)
    (ho : order.Perm (List.range d.length)) :
    ∃ (f : Str → Str) (g : Ref → Ref) (live : Nat → Bool) (keep : Attr → Bool) (d1 d' : List Attr),
      (∀ i, live i = true ↔ Survives E o order d i) ∧
      d1 = (List.range d.length).filterMap (fun i => if live i then d[i]? else none) ∧
      (∀ a ∈ d1, keep a = true ↔ (a.isId = false ∨ o.remove = false ∨
        ∃ x, idOf a = some x ∧ (Preserved o x ∨ Referenced E d1 x))) ∧
      job E o order d = some d' ∧ d' = (d1.filter keep).map (mapRefs g) ∧
      (∀ a ∈ d1, ∀ r ∈ a.refs, (g r).kind = r.kind ∧ (∀ t, Names E r t → Names E (g r) (f t)) ∧
        ((∀ t, Names E r t → Other E o d t) → g r = r)) ∧
      (∀ s t, Occurs E d1 s → Occurs E d1 t → f s = f t → s = t) ∧
      (∀ t, Other E o d t → f t = t) ∧
      (∀ i x, idAt d i = some x → E.numeric x = false → ¬ Preserved o x → Letters (f x) ∧ f x ≠ []) ∧
      (∀ t, Referenced E d1 t → d'.filter (fun a => idOf a == some (f t)) =
        (d1.filter fun a => idOf a == some t).map (mapRefs g)) := by
  have hk := find_known (o := o) hp order
  generalize hf : find E o order d = s at hk
  obtain ⟨gen0, e1, i1, res1⟩ := setReserved_inv s.kept
  obtain ⟨c, e2, i2, ⟨w, ew, mw⟩, res2⟩ := collect_spec (E := E) (R := s.replaceable) (keepAttrs s.gone d) 0
    (s := ⟨[], gen0⟩) i1
  simp only [List.nil_append] at ew
  simp only [Nat.zero_add] at mw
  generalize hd1 : keepAttrs s.gone d = d1 at e2 mw res2
  have hmem : ∀ a ∈ d1, ∃ i, d[i]? = some a ∧ i ∉ s.gone := fun a ha => keepAttrs_mem (hd1 ▸ ha)
  have hc1 : ∀ a ∈ d1, Clear E a := fun a ha => by
    obtain ⟨i, hi, -⟩ := hmem a ha
    exact hc a (List.mem_of_getElem? hi)
  have hw1 : ∀ a ∈ d1, a.isId = true → ∃ x, a.refs = [⟨.id, x⟩] := fun a ha => by
    obtain ⟨i, hi, -⟩ := hmem a ha
    exact hw a (List.mem_of_getElem? hi)
  have j0 : J E c.gen.reserved d1 [] (⟨[], c.gen, []⟩, d1) := by
    refine ⟨i2, rfl, ?_, by simp, by simp, by simp, by simp⟩
    simp only [updAll]
    apply List.ext_getElem?
    intro j
    rw [List.getElem?_mapIdx]
    cases hj : d1[j]? with
    | none => rfl
    | some a =>
      simp only [Option.map_some, Option.some.injEq]
      have : a.refs.map (upd E [] (nameOf ⟨[], c.gen, []⟩) j) = a.refs := by
        refine Eq.trans (List.map_congr_left (g := id) fun r _ => ?_) (List.map_id _)
        unfold upd
        cases target E r <;> simp
      rw [this]
  obtain ⟨⟨st, doc⟩, e3, j⟩ := renameAll_spec (o := o) (R := s.replaceable) hE hm hc1 c.renames [] j0 (by
    intro i t hi
    rw [ew] at hi
    obtain ⟨hr, k, a, r, rfl, ha, hra, hrt⟩ := (mw i t).1 hi
    exact ⟨hr, a, ha, r, hra, hrt⟩)
  rw [List.append_nil, ew] at j
  have hD : ∀ k t, (k, t) ∈ w.reverse ↔ t ∈ s.replaceable ∧ ∃ a r, d1[k]? = some a ∧ r ∈ a.refs ∧ target E r = some t := by
    intro k t
    rw [List.mem_reverse, mw]
    constructor
    · rintro ⟨h1, jj, a, r, rfl, h2, h3, h4⟩; exact ⟨h1, a, r, h2, h3, h4⟩
    · rintro ⟨h1, a, r, h2, h3, h4⟩; exact ⟨h1, k, a, r, rfl, h2, h3, h4⟩
  have hcov : ∀ i x, idAt d i = some x → i ∈ order := by
    intro i x hx
    rw [ho.mem_iff, List.mem_range]
    unfold idAt at hx
    cases hdi : d[i]? with
    | none => simp [hdi] at hx
    | some a => exact (List.getElem?_eq_some_iff.1 hdi).1
  have hrepl : ∀ t, t ∈ s.replaceable ↔ ∃ i x, idAt d i = some x ∧ E.numeric x = false ∧ ¬ Preserved o x ∧
      (t = x ∨ t = E.encode x) := by
    intro t
    rw [hk.repl]
    constructor
    · rintro ⟨i, -, x, h1, h2, h3, h4⟩; exact ⟨i, x, h1, h2, preserved_false.1 h3, h4⟩
    · rintro ⟨i, x, h1, h2, h3, h4⟩; exact ⟨i, hcov i x h1, x, h1, h2, preserved_false.2 h3, h4⟩
  have hnot : ∀ x i, idAt d i = some x → Preserved o x → x ∉ s.replaceable := by
    intro x i hx hpr c
    obtain ⟨k, y, h1, h2, h3, h4⟩ := (hrepl x).1 c
    rcases h4 with rfl | h4
    · exact h3 hpr
    · by_cases e : y = x
      · subst e; exact h3 hpr
      · exact hp k i y x h1 hx e h4.symm
  have hlive : ∀ i, i ∉ s.gone ↔ Survives E o order d i := by
    intro i
    rw [hk.gone]
    constructor
    · intro h x hx
      constructor
      · cases hn : E.numeric x
        · rfl
        · exfalso
          obtain ⟨q, r, e⟩ := List.append_of_mem (hcov i x hx)
          exact h ⟨q, r, e, x, hx, .inl hn⟩
      · by_cases hpr : Preserved o x
        · exact .inl hpr
        · right
          intro q r e k hk2 hxk
          exact h ⟨q, r, e, x, hx, .inr ⟨preserved_false.2 hpr, k, hk2, hxk⟩⟩
    · rintro h ⟨q, r, e, x, hx, hn | ⟨hpr, k, hk2, hxk⟩⟩
      · have := (h x hx).1
        rw [hn] at this; cases this
      · rcases (h x hx).2 with h2 | h2
        · exact preserved_false.1 hpr h2
        · exact h2 q r e k hk2 hxk
  have hother : ∀ t, Other E o d t → t ∉ s.replaceable := by
    intro t ht c
    obtain ⟨i, x, h1, h2, h3, h4⟩ := (hrepl t).1 c
    obtain ⟨n1, n2⟩ := ht i x h1 h2 h3
    rcases h4 with h4 | h4
    · exact n1 h4
    · exact n2 h4
  -- the renaming
  have hval : ∀ t, t ∈ s.replaceable → Occurs E d1 t → ∃ m, st.map.lookup t = some m ∧ nameOf st t = m := by
    rintro t ht ⟨a, ha, r, hr, hn⟩
    obtain ⟨k, hk1⟩ := List.getElem?_of_mem ha
    have := (j.keys t).2 ⟨k, (hD k t).2 ⟨ht, a, r, hk1, hr, names_iff.1 hn⟩⟩
    obtain ⟨m, em⟩ := Option.isSome_iff_exists.1 this
    simp only at em
    exact ⟨m, em, by simp [nameOf, em]⟩
  have hfix : ∀ t, t ∉ s.replaceable → nameOf st t = t := by
    intro t ht
    have : ¬ (st.map.lookup t).isSome = true := by
      intro c
      obtain ⟨k, hk1⟩ := (j.keys t).1 c
      exact ht ((hD k t).1 hk1).1
    unfold nameOf
    cases hl : st.map.lookup t with
    | none => rfl
    | some m => rw [hl] at this; simp at this
  have hinj : ∀ t u, Occurs E d1 t → Occurs E d1 u → nameOf st t = nameOf st u → t = u := by
    have half : ∀ t u, t ∈ s.replaceable → u ∉ s.replaceable → Occurs E d1 t → Occurs E d1 u →
        nameOf st t ≠ nameOf st u := by
      intro t u ht hu ot ou e
      obtain ⟨m, em, en⟩ := hval t ht ot
      rw [en, hfix u hu] at e
      have := (j.vals t m em).2.2.1
      rw [e] at this
      apply this
      rw [res2]
      obtain ⟨a, ha, r, hr, hn⟩ := ou
      exact .inr ⟨hu, a, ha, r, hr, names_iff.1 hn⟩
    intro t u ot ou e
    by_cases ht : t ∈ s.replaceable <;> by_cases hu : u ∈ s.replaceable
    · obtain ⟨m, em, en⟩ := hval t ht ot
      obtain ⟨m', em', en'⟩ := hval u hu ou
      have : m = m' := by rw [← en, ← en', e]
      subst this
      exact j.inj t u m em em'
    · exact absurd e (half t u ht hu ot ou)
    · exact absurd e.symm (half u t hu ht ou ot)
    · rw [hfix t ht, hfix u hu] at e; exact e
  -- the reference afterwards
  let g : Ref → Ref := fun r => match target E r with
    | none => r
    | some u => if u ∈ s.replaceable then { r with text := newText r.kind (nameOf st u) } else r
  have hdoc : doc = d1.map (mapRefs g) := by
    have h1 := j.doc
    simp only at h1
    rw [h1]
    apply List.ext_getElem?
    intro k
    simp only [updAll, List.getElem?_mapIdx, List.getElem?_map]
    cases hk1 : d1[k]? with
    | none => rfl
    | some a =>
      simp only [Option.map_some, mapRefs, Option.some.injEq]
      congr 1
      refine List.map_congr_left fun r hr => ?_
      simp only [g, upd]
      cases hu : target E r with
      | none => rfl
      | some u =>
        simp only
        by_cases hR : u ∈ s.replaceable
        · rw [if_pos hR, if_pos ((hD k u).2 ⟨hR, a, r, hk1, hr, hu⟩)]
        · rw [if_neg hR, if_neg fun c => hR ((hD k u).1 c).1]
  have hg : ∀ a ∈ d1, ∀ r ∈ a.refs, (g r).kind = r.kind ∧ (∀ t, Names E r t → Names E (g r) (nameOf st t)) ∧
      ((∀ t, Names E r t → Other E o d t) → g r = r) := by
    intro a ha r hr
    refine ⟨?_, fun t ht => ?_, fun hall => ?_⟩
    · simp only [g]
      cases target E r with
      | none => rfl
      | some u => simp only; split <;> rfl
    · have ht' := names_iff.1 ht
      have eg : g r = if t ∈ s.replaceable then { r with text := newText r.kind (nameOf st t) } else r := by
        simp only [g, ht']
      rw [eg]
      by_cases hR : t ∈ s.replaceable
      · rw [if_pos hR, names_iff]
        obtain ⟨m, em, en⟩ := hval t hR ⟨a, ha, r, hr, ht⟩
        rw [en]
        exact target_new hE (j.vals t m em).1
      · rw [if_neg hR, hfix t hR]
        exact ht
    · cases hu : target E r with
      | none => simp only [g, hu]
      | some u => simp only [g, hu, if_neg (hother u (hall u (names_iff.2 hu)))]
  have hid : ∀ a ∈ d1, ∀ x, idOf a = some x → Names E ⟨.id, x⟩ x ∧ Occurs E d1 x ∧
      idOf (mapRefs g a) = some (nameOf st x) := by
    intro a ha x hx
    have hi := idOf_some hx
    obtain ⟨y, ey⟩ := hw1 a ha hi
    rw [idOf_id hi ey] at hx
    cases hx
    have hn : Names E ⟨.id, x⟩ x := .inl ⟨rfl, rfl⟩
    refine ⟨hn, ⟨a, ha, _, by rw [ey]; simp, hn⟩, ?_⟩
    obtain ⟨h1, h2, -⟩ := hg a ha ⟨.id, x⟩ (by rw [ey]; simp)
    rcases h2 x hn with ⟨-, h3⟩ | ⟨h3, -⟩
    · simp [idOf, mapRefs, hi, ey, h3]
    · rw [h1] at h3; cases h3
  have hidn : ∀ a, idOf a = none → idOf (mapRefs g a) = none := by
    intro a ha
    unfold idOf at ha ⊢
    cases hi : a.isId
    · simp [mapRefs, hi]
    · simp [hi] at ha
      simp [mapRefs, ha]
  let keep : Attr → Bool := fun a => !o.remove || keepId st (mapRefs g a)
  have hres : st.gen.reserved = c.gen.reserved := j.same
  have hkeep : ∀ a ∈ d1, keep a = true ↔ (a.isId = false ∨ o.remove = false ∨
        ∃ x, idOf a = some x ∧ (Preserved o x ∨ Referenced E d1 x)) := by
    intro a ha
    simp only [keep, Bool.or_eq_true, Bool.not_eq_true']
    cases hi : a.isId with
    | false =>
      have h0 : idOf a = none := by simp [idOf, hi]
      simp [keepId, hidn a h0]
    | true =>
      obtain ⟨x, ex⟩ := hw1 a ha hi
      have hx := idOf_id hi ex
      obtain ⟨-, ox, hx'⟩ := hid a ha x hx
      have hkx : keepId st (mapRefs g a) = true ↔ nameOf st x ∈ st.used ∨ nameOf st x ∈ st.gen.reserved := by
        simp [keepId, hx']
      obtain ⟨i, hdi, hgi⟩ := hmem a ha
      have hxi : idAt d i = some x := by rw [idAt_get hdi, hx]
      have hsurv := (hlive i).1 hgi x hxi
      have h1 : nameOf st x ∈ st.gen.reserved ↔ Preserved o x := by
        rw [hres, res2, res1]
        constructor
        · intro h
          by_cases hR : x ∈ s.replaceable
          · obtain ⟨m, em, en⟩ := hval x hR ox
            have := (j.vals x m em).2.2.1
            rw [en] at h
            exact absurd ((res2 m).2 (by rw [res1]; exact h)) this
          · by_cases hpr : Preserved o x
            · exact hpr
            · exact absurd ((hrepl x).2 ⟨i, x, hxi, hsurv.1, hpr, .inl rfl⟩) hR
        · intro hpr
          left
          rw [hfix x (hnot x i hxi hpr)]
          exact (hk.kept x).2 ⟨i, hcov i x hxi, hxi, hsurv.1, preserved_iff.2 hpr⟩
      have h2 : nameOf st x ∈ st.used → Referenced E d1 x := by
        intro h
        obtain ⟨k, t, b, hkt, hb, hbi, hl⟩ := (j.used _).1 h
        simp only at hl
        obtain ⟨ht, b', r, hb', hr, hrt⟩ := (hD k t).1 hkt
        rw [hb] at hb'
        cases hb'
        have hbm := List.mem_of_getElem? hb
        have ot : Occurs E d1 t := ⟨b, hbm, r, hr, names_iff.2 hrt⟩
        have hft : nameOf st t = nameOf st x := by
          have : nameOf st t = (st.map.lookup t).getD t := rfl
          rw [this, hl]; rfl
        have := hinj t x ot ox hft
        subst this
        exact ⟨b, hbm, hbi, r, hr, names_iff.2 hrt⟩
      have h3 : ¬ Preserved o x → Referenced E d1 x → nameOf st x ∈ st.used := by
        rintro hpr ⟨b, hb, hbi, r, hr, hn⟩
        have hR : x ∈ s.replaceable := (hrepl x).2 ⟨i, x, hxi, hsurv.1, hpr, .inl rfl⟩
        obtain ⟨m, em, en⟩ := hval x hR ox
        obtain ⟨k, hk1⟩ := List.getElem?_of_mem hb
        rw [en]
        exact (j.used m).2 ⟨k, x, b, (hD k x).2 ⟨hR, b, r, hk1, hr, names_iff.1 hn⟩, hk1, hbi, em⟩
      rw [hkx, h1]
      constructor
      · rintro (h | h | h)
        · exact .inr (.inl h)
        · exact .inr (.inr ⟨x, hx, .inr (h2 h)⟩)
        · exact .inr (.inr ⟨x, hx, .inl h⟩)
      · rintro (h | h | ⟨y, hy, h⟩)
        · cases h
        · exact .inl h
        · rw [hx] at hy
          cases hy
          by_cases hpr : Preserved o x
          · exact .inr (.inr hpr)
          · rcases h with h | h
            · exact absurd h hpr
            · exact .inr (.inl (h3 hpr h))
  have hfilter : removeIds o (st, doc) = (d1.filter keep).map (mapRefs g) := by
    rw [hdoc]
    unfold removeIds
    simp only
    cases hr : o.remove with
    | true =>
      rw [if_pos rfl, List.filter_map]
      congr 1
      apply List.filter_congr
      intro a _
      simp [keep, hr]
    | false =>
      rw [if_neg (by simp)]
      congr 1
      exact (List.filter_eq_self.2 fun a _ => by simp [keep, hr]).symm
  refine ⟨nameOf st, g, fun i => decide (i ∉ s.gone), keep, d1, (d1.filter keep).map (mapRefs g), ?_, ?_, hkeep, ?_, rfl,
    hg, hinj, ?_, ?_, ?_⟩
  · intro i
    rw [decide_eq_true_iff]
    exact hlive i
  · rw [← hd1]
    unfold keepAttrs
    congr 1
    funext i
    by_cases hi : i ∈ s.gone <;> simp [hi]
  · unfold job
    simp only [hf, hd1, e1, e2, e3, Option.bind_some, Option.map_some, hfilter]
  · exact fun t ht => hfix t (hother t ht)
  · intro i x hx hn hpr
    have hR : x ∈ s.replaceable := (hrepl x).2 ⟨i, x, hx, hn, hpr, .inl rfl⟩
    obtain ⟨q, k, r, eo, hkx, hq⟩ := first_with (fun j => idAt d j = some x) order i (hcov i x hx) hx
    have hks : k ∉ s.gone := by
      rw [hlive]
      intro y hy
      rw [hkx] at hy
      cases hy
      refine ⟨hn, .inr fun q' r' e' jj hj => ?_⟩
      have hnd : order.Nodup := ho.nodup_iff.2 List.nodup_range
      rw [← split_unique hnd eo e'] at hj
      exact hq jj hj
    have hkd : ∃ a, d[k]? = some a ∧ idOf a = some x := by
      unfold idAt at hkx
      cases hdk : d[k]? with
      | none => simp [hdk] at hkx
      | some a => exact ⟨a, rfl, by simpa [hdk] using hkx⟩
    obtain ⟨a, hda, hax⟩ := hkd
    have ha : a ∈ d1 := by
      rw [← hd1]
      unfold keepAttrs
      refine List.mem_filterMap.2 ⟨k, List.mem_range.2 (List.getElem?_eq_some_iff.1 hda).1, ?_⟩
      simp [hks, hda]
    obtain ⟨m, em, en⟩ := hval x hR (hid a ha x hax).2.1
    rw [en]
    exact ⟨(j.vals x m em).1, (j.vals x m em).2.1⟩
  · intro t ht
    rw [List.filter_map, List.filter_filter]
    congr 1
    apply List.filter_congr
    intro a ha
    simp only [Function.comp]
    cases hx : idOf a with
    | none => simp [hidn a hx]
    | some x =>
      obtain ⟨-, ox, hx'⟩ := hid a ha x hx
      rw [hx']
      by_cases e : x = t
      · subst e
        simp
        exact (hkeep a ha).2 (.inr (.inr ⟨x, hx, .inr ht⟩))
      · have ht' : Occurs E d1 t := by
          obtain ⟨b, hb, -, rest⟩ := ht
          exact ⟨b, hb, rest⟩
        have : nameOf st x ≠ nameOf st t := fun c => e (hinj x t ox ht' c)
        have h1 : (some (nameOf st x) == some (nameOf st t)) = false :=
          beq_eq_false_iff_ne.2 fun c => this (Option.some.inj c)
        have h2 : (some x == some t) = false := beq_eq_false_iff_ne.2 fun c => e (Option.some.inj c)
        rw [h1, h2, Bool.false_and]

/-! ## Where the claim fails -/

/-- The bytes of a text. -/
def str (s : String) : Str := s.toList.map Char.toNat

def hexDigit (n : Nat) : Nat := if n < 10 then 48 + n else 55 + n

def fromHex (b : Nat) : Option Nat :=
  if 48 ≤ b ∧ b ≤ 57 then some (b - 48)
  else if 65 ≤ b ∧ b ≤ 70 then some (b - 55)
  else if 97 ≤ b ∧ b ≤ 102 then some (b - 87)
  else none

/-- Percent-encoding: ASCII letters, digits and `-_.~` stay. -/
def pctEncode (s : Str) : Str :=
  s.flatMap fun b =>
    if (97 ≤ b ∧ b ≤ 122) ∨ (65 ≤ b ∧ b ≤ 90) ∨ (48 ≤ b ∧ b ≤ 57) ∨ b ∈ [45, 95, 46, 126] then [b]
    else [37, hexDigit (b / 16), hexDigit (b % 16)]

/-- Percent-decoding, for ASCII. -/
def pctDecode : Str → Str
  | 37 :: h :: l :: s =>
    match fromHex h, fromHex l with
    | some x, some y => (16 * x + y) :: pctDecode s
    | _, _ => 37 :: pctDecode (h :: l :: s)
  | b :: s => b :: pctDecode s
  | [] => []

/-- The environment for documents in ASCII. -/
def ascii : Env := ⟨pctEncode, fun s => some (pctDecode s), fun s => s.all fun b => decide (48 ≤ b ∧ b ≤ 57)⟩

theorem ascii_letters : DecodesLetters ascii := by
  intro s hs
  show some (pctDecode s) = some s
  congr 1
  induction s with
  | nil => rfl
  | cons b s ih =>
    have hb : b ≠ 37 := by
      have := hs b (by simp)
      unfold Letter at this
      omega
    have := ih fun c hc => hs c (by simp [hc])
    unfold pctDecode
    split
    · rename_i e; simp at e; exact absurd e.1 hb
    · rename_i e; simp only [List.cons.injEq] at e; rw [← e.1, ← e.2, this]
    · rename_i e; cases e

/-- `id="x"`. -/
def anId (x : String) : Attr := ⟨true, [⟨.id, str x⟩]⟩

/-- An attribute with addresses. -/
def urls (l : List String) : Attr := ⟨false, l.map fun x => ⟨.url, str x⟩⟩

/-- **C13 (mixed up, violated).** An attribute that refers to `b` and then to `a`, as in
`style="fill:url(#b);stroke:url(#a)"`: once the first is renamed to `a` it is taken for the second, and both references
end up at the same element. -/
theorem mixed_violated :
    job ascii Options.standard [0, 1, 2] [urls ["#b", "#a"], anId "a", anId "b"] =
      some [urls ["#b", "#b"], anId "b", anId "a"] := by decide +kernel

/-- **C13 (names kept, violated).** With `minify: false` ids that are referred to are removed. -/
theorem not_minified_violated :
    job ascii { Options.standard with minify := false } [0, 1] [anId "grad", urls ["#grad"]] =
      some [urls ["#grad"]] := by decide +kernel

/-- **C13 (digits, violated).** An id of digits is removed even if it is referred to. -/
theorem digits_violated : job ascii Options.standard [0, 1] [anId "12", urls ["#12"]] = some [urls ["#12"]] := by
  decide +kernel

/-- **C13 (encoded, violated).** Of two ids of which one is the percent-encoded form of the other, one is removed as if
it was repeated; what referred to it refers to nothing. -/
theorem encoded_violated :
    job ascii Options.standard [0, 1, 2, 3] [anId "a b", anId "a%20b", urls ["#a%20b"], urls ["#a%2520b"]] =
      some [anId "a", urls ["#a"], urls ["#b"]] := by decide +kernel

/-- **C13 (first, violated).** Of two elements with the same id, references go to the one that comes first in the
document; the job keeps the one that is less deeply nested (the first in `order`). Here the first has the fill `#p`. -/
theorem first_violated :
    job ascii Options.standard [2, 3, 4, 0, 1] [anId "x", urls ["p.svg"], anId "x", urls ["q.svg"], urls ["#x"]] =
      some [urls ["p.svg"], anId "a", urls ["q.svg"], urls ["#a"]] := by decide +kernel

/-- **C13 (spelled as is, violated).** An address can also be the id as it is, without percent-encoding. If the id
contains a `%`, it is not found. -/
theorem raw_violated : job ascii Options.standard [0, 1] [anId "a%20b", urls ["#a%20b"]] = some [urls ["#a%20b"]] := by
  decide +kernel

/-! ## Examples -/

/-- A document with an id that is kept, one that is referred to, one that is not, one that is repeated, and a reference
to something else that looks like a generated id. -/
def sample : List Attr :=
  [anId "shape", urls ["#gradient 1"], anId "keep-me", urls ["#a", "http://x"], anId "gradient 1", anId "gradient 1",
    ⟨false, [⟨.id, str "gradient 1"⟩]⟩, anId "7"]

example : job ascii { Options.standard with preservePrefixes := [str "keep"] } [0, 1, 2, 3, 4, 5, 6, 7] sample =
    some [urls ["#c"], anId "keep-me", urls ["#a", "http://x"], anId "c", ⟨false, [⟨.id, str "c"⟩]⟩] := by
  decide +kernel

example : Survives ascii Options.standard [0, 1, 2, 3, 4, 5, 6, 7] sample 4 ∧
    ¬ Survives ascii Options.standard [0, 1, 2, 3, 4, 5, 6, 7] sample 7 := by
  constructor
  · intro x hx
    have : x = str "gradient 1" := by
      have h : idAt sample 4 = some (str "gradient 1") := by decide +kernel
      rw [h] at hx; exact (Option.some.inj hx).symm
    subst this
    refine ⟨by decide +kernel, .inr ?_⟩
    intro q r e j hj
    have hq : [0, 1, 2, 3] = q := split_unique (l := [0, 1, 2, 3, 4, 5, 6, 7]) (r := [5, 6, 7]) (k := 4) (by decide) rfl e
    subst hq
    revert j
    decide +kernel
  · intro h
    have := (h (str "7") (by decide +kernel)).1
    revert this
    decide +kernel

example : run ascii Options.standard true false false [0, 1] [anId "x", urls ["#x"]] = some [anId "x", urls ["#x"]] := by
  decide +kernel

example : ∃ d', run ascii { Options.standard with force := true } true true true [1, 0] [urls ["#ab"], anId "ab"] = some d' ∧
    d' = [urls ["#a"], anId "a"] := ⟨_, by decide +kernel, rfl⟩

end Verif.CleanupIds
