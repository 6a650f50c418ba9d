import Verif.Inline.Props

/-!
# C58: what inlining changes
-/

namespace Verif.Inline

open Verif.Names

variable {V Q R : Type}

/-- **C58 (all inlined, partial)**: if no rule stays, the value of every property on every element is the same afterwards. What remains
to be assumed is that the selector engine is right, that style elements have no `media` attribute, spell their type in lower case and
are not within a `foreignObject`, that no at-rule is among the media queries that the options name, and that `style` attributes can be
read. -/
theorem all_inlined_partial (sem : Sem V R) (eng : Engine) (o : Opts) (doc : List (Elem V Q R))
    (hk : (doc.map (·.key)).Nodup) (hg : ∀ e ∈ doc, e.gone = false)
    (he : ∀ s ks, eng s = some ks → ks.Nodup ∧ ∀ e ∈ doc, (e.key ∈ ks ↔ matchesSel sem (holds sem doc) s e.key = true))
    (hs : ∀ e ∈ doc, e.name = lit "style" → IsCss e.typ →
      (∀ t, e.typ = some t → t = [] ∨ t = lit "text/css") ∧ e.foreign = false ∧ e.media = none)
    (hm : ∀ e ∈ doc, ∀ l, e.sheet = some l → ∀ text c rs, .group text c rs ∈ l → text ∉ o.mqs ∧ ∀ s ∈ selsOfAll rs, s.tail ≠ [])
    (hr : ∀ e ∈ doc, ∀ n, e.style ≠ .raw n)
    (hn : ∀ e ∈ job sem.test eng o doc, e.name = lit "style" → IsCss e.typ → e.sheet.getD [] = [])
    (env : Q → Bool) (e e' : Elem V Q R) (hed : e ∈ doc) (hed' : e' ∈ job sem.test eng o doc) (hkey : e'.key = e.key) (p : Str) :
    value sem env (job sem.test eng o doc) e' p = value sem env doc e p := by
  apply values_kept_partial sem eng o doc hk hg he hs hm (fun x _ e he _ => hr e he) ?_ ?_ ?_ ?_ env e e' hed hed' hkey p
  · intro x _ env y hy
    simp only [declared, List.mem_flatMap] at hy
    obtain ⟨z, hz, hy⟩ := hy
    split at hy
    · next hc =>
      rw [hn z hz hc.1 hc.2.1] at hy
      simp [entriesAll] at hy
    · simp at hy
  · intro z hz h1 h2 r hr
    rw [hn z hz h1 h2] at hr
    simp at hr
  · intro z hz h1 h2 r hr
    rw [hn z hz h1 h2] at hr
    simp at hr
  · intro z hz h1 h2 s hs
    rw [hn z hz h1 h2] at hs
    simp [selsOfAll] at hs

/-! ## The document -/

theorem job_eq (test : Nat → Value V → Bool) (eng : Engine) (o : Opts) (doc : List (Elem V Q R)) :
    ∃ st : State V, st.taken = taken test eng o doc ∧ st.dyn = (exitAll test eng o doc doc).2.dyn ∧
      job test eng o doc = doc.map fun e => finish st (doc.flatMap (·.refs)) (exitStyle test eng o doc e).1 := by
  refine ⟨(exitAll test eng o doc doc).2, rfl, rfl, ?_⟩
  simp only [job, (exitAll_eq test eng o doc doc).1, List.map_map]
  rfl

/-- **C58 (the elements)**: no element changes its place, its name, its type or what it refers to, and only style elements go. -/
theorem elements_kept (test : Nat → Value V → Bool) (eng : Engine) (o : Opts) (doc : List (Elem V Q R)) :
    ((job test eng o doc).map fun e => (e.key, e.name, e.foreign, e.refs, e.typ)) = doc.map (fun e => (e.key, e.name, e.foreign, e.refs, e.typ)) ∧
      (job test eng o doc).map (·.media) = doc.map (·.media) ∧
      ∀ e ∈ doc, ∀ e' ∈ job test eng o doc, (doc.map (·.key)).Nodup → e'.key = e.key →
        (e'.gone = e.gone ∨ e.name = lit "style" ∧ e'.sheet = some []) ∧ (e.name ≠ lit "style" → e'.sheet = e.sheet) := by
  obtain ⟨st, _, _, hj⟩ := job_eq test eng o doc
  rw [hj]
  have h : ∀ e : Elem V Q R, let e' := finish st (doc.flatMap (·.refs)) (exitStyle test eng o doc e).1
      e'.key = e.key ∧ e'.name = e.name ∧ e'.foreign = e.foreign ∧ e'.refs = e.refs ∧ e'.typ = e.typ ∧ e'.media = e.media ∧
      e'.gone = (exitStyle test eng o doc e).1.gone ∧ e'.sheet = (exitStyle test eng o doc e).1.sheet := by
    intro e
    obtain ⟨a1, a2, a3, a4, a5, a6, a7, a8, _⟩ := finish_spec st (doc.flatMap (·.refs)) (exitStyle test eng o doc e).1
    obtain ⟨b1, b2, b3, _, _, _, _, b8, b9, b10⟩ := exitStyle_same test eng o doc e
    exact ⟨a1.trans b1, a2.trans b2, a7.trans b3, a8.trans b8, a3.trans b9, a4.trans b10, a6, a5⟩
  refine ⟨?_, ?_, ?_⟩
  · rw [List.map_map]
    apply List.map_congr_left
    intro e _
    obtain ⟨h1, h2, h3, h4, h5, _⟩ := h e
    simp only [Function.comp, h1, h2, h3, h4, h5]
  · rw [List.map_map]
    apply List.map_congr_left
    intro e _
    exact (h e).2.2.2.2.2.1
  · intro e he e' he' hn hkey
    obtain ⟨x, hx, rfl⟩ := List.mem_map.mp he'
    obtain ⟨h1, _, _, _, _, _, h7, h8⟩ := h x
    have : x = e := key_inj hn hx he (h1.symm.trans hkey)
    subst this
    rw [h7, h8]
    unfold exitStyle
    cases hr : rulesOf x with
    | none => exact ⟨.inl rfl, fun _ => rfl⟩
    | some rs =>
      have hs : x.name = lit "style" := by
        unfold rulesOf at hr
        split at hr
        · next h => exact h.1
        · simp at hr
      refine ⟨?_, fun h => absurd hs h⟩
      simp only
      cases hl : tidyAll (inlineRules test eng o doc rs).1 with
      | nil => exact .inr ⟨hs, rfl⟩
      | cons a l => left; simp

/-- **C58 (attributes)**: an attribute goes only if the `style` attribute declares the property of that name afterwards; the others keep
their order. -/
theorem attrs_kept (test : Nat → Value V → Bool) (eng : Engine) (o : Opts) (doc : List (Elem V Q R)) (hk : (doc.map (·.key)).Nodup)
    (e e' : Elem V Q R) (he : e ∈ doc) (he' : e' ∈ job test eng o doc) (hkey : e'.key = e.key) :
    e'.attrs.Sublist e.attrs ∧ ∀ a ∈ e.attrs, a ∈ e'.attrs ∨ ∃ b, e'.style = .block b ∧ b.Declares a.1 := by
  obtain ⟨st, _, _, hj⟩ := job_eq test eng o doc
  rw [hj] at he'
  obtain ⟨x, hx, rfl⟩ := List.mem_map.mp he'
  obtain ⟨a1, _, _, _, _, _, _, _, a9, a10, _⟩ := finish_spec st (doc.flatMap (·.refs)) (exitStyle test eng o doc x).1
  obtain ⟨b1, _, _, _, _, b6, b7, _⟩ := exitStyle_same test eng o doc x
  have : x = e := key_inj hk hx he ((a1.trans b1).symm.trans hkey)
  subst this
  by_cases hg : st.taken.filter (fun t => t.key = (exitStyle test eng o doc x).1.key) = []
  · rw [a9 hg, b7]
    exact ⟨List.Sublist.refl _, fun a ha => .inl ha⟩
  · obtain ⟨h1, h2⟩ := a10 hg
    rw [h2, h1, b7]
    refine ⟨List.filter_sublist, fun a ha => ?_⟩
    generalize newStyle _ _ = b
    by_cases hd : b.Declares a.1
    · right
      refine ⟨b, ?_, hd⟩
      rw [if_neg]
      intro hb
      obtain ⟨v, hv⟩ := hd
      simp only [Bool.and_eq_true, List.isEmpty_iff] at hb
      rw [hb.1, hb.2] at hv
      simp at hv
    · left
      simp only [dropAttrs, List.mem_filter]
      refine ⟨ha, ?_⟩
      rw [← declares_iff, Bool.not_eq_true] at hd
      simp only [hd, Bool.not_false, Bool.true_or]

/-- **C58 (references)**: an id that any element refers to stays, and with it what refers to it. -/
theorem referenced_kept (sem : Sem V R) (eng : Engine) (o : Opts) (doc : List (Elem V Q R)) (hk : (doc.map (·.key)).Nodup)
    (hg : ∀ e ∈ doc, e.gone = false)
    (hs : ∀ s ks, eng s = some ks → ks.Nodup ∧ ∀ e ∈ doc, (e.key ∈ ks ↔ matchesSel sem (holds sem doc) s e.key = true))
    (hu : ∀ e ∈ doc, e.name = lit "style" → IsCss e.typ →
      (∀ t, e.typ = some t → t = [] ∨ t = lit "text/css") ∧ e.foreign = false ∧ e.media = none)
    (hm : ∀ e ∈ doc, ∀ l, e.sheet = some l → ∀ text c rs, .group text c rs ∈ l → text ∉ o.mqs ∧ ∀ s ∈ selsOfAll rs, s.tail ≠ [])
    (e e' r : Elem V Q R) (he : e ∈ doc) (he' : e' ∈ job sem.test eng o doc) (hkey : e'.key = e.key) (hr : r ∈ doc) (i : Str)
    (hi : e.id = some i) (href : i ∈ r.refs) : e'.id = some i := by
  obtain ⟨st, htk, _, hj⟩ := job_eq sem.test eng o doc
  rw [hj] at he'
  obtain ⟨x, hx, rfl⟩ := List.mem_map.mp he'
  obtain ⟨a1, _, _, _, _, _, _, _, _, _, _, a12⟩ := finish_spec st (doc.flatMap (·.refs)) (exitStyle sem.test eng o doc x).1
  obtain ⟨b1, _, _, b4, _⟩ := exitStyle_same sem.test eng o doc x
  have : x = e := key_inj hk hx he ((a1.trans b1).symm.trans hkey)
  subst this
  rcases a12 with h | ⟨_, j, t, ht, hj, _, hn⟩
  · rw [h, b4, hi]
  · exfalso
    rw [b1] at ht
    have ht' : t ∈ st.taken ∧ t.key = x.key := by simpa using List.mem_filter.mp ht
    have hf : FromSels sem doc t := by
      have := ht'.1
      rw [htk, taken, (exitAll_eq sem.test eng o doc doc).2.2] at this
      obtain ⟨y, hy, hty⟩ := List.mem_flatMap.mp this
      refine (exitStyle_mix hs o y (hg y hy) (hu y hy) ?_).1 t hty
      intro l hl r hr
      cases r with
      | group text c rs => exact hm y hy l hl text c rs hr
      | _ => trivial
    have := hf x he ht'.2.symm _ hj
    simp only [holds, List.any_eq_true, Bool.and_eq_true, beq_iff_eq, holdsE] at this
    obtain ⟨e2, he2, hk2, hi2⟩ := this
    have : e2 = x := key_inj hk he2 he (hk2.trans ht'.2)
    rw [this, hi, Option.some.injEq] at hi2
    exact hn (List.mem_flatMap.mpr ⟨r, hr, hi2 ▸ href⟩)

/-! ## The selectors that go -/

theorem collectSels_gone (test : Nat → Value V → Bool) (eng : Engine) (o : Opts) (doc : List (Elem V Q R)) (b : Block V) :
    ∀ (ss : List Sel) (st : State V), (∀ x ∈ st.taken, x ∈ (collectSels test eng o doc b st ss).2.taken) ∧
      ∀ s ∈ ss, s ∈ (collectSels test eng o doc b st ss).1 ∨ ∃ ks ts, eng s = some ks ∧ removable test o doc s ks = some ts ∧
        ∀ k ∈ ks, ⟨k, ts, s.spec, b⟩ ∈ (collectSels test eng o doc b st ss).2.taken
  | [], st => by simp [collectSels]
  | s :: ss, st => by
    simp only [collectSels]
    rcases collectSel_cases test eng o doc b st s with ⟨d, h⟩ | ⟨ks, ts, h1, h2, h⟩
    · simp only [h, if_true]
      obtain ⟨g1, g2⟩ := collectSels_gone test eng o doc b ss ⟨st.dyn ++ d, st.taken⟩
      refine ⟨fun x hx => g1 x hx, fun s' hs' => ?_⟩
      rcases List.mem_cons.mp hs' with rfl | hs'
      · exact .inl (by simp)
      · exact (g2 s' hs').imp (fun h => by simp [h]) id
    · simp only [h, Bool.false_eq_true, if_false]
      obtain ⟨g1, g2⟩ := collectSels_gone test eng o doc b ss ⟨st.dyn, st.taken ++ ks.map fun k => ⟨k, ts, s.spec, b⟩⟩
      refine ⟨fun x hx => g1 x (by simp [hx]), fun s' hs' => ?_⟩
      rcases List.mem_cons.mp hs' with rfl | hs'
      · refine .inr ⟨ks, ts, h1, h2, fun k hk => g1 _ ?_⟩
        simp only [List.mem_append, List.mem_map]
        exact .inr ⟨k, hk, rfl⟩
      · exact g2 s' hs'

mutual
theorem collect_gone (test : Nat → Value V → Bool) (eng : Engine) (o : Opts) (doc : List (Elem V Q R)) :
    ∀ (r : Rule V Q R) (st : State V), (∀ x ∈ st.taken, x ∈ (collect test eng o doc st r).2.taken) ∧
      ∀ s ∈ selsOf r, s ∈ selsOf (collect test eng o doc st r).1 ∨ ∃ ks ts b, eng s = some ks ∧ removable test o doc s ks = some ts ∧
        ∀ k ∈ ks, ⟨k, ts, s.spec, b⟩ ∈ (collect test eng o doc st r).2.taken
  | .style sels b, st => by
    obtain ⟨g1, g2⟩ := collectSels_gone test eng o doc b sels st
    simp only [collect, selsOf]
    exact ⟨g1, fun s hs => (g2 s hs).imp id fun ⟨ks, ts, h⟩ => ⟨ks, ts, b, h⟩⟩
  | .nest sels r, st => by
    simp only [collect]
    exact ⟨fun x hx => hx, fun s hs => .inl hs⟩
  | .group _ _ rs, st => by
    simp only [collect, selsOf]
    exact collectAll_gone test eng o doc rs st
  | .other _, st => by simp [collect, selsOf]
theorem collectAll_gone (test : Nat → Value V → Bool) (eng : Engine) (o : Opts) (doc : List (Elem V Q R)) :
    ∀ (rs : List (Rule V Q R)) (st : State V), (∀ x ∈ st.taken, x ∈ (collectAll test eng o doc st rs).2.taken) ∧
      ∀ s ∈ selsOfAll rs, s ∈ selsOfAll (collectAll test eng o doc st rs).1 ∨ ∃ ks ts b, eng s = some ks ∧
        removable test o doc s ks = some ts ∧ ∀ k ∈ ks, ⟨k, ts, s.spec, b⟩ ∈ (collectAll test eng o doc st rs).2.taken
  | [], st => by simp [collectAll, selsOfAll]
  | r :: rs, st => by
    obtain ⟨g1, g2⟩ := collect_gone test eng o doc r st
    obtain ⟨f1, f2⟩ := collectAll_gone test eng o doc rs (collect test eng o doc st r).2
    simp only [collectAll, selsOfAll, List.mem_append]
    refine ⟨fun x hx => f1 x (g1 x hx), ?_⟩
    rintro s (hs | hs)
    · rcases g2 s hs with h | ⟨ks, ts, b, h1, h2, h3⟩
      · exact .inl (.inl h)
      · exact .inr ⟨ks, ts, b, h1, h2, fun k hk => f1 _ (h3 k hk)⟩
    · exact (f2 s hs).imp .inr id
end

theorem removable_spec {test : Nat → Value V → Bool} {o : Opts} {doc : List (Elem V Q R)} {s : Sel} {ks : List Nat} {ts : List Token}
    (h : removable test o doc s ks = some ts) : s.pseudo = true ∨ s.heads = [] ∧
      ((doc.filter fun e => ks.contains e.key && s.tail.all (counts test o e)).length = 1 ∨
        o.once = false ∧ (doc.filter fun e => ks.contains e.key && s.tail.all (counts test o e)).length > 0) := by
  unfold removable at h
  split at h
  · next hp => exact .inl hp
  · next hp =>
    split at h
    · simp at h
    · next hh =>
      split at h
      · simp at h
      · simp only [Option.ite_none_right_eq_some, Option.some.injEq] at h
        refine .inr ⟨by simpa using hh, ?_⟩
        cases ho : o.once
        · rw [ho] at h
          exact .inr ⟨rfl, by simpa using h.1⟩
        · rw [ho] at h
          exact .inl (by simpa using h.1)

/-- What a selector asks of an element: a class, an id, an attribute, a name; a pseudo-class has to be a preserved or an allowed one. -/
def Asks (test : Nat → Value V → Bool) (o : Opts) (x : Elem V Q R) : Token → Prop
  | .cls c => c ∈ x.classes
  | .id i => x.id = some i
  | .attr n none => lookup x n ≠ none
  | .attr n (some t) => ∃ v, lookup x n = some v ∧ test t v = true
  | .name n => x.name = n
  | .other text preserved => preserved = true ∨ text ∈ o.pseudos

theorem counts_iff (test : Nat → Value V → Bool) (o : Opts) (x : Elem V Q R) (t : Token) : counts test o x t = true ↔ Asks test o x t := by
  cases t with
  | cls c => simp [counts, Asks]
  | id i => simp [counts, Asks]
  | attr n t => cases t with
    | none => simp [counts, Asks, Option.isSome_iff_ne_none]
    | some t => simp [counts, Asks, Option.any_eq_true]
  | name n => simp [counts, Asks]
  | other text preserved => simp [counts, Asks]

theorem all_counts (test : Nat → Value V → Bool) (o : Opts) (x : Elem V Q R) (ts : List Token) :
    ts.all (counts test o x) = true ↔ ∀ t ∈ ts, Asks test o x t := by
  simp only [List.all_eq_true, counts_iff]

/-- **C58 (selectors)**: a selector goes from a style sheet only if the engine can find what it matches, and then all that it matches has
the declarations of one of its rules in the `style` attribute; it has a pseudo-element or no combinator, and no second element has all it
asks for, unless `only_matched_once` is off. -/
theorem selectors_kept (test : Nat → Value V → Bool) (eng : Engine) (o : Opts) (doc : List (Elem V Q R)) (hk : (doc.map (·.key)).Nodup)
    (e e' : Elem V Q R) (he : e ∈ doc) (he' : e' ∈ job test eng o doc) (hkey : e'.key = e.key) (s : Sel)
    (hs : s ∈ selsOfAll (e.sheet.getD [])) (hgone : s ∉ selsOfAll (e'.sheet.getD [])) :
    ∃ ks, eng s = some ks ∧
      (s.pseudo = true ∨ s.heads = [] ∧ ∃ x ∈ doc, x.key ∈ ks ∧ (∀ t ∈ s.tail, Asks test o x t) ∧
        (o.once = true → ∀ y ∈ doc, y.key ∈ ks → (∀ t ∈ s.tail, Asks test o y t) → y = x)) ∧
      ∃ b : Block V, ∀ x' ∈ job test eng o doc, x'.key ∈ ks →
        ∀ p v, ((p, v) ∈ b.normal → ∃ c, x'.style = .block c ∧ (p, v) ∈ c.normal) ∧
          ((p, v) ∈ b.important → ∃ c, x'.style = .block c ∧ (p, v) ∈ c.important) := by
  simp only [← all_counts]
  obtain ⟨st, htk, _, hj⟩ := job_eq test eng o doc
  have hm := he'
  rw [hj] at hm
  obtain ⟨x, hx, rfl⟩ := List.mem_map.mp hm
  obtain ⟨a1, _, _, _, a5, _⟩ := finish_spec st (doc.flatMap (·.refs)) (exitStyle test eng o doc x).1
  obtain ⟨b1, _⟩ := exitStyle_same test eng o doc x
  have : x = e := key_inj hk hx he ((a1.trans b1).symm.trans hkey)
  subst this
  rw [a5] at hgone
  unfold exitStyle at hgone
  cases hr : rulesOf x with
  | none =>
    rw [hr] at hgone
    exact absurd hs hgone
  | some rs =>
    have hsh : x.sheet = some rs := by
      unfold rulesOf at hr
      split at hr
      · exact hr
      · simp at hr
    rw [hsh] at hs
    rw [hr] at hgone
    simp only [Option.getD_some] at hgone hs
    have htidy : ∀ l : List (Rule V Q R), selsOfAll (tidyAll l) = selsOfAll l := by
      intro l
      exact (tidyAll_each (⟨test, fun _ _ => true, fun _ _ _ => true, fun _ _ _ _ => [], fun _ => ⟨[], []⟩, fun _ _ _ _ => rfl,
        fun _ _ _ _ _ => rfl⟩ : Sem V R) (fun _ => true) (fun _ _ => true) 0 l).2.1
    rw [htidy, inlineRules] at hgone
    rcases (collectAll_gone test eng o doc rs ⟨rs.flatMap (firstPass o), []⟩).2 s hs with h | ⟨ks, ts, b, h1, h2, h3⟩
    · exact absurd h hgone
    · refine ⟨ks, h1, ?_, b, ?_⟩
      · refine (removable_spec h2).imp id fun ⟨hh, hl⟩ => ⟨hh, ?_⟩
        have hmem : ∀ y, y ∈ doc.filter (fun e => ks.contains e.key && s.tail.all (counts test o e)) ↔
            y ∈ doc ∧ y.key ∈ ks ∧ s.tail.all (counts test o y) = true := by
          intro y
          rw [List.mem_filter, Bool.and_eq_true, List.contains_iff_mem]
        rcases hl with hl | ⟨ho, hl⟩
        · obtain ⟨z, hz⟩ := List.length_eq_one_iff.mp hl
          have hz' := (hmem z).mp (by rw [hz]; simp)
          refine ⟨z, hz'.1, hz'.2.1, hz'.2.2, fun _ y hy h1 h2 => ?_⟩
          have := (hmem y).mpr ⟨hy, h1, h2⟩
          rw [hz] at this
          simpa using this
        · obtain ⟨z, hz⟩ := List.exists_mem_of_length_pos hl
          have hz' := (hmem z).mp hz
          exact ⟨z, hz'.1, hz'.2.1, hz'.2.2, fun h => by rw [ho] at h; simp at h⟩
      · intro x' hx' hkx
        rw [hj] at hx'
        obtain ⟨y, hy, rfl⟩ := List.mem_map.mp hx'
        obtain ⟨c1, _, _, _, _, _, _, _, _, c10, _⟩ := finish_spec st (doc.flatMap (·.refs)) (exitStyle test eng o doc y).1
        rw [c1] at hkx
        have ht : (⟨(exitStyle test eng o doc y).1.key, ts, s.spec, b⟩ : Taken V) ∈ st.taken := by
          have := h3 _ hkx
          rw [htk, taken, (exitAll_eq test eng o doc doc).2.2]
          refine List.mem_flatMap.mpr ⟨x, hx, ?_⟩
          unfold exitStyle
          rw [hr]
          exact this
        have hmem : (⟨(exitStyle test eng o doc y).1.key, ts, s.spec, b⟩ : Taken V) ∈
            st.taken.filter fun t => t.key = (exitStyle test eng o doc y).1.key := List.mem_filter.mpr ⟨ht, by simp⟩
        have hst := (c10 (List.ne_nil_of_mem hmem)).1
        have hsm := (sort_spec [] (·.normal) (st.taken.filter fun t => t.key = (exitStyle test eng o doc y).1.key)).2.1
        rw [hst]
        intro p v
        constructor
        · intro hpv
          have hin : (p, v) ∈ (newStyle (sort (st.taken.filter fun t => t.key = (exitStyle test eng o doc y).1.key))
              (exitStyle test eng o doc y).1.style).normal := by
            simp only [newStyle, List.mem_append, List.mem_flatMap]
            exact .inl ⟨_, (hsm _).mpr hmem, hpv⟩
          refine ⟨_, if_neg ?_, hin⟩
          intro hb
          simp only [Bool.and_eq_true, List.isEmpty_iff] at hb
          rw [hb.1] at hin
          simp at hin
        · intro hpv
          have hin : (p, v) ∈ (newStyle (sort (st.taken.filter fun t => t.key = (exitStyle test eng o doc y).1.key))
              (exitStyle test eng o doc y).1.style).important := by
            simp only [newStyle, List.mem_append, List.mem_flatMap]
            exact .inl ⟨_, (hsm _).mpr hmem, hpv⟩
          refine ⟨_, if_neg ?_, hin⟩
          intro hb
          simp only [Bool.and_eq_true, List.isEmpty_iff] at hb
          rw [hb.2] at hin
          simp at hin

/-- **C58 (off)**: without a style element nothing changes. -/
theorem off (test : Nat → Value V → Bool) (eng : Engine) (o : Opts) (doc : List (Elem V Q R)) (h : ∀ e ∈ doc, e.name ≠ lit "style") :
    job test eng o doc = doc := by
  have hr : ∀ e ∈ doc, exitStyle test eng o doc e = (e, ⟨[], []⟩) := by
    intro e he
    have : rulesOf e = none := by
      unfold rulesOf
      rw [if_neg]
      exact fun hc => h e he hc.1
    simp only [exitStyle, this]
  have htk : taken test eng o doc = [] := by
    rw [taken, (exitAll_eq test eng o doc doc).2.2, List.flatMap_eq_nil_iff]
    intro e he
    rw [hr e he]
  obtain ⟨st, h1, _, hj⟩ := job_eq test eng o doc
  rw [hj]
  conv => rhs; rw [← List.map_id doc]
  apply List.map_congr_left
  intro e he
  rw [hr e he]
  refine (finish_spec st _ e).2.2.2.2.2.2.2.2.1 ?_
  rw [h1, htk]
  rfl

end Verif.Inline
