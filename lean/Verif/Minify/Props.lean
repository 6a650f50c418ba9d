import Verif.Minify.Spec

/-!
# C59: minifying styles
-/

namespace Verif.Minify

open Verif.Names
open Verif.Inline (Token Sel Sel.tokens Block Style Value lookup IsCss last stronger best)

variable {V Q R : Type}

theorem mapM_some {α β : Type} {f : α → Option β} : ∀ {l : List α} {l' : List β}, l.mapM f = some l' → List.length l' = List.length l ∧
    (∀ x ∈ l, ∃ y ∈ l', f x = some y) ∧ ∀ y ∈ l', ∃ x ∈ l, f x = some y
  | [], l', h => by
    simp only [List.mapM_nil, Option.pure_def, Option.some.injEq] at h
    subst h
    simp
  | a :: l, l', h => by
    simp only [List.mapM_cons, Option.bind_eq_bind, Option.bind_eq_some_iff, Option.pure_def, Option.some.injEq] at h
    obtain ⟨b, hb, t, ht, rfl⟩ := h
    obtain ⟨h1, h2, h3⟩ := mapM_some ht
    refine ⟨by simp [h1], ?_, ?_⟩
    · intro x hx
      rcases List.mem_cons.mp hx with rfl | hx
      · exact ⟨b, by simp, hb⟩
      · obtain ⟨y, hy, h⟩ := h2 x hx
        exact ⟨y, by simp [hy], h⟩
    · intro y hy
      rcases List.mem_cons.mp hy with rfl | hy
      · exact ⟨a, by simp, hb⟩
      · obtain ⟨x, hx, h⟩ := h3 y hy
        exact ⟨x, by simp [hx], h⟩

theorem mapM_none {α β : Type} {f : α → Option β} : ∀ {l : List α}, l.mapM f = none ↔ ∃ x ∈ l, f x = none
  | [] => by simp
  | a :: l => by
    simp only [List.mapM_cons, Option.bind_eq_bind, Option.pure_def]
    cases ha : f a with
    | none => simp [ha]
    | some b =>
      simp only [Option.bind_some]
      cases hl : l.mapM f with
      | none =>
        have := mapM_none.mp hl
        simp only [Option.bind_none, true_iff]
        obtain ⟨x, hx, h⟩ := this
        exact ⟨x, by simp [hx], h⟩
      | some t =>
        simp only [Option.bind_some, reduceCtorEq, List.mem_cons, exists_eq_or_imp, ha, false_or, false_iff]
        intro h
        rw [mapM_none.mpr h] at hl
        simp at hl

/-- What the job does to one element. -/
def step (minS : List (Rule V Q R) → Option (List (Rule V Q R))) (minB : Block V → Block V) (u : Usage) (scripts : Bool)
    (doc : List (Elem V Q R)) (e : Elem V Q R) : Option (Elem V Q R) :=
  if isStyle e then some (exitStyle minS doc u scripts e) else exitAttr minB e

theorem step_same {minS : List (Rule V Q R) → Option (List (Rule V Q R))} {minB : Block V → Block V} {u : Usage} {scripts : Bool}
    {doc : List (Elem V Q R)} {e e' : Elem V Q R} (h : step minS minB u scripts doc e = some e') :
    e'.base.key = e.base.key ∧ e'.base.name = e.base.name ∧ e'.base.id = e.base.id ∧ e'.base.classes = e.base.classes ∧
      e'.base.attrs = e.base.attrs ∧ e'.base.typ = e.base.typ ∧ e'.base.media = e.base.media ∧ e'.svg = e.svg ∧
      e'.base.refs = e.base.refs := by
  unfold step at h
  split at h
  · simp only [Option.some.injEq] at h
    subst h
    unfold exitStyle
    split
    · simp
    · split <;> simp
  · unfold exitAttr at h
    split at h
    · simp only [Option.some.injEq] at h
      subst h
      simp
    · simp at h
    · simp only [Option.some.injEq] at h
      subst h
      simp

/-- **C59 (failure)**: the job panics exactly if an element that is not a style element with content has a `style` attribute that the
parser does not read. -/
theorem fails_iff (minS : List (Rule V Q R) → Option (List (Rule V Q R))) (minB : Block V → Block V) (u : Usage) (scripts : Bool)
    (doc : List (Elem V Q R)) : job minS minB u scripts doc = none ↔
      ∃ e ∈ doc, ¬ (e.svg = true ∧ e.base.name = lit "style" ∧ e.filled = true) ∧ ∃ n, e.base.style = .raw n := by
  unfold job
  rw [mapM_none]
  constructor
  · rintro ⟨e, he, h⟩
    refine ⟨e, he, ?_⟩
    split at h
    · simp at h
    · next hs =>
      refine ⟨?_, ?_⟩
      · rintro ⟨h1, h2, h3⟩
        exact hs (by simp [isStyle, h1, h2, h3])
      · unfold exitAttr at h
        split at h
        · simp at h
        · next n hn => exact ⟨n, hn⟩
        · simp at h
  · rintro ⟨e, he, hs, n, hn⟩
    refine ⟨e, he, ?_⟩
    have : isStyle e = false := by
      rw [Bool.eq_false_iff]
      intro h
      simp only [isStyle, Bool.and_eq_true, beq_iff_eq] at h
      exact hs ⟨h.1.1, h.1.2, h.2⟩
    simp [this, exitAttr, hn]

theorem mapM_get {α β : Type} {f : α → Option β} : ∀ {l : List α} {l' : List β}, l.mapM f = some l' → ∀ i (hi : i < l.length)
    (hi' : i < l'.length), f l[i] = some l'[i]
  | [], l', h, i, hi, _ => by simp at hi
  | a :: l, l', h, i, hi, hi' => by
    simp only [List.mapM_cons, Option.bind_eq_bind, Option.bind_eq_some_iff, Option.pure_def, Option.some.injEq] at h
    obtain ⟨b, hb, t, ht, rfl⟩ := h
    cases i with
    | zero => exact hb
    | succ i => exact mapM_get ht i (by simpa using hi) (by simpa using hi')

theorem job_get {minS : List (Rule V Q R) → Option (List (Rule V Q R))} {minB : Block V → Block V} {u : Usage} {scripts : Bool}
    {doc doc' : List (Elem V Q R)} (h : job minS minB u scripts doc = some doc') : doc'.length = doc.length ∧
      ∀ i (hi : i < doc.length) (hi' : i < doc'.length), step minS minB u scripts doc doc[i] = some doc'[i] :=
  ⟨(mapM_some h).1, mapM_get h⟩

/-- **C59 (the elements)**: names, ids, classes and all attributes but `style` stay as they are, in order; only style elements without
rules go; and a `style` attribute changes to what the minifier makes of it, or goes if that is empty. -/
theorem elements_kept {minS : List (Rule V Q R) → Option (List (Rule V Q R))} {minB : Block V → Block V} {u : Usage} {scripts : Bool}
    {doc doc' : List (Elem V Q R)} (h : job minS minB u scripts doc = some doc') :
    doc'.length = doc.length ∧ ∀ i (hi : i < doc.length) (hi' : i < doc'.length),
      (doc'[i].base.key = doc[i].base.key ∧ doc'[i].base.name = doc[i].base.name ∧ doc'[i].base.id = doc[i].base.id ∧
        doc'[i].base.classes = doc[i].base.classes ∧ doc'[i].base.attrs = doc[i].base.attrs) ∧
        (doc'[i].base.gone = doc[i].base.gone ∨ doc[i].base.name = lit "style" ∧ doc'[i].sheet = some []) ∧
        (doc[i].base.name ≠ lit "style" → doc'[i].sheet = doc[i].sheet) ∧
        (doc'[i].base.style = doc[i].base.style ∨ ∃ b, doc[i].base.style = .block b ∧
          (doc'[i].base.style = .block (minB b) ∨ doc'[i].base.style = .absent ∧ minB b = ⟨[], []⟩)) := by
  obtain ⟨h1, h2⟩ := job_get h
  refine ⟨h1, fun i hi hi' => ?_⟩
  have hs := h2 i hi hi'
  obtain ⟨a1, a2, a3, a4, a5, _⟩ := step_same hs
  refine ⟨⟨a1, a2, a3, a4, a5⟩, ?_⟩
  generalize doc[i] = e at hs
  generalize doc'[i] = e' at hs
  unfold step at hs
  split at hs
  · next hst =>
    have hn : e.base.name = lit "style" := by
      simp only [isStyle, Bool.and_eq_true, beq_iff_eq] at hst
      exact hst.1.2
    simp only [Option.some.injEq] at hs
    subst hs
    unfold exitStyle
    split
    · exact ⟨.inl rfl, fun _ => rfl, .inl rfl⟩
    · split
      · exact ⟨.inl rfl, fun h => absurd hn h, .inl rfl⟩
      · next rs' _ =>
        refine ⟨?_, fun h => absurd hn h, .inl rfl⟩
        cases rs' with
        | nil => exact .inr ⟨hn, rfl⟩
        | cons r rs => left; simp
  · unfold exitAttr at hs
    split at hs
    · simp only [Option.some.injEq] at hs
      subst hs
      exact ⟨.inl rfl, fun _ => rfl, .inl rfl⟩
    · simp at hs
    · next b hb =>
      simp only [Option.some.injEq] at hs
      subst hs
      refine ⟨.inl rfl, fun _ => rfl, .inr ⟨b, hb, ?_⟩⟩
      simp only
      by_cases hc : ((minB b).normal.isEmpty && (minB b).important.isEmpty) = true
      · rw [if_pos hc]
        right
        refine ⟨rfl, ?_⟩
        simp only [Bool.and_eq_true, List.isEmpty_iff] at hc
        generalize minB b = c at hc
        obtain ⟨x, y⟩ := c
        simp only at hc
        rw [hc.1, hc.2]
      · rw [if_neg hc]
        exact .inl rfl

/-! ## Values -/

theorem truth_eq (sem : Css V R) {doc doc' : List (Elem V Q R)} (hl : doc'.length = doc.length)
    (h : ∀ i (hi : i < doc.length) (hi' : i < doc'.length), doc'[i].base.key = doc[i].base.key ∧ doc'[i].base.name = doc[i].base.name ∧
      doc'[i].base.id = doc[i].base.id ∧ doc'[i].base.classes = doc[i].base.classes ∧ doc'[i].base.attrs = doc[i].base.attrs)
    (k : Nat) (t : Token) (ht : ∀ v, t ≠ .attr (lit "style") v) : truth sem doc' k t = truth sem doc k t := by
  have he : ∀ i (hi : i < doc.length) (hi' : i < doc'.length), holdsE sem doc'[i].base t = holdsE sem doc[i].base t := by
    intro i hi hi'
    obtain ⟨h1, h2, h3, h4, h5⟩ := h i hi hi'
    have hlook : ∀ n, n ≠ lit "style" → lookup doc'[i].base n = lookup doc[i].base n := by
      intro n hn
      unfold lookup
      rw [h3, h4, h5, if_neg hn, if_neg hn]
    cases t with
    | cls c => simp only [holdsE, h4]
    | id c => simp only [holdsE, h3]
    | name n => simp only [holdsE, h2]
    | other s v => simp only [holdsE, h1]
    | attr n v =>
      have hn : n ≠ lit "style" := fun hn => ht v (by rw [hn])
      cases v <;> simp only [holdsE, hlook n hn]
  rw [truth, truth, Bool.eq_iff_iff, List.any_eq_true, List.any_eq_true]
  constructor
  · rintro ⟨e, hm, hx⟩
    obtain ⟨i, hi, rfl⟩ := List.getElem_of_mem hm
    refine ⟨doc[i]'(hl ▸ hi), List.getElem_mem _, ?_⟩
    rw [← (h i (hl ▸ hi) hi).1, ← he i (hl ▸ hi) hi]
    exact hx
  · rintro ⟨e, hm, hx⟩
    obtain ⟨i, hi, rfl⟩ := List.getElem_of_mem hm
    refine ⟨doc'[i]'(by rw [hl]; exact hi), List.getElem_mem _, ?_⟩
    rw [(h i hi _).1, he i hi _]
    exact hx

/-- A name, an id or a class. -/
def Simple (t : Token) : Prop := ∃ n, t = .name n ∨ t = .id n ∨ t = .cls n

theorem used_false {doc : List (Elem V Q R)} {t : Token} (h : used doc t = false) : Simple t ∧
    ∀ (sem : Css V R), ∀ e ∈ doc, e.svg = true → holdsE sem e.base t = false := by
  cases t with
  | name n =>
    refine ⟨⟨n, .inl rfl⟩, fun sem e he hs => ?_⟩
    simp only [used, List.any_eq_false, Bool.and_eq_true, not_and, Bool.not_eq_true] at h
    exact h e he hs
  | id n =>
    refine ⟨⟨n, .inr (.inl rfl)⟩, fun sem e he hs => ?_⟩
    simp only [used, List.any_eq_false, Bool.and_eq_true, not_and, Bool.not_eq_true] at h
    exact h e he hs
  | cls n =>
    refine ⟨⟨n, .inr (.inr rfl)⟩, fun sem e he hs => ?_⟩
    simp only [used, List.any_eq_false, Bool.and_eq_true, not_and, Bool.not_eq_true] at h
    exact h e he hs
  | attr n v => simp [used] at h
  | other s v => simp [used] at h

theorem gone_unmatched {sem : Css V R} {doc : List (Elem V Q R)} {f : Nat → Token → Bool} {s : Sel}
    (hX : ∀ f s k, sem.complex f s k = true → ∀ t ∈ s.tail, f k t = true)
    (hf : ∀ k t, Simple t → f k t = truth sem doc k t) (ht : s.tail ≠ [] ∨ s.pseudo = true)
    (hU : ∀ e ∈ doc, e.svg = false → ∀ t ∈ s.tail, Simple t → holdsE sem e.base t = true → ∃ x ∈ doc, x.svg = true ∧ holdsE sem x.base t = true)
    (hk : keep doc s = false) (k : Nat) : matchesSel sem f s k = false := by
  simp only [keep, Bool.or_eq_false_iff] at hk
  obtain ⟨⟨hp, hta⟩, _⟩ := hk
  rcases ht with ht | ht
  · obtain ⟨t, l, htl⟩ := List.exists_cons_of_ne_nil ht
    have hmem : t ∈ s.tail := by rw [htl]; simp
    have hut : used doc t = false := by simpa using List.any_eq_false.mp hta t hmem
    obtain ⟨hs, hu⟩ := used_false hut
    have hfalse : f k t = false := by
      rw [hf k t hs, truth, List.any_eq_false]
      intro e he
      simp only [Bool.and_eq_true, beq_iff_eq, not_and, Bool.not_eq_true]
      intro _
      cases hsv : e.svg with
      | true => exact hu sem e he hsv
      | false =>
        rw [Bool.eq_false_iff]
        intro hh
        obtain ⟨x, hx, h1, h2⟩ := hU e he hsv t hmem hs hh
        rw [hu sem x hx h1] at h2
        simp at h2
    unfold matchesSel
    split
    · rw [Bool.eq_false_iff]
      intro h
      rw [List.all_eq_true] at h
      rw [h t hmem] at hfalse
      simp at hfalse
    · rw [Bool.eq_false_iff]
      intro h
      rw [hX f s k h t hmem] at hfalse
      simp at hfalse
  · rw [hp] at ht
    simp at ht

theorem strip_entries {sem : Css V R} {doc : List (Elem V Q R)} {f : Nat → Token → Bool}
    (hX : ∀ f s k, sem.complex f s k = true → ∀ t ∈ s.tail, f k t = true)
    (hf : ∀ k t, Simple t → f k t = truth sem doc k t) (env : Q → Bool) (k : Nat) : ∀ rs : List (Rule V Q R),
    (∀ s ∈ selsOfAll rs, s.tail ≠ [] ∨ s.pseudo = true) →
    (∀ s ∈ selsOfAll rs, ∀ e ∈ doc, e.svg = false → ∀ t ∈ s.tail, Simple t → holdsE sem e.base t = true →
      ∃ x ∈ doc, x.svg = true ∧ holdsE sem x.base t = true) →
    (∀ sels b r, .style sels b (some r) ∈ rs → ∀ f k (q : Sel → Bool), (∀ s ∈ sels, q s = false → ∀ k, matchesSel sem f s k = false) →
      sem.nested f (sels.filter q) r k = sem.nested f sels r k) →
    entriesAll sem env f k (rs.map (strip doc)) = entriesAll sem env f k rs
  | [], _, _, _ => rfl
  | r :: rs, hT, hU, hN => by
    have ih := strip_entries hX hf env k rs (fun s hs => hT s (by simp [selsOfAll, hs])) (fun s hs => hU s (by simp [selsOfAll, hs]))
      (fun sels b r hr => hN sels b r (by simp [hr]))
    simp only [List.map_cons, entriesAll, ih]
    congr 1
    cases r with
    | group c rs => rfl
    | other r => rfl
    | style sels b nest =>
      have hm : ∀ s ∈ sels, keep doc s = false → ∀ k, matchesSel sem f s k = false := fun s hs hk k =>
        gone_unmatched hX hf (hT s (by simp [selsOfAll, selsOf, hs])) (hU s (by simp [selsOfAll, selsOf, hs])) hk k
      simp only [strip, entries]
      congr 1
      · have : (sels.filter (keep doc)).filter (fun s => matchesSel sem f s k) = sels.filter fun s => matchesSel sem f s k := by
          rw [List.filter_filter]
          apply List.filter_congr
          intro s hs
          cases hk : keep doc s with
          | true => simp
          | false => simp [hm s hs hk k]
        rw [this]
      · cases nest with
        | none => rfl
        | some r => exact hN sels b r (by simp) f k (keep doc) hm

theorem winner_append (p : Str) (get : Block V → List (Str × V)) (a : Option (Nat × V)) (l l' : List (Nat × Block V)) :
    winner p get a (l ++ l') = winner p get (winner p get a l) l' := by
  simp only [winner, List.filterMap_append, List.foldl_append]

/-- **C59 (values, partial)**: if the job does not fail, every property of every element has the same value afterwards, whatever conditions
hold, provided that
* the minifiers are right (`hS`, `hB`),
* every selector has a token or a pseudo-element (`hT`), and one with combinators only matches what the part behind the last one
  matches (`hX`),
* no rule that is nested in another asks for what the selectors of that do not match (`hN`),
* no rule asks for the `style` attribute (`hA`),
* a name, an id or a class of an element that is not of SVG is that of one of SVG, too, if a selector asks for it (`hU`).

That pseudo-classes depend on the place of style elements is not considered. -/
theorem values_kept_partial (sem : Css V R) {minS : List (Rule V Q R) → Option (List (Rule V Q R))} {minB : Block V → Block V} {u : Usage}
    {scripts : Bool} {doc doc' : List (Elem V Q R)} (h : job minS minB u scripts doc = some doc')
    (hS : SheetsRight sem minS) (hB : BlocksRight minB)
    (hT : ∀ e ∈ doc, ∀ s ∈ selsOfAll (e.sheet.getD []), s.tail ≠ [] ∨ s.pseudo = true)
    (hX : ∀ f s k, sem.complex f s k = true → ∀ t ∈ s.tail, f k t = true)
    (hN : ∀ e ∈ doc, ∀ sels b r, .style sels b (some r) ∈ e.sheet.getD [] → ∀ f k (q : Sel → Bool),
      (∀ s ∈ sels, q s = false → ∀ k, matchesSel sem f s k = false) → sem.nested f (sels.filter q) r k = sem.nested f sels r k)
    (hA : ∀ e ∈ doc, Blind sem (e.sheet.getD []))
    (hU : ∀ y ∈ doc, ∀ s ∈ selsOfAll (y.sheet.getD []), ∀ e ∈ doc, e.svg = false → ∀ t ∈ s.tail,
      (∃ n, t = .name n ∨ t = .id n ∨ t = .cls n) → holdsE sem e.base t = true → ∃ x ∈ doc, x.svg = true ∧ holdsE sem x.base t = true)
    (env : Q → Bool) (i : Nat) (hi : i < doc.length) (hi' : i < doc'.length) (p : Str) :
    value sem env doc' doc'[i] p = value sem env doc doc[i] p := by
  obtain ⟨h1, h2⟩ := elements_kept h
  have htr := truth_eq sem h1 fun i hi hi' => (h2 i hi hi').1
  -- what wins among the rules
  have hone : ∀ k a, ∀ e ∈ doc, ∀ e', step minS minB u scripts doc e = some e' → ∀ get : Block V → List (Str × V),
      get = (·.normal) ∨ get = (·.important) →
      winner p get a (if e'.base.name = lit "style" ∧ IsCss e'.base.typ ∧ e'.base.gone = false ∧ (∀ q, e'.base.media = some q → env q = true)
        then entriesAll sem env (truth sem doc') k (e'.sheet.getD []) else []) =
      winner p get a (if e.base.name = lit "style" ∧ IsCss e.base.typ ∧ e.base.gone = false ∧ (∀ q, e.base.media = some q → env q = true)
        then entriesAll sem env (truth sem doc) k (e.sheet.getD []) else []) := by
    intro k a e he e' hstep get hget
    obtain ⟨_, s2, _, _, _, s6, s7, _⟩ := step_same hstep
    rw [s2, s6, s7]
    have hblind : entriesAll sem env (truth sem doc') k (e.sheet.getD []) = entriesAll sem env (truth sem doc) k (e.sheet.getD []) :=
      hA e he env _ _ k fun j t ht => htr j t ht
    unfold step at hstep
    split at hstep
    · simp only [Option.some.injEq] at hstep
      subst hstep
      unfold exitStyle
      cases hsh : e.sheet with
      | none => simp only [hsh, Option.getD_none, entriesAll]
      | some rs =>
        obtain ⟨rs', hr, hw⟩ := hS (if active u scripts then rs.map (strip doc) else rs)
        simp only [hr]
        rw [hsh, Option.getD_some] at hblind
        have hsame : entriesAll sem env (truth sem doc') k (if active u scripts then rs.map (strip doc) else rs) =
            entriesAll sem env (truth sem doc) k rs := by
          rw [← hblind]
          split
          · refine strip_entries hX ?_ env k rs ?_ ?_ ?_
            · intro k t ht
              refine htr k t fun v hv => ?_
              obtain ⟨n, rfl | rfl | rfl⟩ := ht <;> simp at hv
            · have := hT e he; rwa [hsh] at this
            · have := hU e he; rwa [hsh] at this
            · have := hN e he; rwa [hsh] at this
          · rfl
        have hw' : winner p get a (entriesAll sem env (truth sem doc') k rs') = winner p get a (entriesAll sem env (truth sem doc) k rs) := by
          rw [← hsame]
          rcases hget with rfl | rfl
          · exact (hw env (truth sem doc') k p a).1
          · exact (hw env (truth sem doc') k p a).2
        simp only [Option.getD_some]
        by_cases hc : e.base.name = lit "style" ∧ IsCss e.base.typ ∧ e.base.gone = false ∧ (∀ q, e.base.media = some q → env q = true)
        · rw [if_pos hc]
          cases hrs : rs' with
          | nil =>
            rw [hrs] at hw'
            rw [← hw', if_neg (by simp)]
            rfl
          | cons r l =>
            rw [if_pos ⟨hc.1, hc.2.1, by simp [hc.2.2.1], hc.2.2.2⟩, ← hrs, hw']
        · rw [if_neg hc, if_neg]
          intro hc'
          apply hc
          refine ⟨hc'.1, hc'.2.1, ?_, hc'.2.2.2⟩
          have := hc'.2.2.1
          simp only [Bool.or_eq_false_iff] at this
          exact this.1
    · have : e'.base.gone = e.base.gone ∧ e'.sheet = e.sheet := by
        unfold exitAttr at hstep
        split at hstep
        · simp only [Option.some.injEq] at hstep
          subst hstep
          exact ⟨rfl, rfl⟩
        · simp at hstep
        · simp only [Option.some.injEq] at hstep
          subst hstep
          exact ⟨rfl, rfl⟩
      rw [this.1, this.2, hblind]
  have hall : ∀ k (get : Block V → List (Str × V)), get = (·.normal) ∨ get = (·.important) → ∀ (l l' : List (Elem V Q R)), (∀ e ∈ l, e ∈ doc) →
      l.mapM (step minS minB u scripts doc) = some l' → ∀ a,
      winner p get a (l'.flatMap fun e' => if e'.base.name = lit "style" ∧ IsCss e'.base.typ ∧ e'.base.gone = false ∧
        (∀ q, e'.base.media = some q → env q = true) then entriesAll sem env (truth sem doc') k (e'.sheet.getD []) else []) =
      winner p get a (l.flatMap fun e => if e.base.name = lit "style" ∧ IsCss e.base.typ ∧ e.base.gone = false ∧
        (∀ q, e.base.media = some q → env q = true) then entriesAll sem env (truth sem doc) k (e.sheet.getD []) else []) := by
    intro k get hget l
    induction l with
    | nil =>
      intro l' _ hl a
      simp only [List.mapM_nil, Option.pure_def, Option.some.injEq] at hl
      subst hl
      rfl
    | cons e l ih =>
      intro l' hsub hl a
      simp only [List.mapM_cons, Option.bind_eq_bind, Option.bind_eq_some_iff, Option.pure_def, Option.some.injEq] at hl
      obtain ⟨e', he', t, ht, rfl⟩ := hl
      simp only [List.flatMap_cons, winner_append]
      rw [hone k a e (hsub e (by simp)) e' he' get hget, ih t (fun x hx => hsub x (by simp [hx])) ht]
  have hbest : ∀ k (get : Block V → List (Str × V)), get = (·.normal) ∨ get = (·.important) →
      best p get (declared sem env doc' k) = best p get (declared sem env doc k) := by
    intro k get hget
    exact congrArg (Option.map (·.2)) (hall k get hget doc doc' (fun e he => he) h none)
  obtain ⟨⟨s1, _, _, _, s5⟩, _, _, hst⟩ := h2 i hi hi'
  have hinl : last p (inline sem doc'[i].base.style).normal = last p (inline sem doc[i].base.style).normal ∧
      last p (inline sem doc'[i].base.style).important = last p (inline sem doc[i].base.style).important := by
    rcases hst with hst | ⟨b, hb, hst | ⟨hst, hm⟩⟩
    · rw [hst]
      exact ⟨rfl, rfl⟩
    · rw [hst, hb]
      exact hB b p
    · rw [hst, hb]
      have := hB b p
      rw [hm] at this
      exact this
  simp only [value]
  rw [s1, s5, hinl.1, hinl.2, hbest _ _ (.inl rfl), hbest _ _ (.inr rfl)]

/-! ## Selectors -/

/-- **C59 (selectors)**: with a minifier that changes nothing, a rule of a style element keeps exactly the selectors that have a
pseudo-element, a token other than a name, an id or a class, or one that an element of SVG has; its declarations, what is nested in it and
all other rules stay. -/
theorem selectors_iff {minB : Block V → Block V} {u : Usage} {scripts : Bool} {doc doc' : List (Elem V Q R)} (sem : Css V R)
    (h : job some minB u scripts doc = some doc') (hu : u = .force ∨ u = .on ∧ scripts = false) (i : Nat) (hi : i < doc.length)
    (hi' : i < doc'.length) (hs : doc[i].svg = true ∧ doc[i].base.name = lit "style" ∧ doc[i].filled = true) (rs : List (Rule V Q R))
    (hsheet : doc[i].sheet = some rs) :
    ∃ rs', doc'[i].sheet = some rs' ∧ rs'.length = rs.length ∧ ∀ j (hj : j < rs.length) (hj' : j < rs'.length),
      (∀ sels b nest, rs[j] = .style sels b nest → ∃ sels', rs'[j] = .style sels' b nest ∧ sels'.Sublist sels ∧ ∀ s, s ∈ sels' ↔ s ∈ sels ∧
        (s.pseudo = true ∨ ∃ t ∈ s.tokens, (¬ ∃ n, t = .name n ∨ t = .id n ∨ t = .cls n) ∨
          ∃ e ∈ doc, e.svg = true ∧ holdsE sem e.base t = true)) ∧
      ((∀ sels b nest, rs[j] ≠ .style sels b nest) → rs'[j] = rs[j]) := by
  have hst := (job_get h).2 i hi hi'
  have his : isStyle doc[i] = true := by simp [isStyle, hs]
  have hact : active u scripts = true := by
    rcases hu with rfl | ⟨rfl, rfl⟩ <;> simp [active]
  simp only [step, his, if_true, exitStyle, hsheet, hact, Option.some.injEq] at hst
  rw [← hst]
  refine ⟨_, rfl, by simp, fun j hj hj' => ?_⟩
  simp only [List.getElem_map]
  constructor
  · intro sels b nest hr
    rw [hr]
    refine ⟨sels.filter (keep doc), rfl, List.filter_sublist, fun s => ?_⟩
    rw [List.mem_filter]
    have hused : ∀ t, used doc t = true ↔ (¬ ∃ n, t = .name n ∨ t = .id n ∨ t = .cls n) ∨ ∃ e ∈ doc, e.svg = true ∧ holdsE sem e.base t = true := by
      intro t
      cases t with
      | name n => simp [used, holdsE]
      | id n => simp [used, holdsE]
      | cls n => simp [used, holdsE]
      | attr n v => simp [used]
      | other n v => simp [used]
    have hk : keep doc s = true ↔ s.pseudo = true ∨ ∃ t ∈ s.tokens, used doc t = true := by
      simp only [keep, Bool.or_eq_true, List.any_eq_true, Sel.tokens, List.mem_append, List.mem_flatten]
      constructor
      · rintro ((h | ⟨t, h1, h2⟩) | ⟨l, hl, t, h1, h2⟩)
        · exact .inl h
        · exact .inr ⟨t, .inl h1, h2⟩
        · exact .inr ⟨t, .inr ⟨l, hl, h1⟩, h2⟩
      · rintro (h | ⟨t, h1 | ⟨l, hl, h1⟩, h2⟩)
        · exact .inl (.inl h)
        · exact .inl (.inr ⟨t, h1, h2⟩)
        · exact .inr ⟨l, hl, t, h1, h2⟩
    rw [hk]
    simp only [hused]
  · intro hr
    cases hrj : rs[j] with
    | style sels b nest => exact absurd hrj (hr sels b nest)
    | group c rs => rfl
    | other r => rfl

/-- **C59 (scripts)**: if the option is off, or the document has scripts and removal is not forced, no selector goes but by the
minifier. -/
theorem scripts_kept {minS : List (Rule V Q R) → Option (List (Rule V Q R))} {minB : Block V → Block V} {u : Usage} {scripts : Bool}
    {doc doc' : List (Elem V Q R)} (h : job minS minB u scripts doc = some doc') (hu : u = .off ∨ u = .on ∧ scripts = true) (i : Nat)
    (hi : i < doc.length) (hi' : i < doc'.length) (rs : List (Rule V Q R)) (hsheet : doc[i].sheet = some rs) :
    doc'[i].sheet = some rs ∨ doc'[i].sheet = some ((minS rs).getD []) := by
  have hst := (job_get h).2 i hi hi'
  have hact : active u scripts = false := by
    rcases hu with rfl | ⟨rfl, rfl⟩ <;> simp [active]
  generalize doc[i] = e at *
  generalize doc'[i] = e' at *
  unfold step at hst
  split at hst
  · simp only [exitStyle, hsheet, hact, Bool.false_eq_true, if_false, Option.some.injEq] at hst
    right
    rw [← hst]
    cases minS rs <;> rfl
  · left
    unfold exitAttr at hst
    split at hst
    · simp only [Option.some.injEq] at hst
      rw [← hst, hsheet]
    · simp at hst
    · simp only [Option.some.injEq] at hst
      rw [← hst]
      exact hsheet

end Verif.Minify
