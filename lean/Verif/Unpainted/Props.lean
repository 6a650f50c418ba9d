import Verif.Unpainted.Lemmas

/-!
# C55: removing strokes and fills that are not drawn
-/

namespace Verif.Unpainted

open Verif.Tree Verif.Names
open Verif.Unknowns (Key Val Attr AId E El Item property inlineBlock inheritedProperties otherProperties initial elementOf word
  look tails presented blockOf isId content)
open Verif.Cascade (Computed Mode withAll getInherited Block)
open Verif.Retain (idOf Along Wellformed)

/-! ## Shapes -/

theorem isShape_iff (e : E) : isShape e.1 = true ↔ Shape e := by
  unfold isShape Shape elementOf EName.is
  constructor
  · intro h
    split at h
    · next x hx =>
      split at hx
      · next hp =>
        have h1 := List.mem_of_find?_eq_some hx
        have h2 := List.find?_some hx
        have h3 : ∀ x ∈ El.all, Unknowns.Category.Shape ∈ x.categories →
            x.name ∈ ["circle", "ellipse", "line", "path", "polygon", "polyline", "rect"] := by decide +kernel
        refine ⟨x.name, h3 x h1 (of_decide_eq_true h), ?_⟩
        have h4 : e.1.loc = lit x.name := (eq_of_beq h2).symm
        rw [h4, hp]
        simp
      · simp at hx
    · simp at h
  · rintro ⟨s, hs, h⟩
    simp only [Bool.and_eq_true, beq_iff_eq] at h
    obtain ⟨h1, h2⟩ := h
    rw [if_pos h1, h2]
    simp only [List.mem_cons, List.not_mem_nil, or_false] at hs
    rcases hs with rfl | rfl | rfl | rfl | rfl | rfl | rfl <;> decide +kernel

theorem hasId_iff (e : E) : e.2.any isId = true ↔ HasId e := by
  rw [List.any_eq_true]
  constructor
  · rintro ⟨a, ha, h⟩
    unfold isId at h
    split at h
    · exact ⟨_, ha⟩
    · simp at h
  · rintro ⟨v, hv⟩
    exact ⟨_, hv, rfl⟩

theorem chain_plain (o : Options) : ∀ cs : List E, (∀ x ∈ cs, ¬ Shape x) → (chain o cs).1 = cs
  | [], _ => rfl
  | e :: cs, h => by
    have h1 : isShape e.1 = false := by
      have := h e (by simp)
      rw [← isShape_iff] at this
      simpa using this
    have ih := chain_plain o cs fun x hx => h x (by simp [hx])
    unfold chain
    simp only
    split
    · rw [ih]
    · simp [hook, h1, ih]

/-! ## What is drawn -/

theorem zero_of (v : Val) (h : zeroLength v = true) : Zero v := by
  unfold zeroLength at h
  split at h
  · simp at h; subst h; exact .inl rfl
  · simp at h; subst h; exact .inr (.inl rfl)
  · simp at h; subst h; exact .inr (.inr (.inr ⟨_, rfl⟩))
  · simp at h; subst h; exact .inr (.inr (.inl rfl))
  · simp at h

theorem of_zero (v : Val) (h : Zero v) : zeroLength v = true := by
  rcases h with rfl | rfl | rfl | ⟨u, rfl⟩ <;> simp [zeroLength]

theorem statically_map (p : Val → Bool) (o : Option Val) :
    statically p (o.map fun v => (v, Mode.static)) = true ↔ ∃ v, o = some v ∧ p v = true := by
  cases o <;> simp [statically]

theorem strokeOf_congr (c c' : List E) (h : ∀ k ∈ strokeKeys, value k c' = value k c) : strokeOf c' = strokeOf c := by
  unfold strokeOf
  rw [h .Stroke (by decide), h .StrokeOpacity (by decide), h .StrokeWidth (by decide)]
  split
  · rfl
  · congr 1
    exact List.map_congr_left h

theorem fillOf_congr (c c' : List E) (h : ∀ k ∈ fillKeys, value k c' = value k c) : fillOf c' = fillOf c := by
  unfold fillOf
  rw [h .Fill (by decide), h .FillOpacity (by decide)]
  split
  · rfl
  · congr 1
    exact List.map_congr_left h

theorem strokeOf_none (c : List E) :
    strokeOf c = none ↔ value .Stroke c = word "none" ∨ value .StrokeOpacity c = .parts [.num 0] ∨ Zero (value .StrokeWidth c) := by
  unfold strokeOf
  split
  · next h => simp [h]
  · next h => simp [h]

theorem fillOf_none (c : List E) :
    fillOf c = none ↔ value .Fill c = word "none" ∨ value .FillOpacity c = .parts [.num 0] := by
  unfold fillOf
  split
  · next h => simp [h]
  · next h => simp [h]

theorem isNone_iff (v : Val) : isNone v = true ↔ v = word "none" := by
  simp [isNone, word]

/-- What is needed of an element for its styles to be computed well. -/
structure Clear (n : EName) (as : List Attr) (cs : List E) (c : Computed Key Val) : Prop where
  styles : computed (n, as) cs = some c
  once : ∀ e ∈ cs, (e.2.map idOf).Nodup
  silent : ∀ k ∈ fillKeys ++ strokeKeys, Silent k (n, as)

theorem Clear.style {n : EName} {as : List Attr} {cs : List E} {c : Computed Key Val} (h : Clear n as cs c) (k : Key)
    (hk : k ∈ fillKeys ++ strokeKeys) :
    Unpainted.style c k = (nearest k ((n, as) :: cs)).map fun v => (v, Mode.static) := by
  have h1 : ∀ k ∈ fillKeys ++ strokeKeys, k ∉ [Key.Marker, .MarkerStart, .MarkerMid, .MarkerEnd] ∧ Key.inheritable k = true := by
    decide
  exact style_nearest k (h1 k hk).1 (h1 k hk).2 (n, as) cs h.once (h.silent k hk) c h.styles

theorem Clear.invisible_stroke {n : EName} {as : List Attr} {cs : List E} {c : Computed Key Val} (h : Clear n as cs c)
    (hn : strokeNone c = true ∨ statically zeroAlpha (Unpainted.style c .StrokeOpacity) = true ∨
      statically zeroLength (Unpainted.style c .StrokeWidth) = true) : strokeOf ((n, as) :: cs) = none := by
  rw [strokeOf_none]
  rcases hn with hn | hn | hn
  · left
    unfold strokeNone strokeEqNone at hn
    rw [h.style .Stroke (by decide)] at hn
    cases hv : nearest .Stroke ((n, as) :: cs) with
    | none => rw [value_none _ _ hv]; rfl
    | some v =>
      rw [hv] at hn
      simp only [Option.map_some, decide_true, Bool.true_and] at hn
      rw [isNone_iff] at hn
      subst hn
      exact value_nearest _ (by decide) _ (by simp [word]) _ hv
  · right; left
    rw [h.style .StrokeOpacity (by decide), statically_map] at hn
    obtain ⟨v, hv, hz⟩ := hn
    have : v = .parts [.num 0] := by simpa [zeroAlpha] using hz
    subst this
    exact value_nearest _ (by decide) _ (by simp) _ hv
  · right; right
    rw [h.style .StrokeWidth (by decide), statically_map] at hn
    obtain ⟨v, hv, hz⟩ := hn
    have hz := zero_of v hz
    rw [value_nearest _ (by decide) v (by rintro rfl; rcases hz with h | h | h | ⟨_, h⟩ <;> simp at h) _ hv]
    exact hz

theorem inherited_none {n : EName} {as : List Attr} {cs : List E} {c : Computed Key Val} (h : Clear n as cs c)
    (hn : statically (fun v => !isNone v) (getInherited Key.inheritable c .Stroke) = false) : value .Stroke cs = word "none" := by
  have hs := h.styles
  rw [computed_eq] at hs
  cases hs
  have hi : Key.inheritable .Stroke = true := rfl
  unfold getInherited at hn
  rw [if_pos hi] at hn
  simp only at hn
  rw [inh_nearest .Stroke (by decide) cs h.once, Bool.eq_false_iff, ne_eq, statically_map] at hn
  cases hv : nearest .Stroke cs with
  | none => rw [value_none _ _ hv]; rfl
  | some v =>
    have : isNone v = true := by
      by_contra hne
      exact hn ⟨v, hv, by simpa using hne⟩
    rw [isNone_iff] at this
    subst this
    exact value_nearest _ (by decide) _ (by simp [word]) _ hv

theorem properties_mem {k : Key} (h : k ∈ inheritedProperties ++ otherProperties) :
    k ∈ inheritedProperties ∨ k ∈ otherProperties := List.mem_append.mp h

theorem stroke_step (o : Options) (n : EName) (as : List Attr) (cs : List E) (c : Computed Key Val) (h : Clear n as cs c) :
    (∀ k ∈ inheritedProperties ++ otherProperties, k ∉ strokeKeys →
      declared (n, (removeStroke o c as).1) k = declared (n, as) k) ∧
    strokeOf ((n, (removeStroke o c as).1) :: cs) = strokeOf ((n, as) :: cs) ∧
    ((removeStroke o c as).1 = as ∨ statically zeroLength (style c .StrokeWidth) = true ∨ style c .MarkerEnd = none) ∧
    (∀ k, Silent k (n, as) → Silent k (n, (removeStroke o c as).1)) ∧
    ((removeStroke o c as).2 = true → o.removeNone = true ∧ strokeOf ((n, as) :: cs) = none) := by
  have hother : ∀ k ∈ inheritedProperties ++ otherProperties, k ∉ strokeKeys →
      declared (n, as.filter fun a => !begins "stroke" a) k = declared (n, as) k := by
    intro k hk hk'
    apply declared_filter
    · intro b; simp [(begins_style b).1]
    · intro v; simp [begins_stroke k hk, hk']
  have heq : ∀ (m : Mode) v, style c .Stroke = some (v, m) → isNone v = true → strokeOf ((n, as) :: cs) = none := by
    intro m v hv hn
    apply h.invisible_stroke
    left
    have hm : m = .static := by
      have h1 := h.style .Stroke (by decide)
      rw [hv] at h1
      cases hx : nearest .Stroke ((n, as) :: cs) with
      | none => rw [hx] at h1; simp at h1
      | some w => rw [hx] at h1; simp at h1; exact h1.2
    simp [strokeNone, strokeEqNone, hv, hm, hn]
  unfold removeStroke
  split
  · exact ⟨fun _ _ _ => rfl, rfl, .inl rfl, fun _ h => h, by simp⟩
  · simp only
    split
    · exact ⟨fun _ _ _ => rfl, rfl, .inl rfl, fun _ h => h, by simp⟩
    · next hmark =>
      have hmark : statically zeroLength (style c .StrokeWidth) = true ∨ style c .MarkerEnd = none := by
        cases hz : statically zeroLength (style c .StrokeWidth) with
        | true => exact .inl rfl
        | false =>
          right
          simpa [hz] using hmark
      split
      · next hinv =>
        have hinv : strokeOf ((n, as) :: cs) = none := by
          apply h.invisible_stroke
          simpa [Bool.or_eq_true, or_assoc] using hinv
        split
        · next hi =>
          refine ⟨?_, ?_, .inr hmark, ?_, ?_⟩
          · intro k hk hk'
            simp only
            rw [declared_set_other k .Stroke (by rintro rfl; exact hk' (by decide)), hother k hk hk']
          · simp only
            rw [hinv, strokeOf_none]
            left
            unfold value
            rw [declared_silent .Stroke (by decide), find_set .Stroke (.inl (by decide))]
            · rfl
            · exact silent_set _ _ _ _ _ (silent_filter _ _ _ _ (h.silent .Stroke (by decide)))
          · exact fun k hk => silent_set _ _ _ _ _ (silent_filter _ _ _ _ hk)
          · exact fun hr => ⟨hr, hinv⟩
        · next hi =>
          refine ⟨hother, ?_, .inr hmark, ?_, ?_⟩
          · simp only
            rw [hinv, strokeOf_none]
            left
            have hd : declared (n, as.filter fun a => !begins "stroke" a) .Stroke = none := by
              rw [declared_silent .Stroke (by decide) _ (silent_filter _ _ _ _ (h.silent .Stroke (by decide)))]
              rw [find_filter_none as _ .Stroke]
              · rfl
              · intro v
                simp [begins_stroke .Stroke (by decide), strokeKeys]
            unfold value
            rw [hd]
            simp only
            rw [if_pos (by decide)]
            exact inherited_none h (by simpa using hi)
          · exact fun k hk => silent_filter _ _ _ _ hk
          · intro hr
            simp only [Bool.and_eq_true] at hr
            exact ⟨hr.2, hinv⟩
      · refine ⟨fun _ _ _ => rfl, rfl, .inl rfl, fun _ h => h, ?_⟩
        intro hr
        simp only [Bool.and_eq_true] at hr
        refine ⟨hr.2, ?_⟩
        unfold strokeEqNone at hr
        cases hv : style c .Stroke with
        | none => rw [hv] at hr; simp at hr
        | some x =>
          rw [hv] at hr
          exact heq x.2 x.1 hv hr.1

theorem fill_step (o : Options) (n : EName) (as as1 : List Attr) (cs : List E) (c : Computed Key Val) (h : Clear n as cs c)
    (hd : ∀ k ∈ fillKeys, declared (n, as1) k = declared (n, as) k) (hs : ∀ k ∈ fillKeys, Silent k (n, as1)) :
    (∀ k ∈ inheritedProperties ++ otherProperties, k ∉ fillKeys →
      declared (n, (removeFill o c as1).1) k = declared (n, as1) k) ∧
    fillOf ((n, (removeFill o c as1).1) :: cs) = fillOf ((n, as) :: cs) ∧
    ((removeFill o c as1).2 = true → o.removeNone = true ∧ fillOf ((n, as) :: cs) = none) := by
  have hsame : fillOf ((n, as1) :: cs) = fillOf ((n, as) :: cs) :=
    fillOf_congr _ _ fun k hk => value_head k _ _ cs (hd k hk)
  have hother : ∀ k ∈ inheritedProperties ++ otherProperties, k ≠ .FillOpacity → k ≠ .FillRule →
      declared (n, as1.filter fun a => !begins "fill-" a) k = declared (n, as1) k := by
    intro k hk h1 h2
    apply declared_filter
    · intro b; simp [(begins_style b).2]
    · intro v; simp [begins_fill k hk, h1, h2]
  have hnone : statically isNone (style c .Fill) = true → value .Fill ((n, as) :: cs) = word "none" := by
    intro hn
    rw [h.style .Fill (by decide), statically_map] at hn
    obtain ⟨v, hv, hz⟩ := hn
    rw [isNone_iff] at hz
    subst hz
    exact value_nearest _ (by decide) _ (by simp [word]) _ hv
  have hzero : statically zeroAlpha (style c .FillOpacity) = true → value .FillOpacity ((n, as) :: cs) = .parts [.num 0] := by
    intro hn
    rw [h.style .FillOpacity (by decide), statically_map] at hn
    obtain ⟨v, hv, hz⟩ := hn
    have : v = .parts [.num 0] := by simpa [zeroAlpha] using hz
    subst this
    exact value_nearest _ (by decide) _ (by simp) _ hv
  have hinv : statically isNone (style c .Fill) = true ∨ statically zeroAlpha (style c .FillOpacity) = true →
      fillOf ((n, as) :: cs) = none := by
    intro hn
    rw [fillOf_none]
    exact hn.imp hnone hzero
  unfold removeFill
  split
  · exact ⟨fun _ _ _ => rfl, hsame, by simp⟩
  · simp only
    split
    · next hx =>
      have hx : statically isNone (style c .Fill) = true ∨ statically zeroAlpha (style c .FillOpacity) = true := by
        simpa using hx
      split
      · refine ⟨?_, ?_, fun hr => ⟨hr, hinv hx⟩⟩
        · intro k hk hk'
          simp only [fillKeys, List.mem_cons, List.not_mem_nil, or_false, not_or] at hk'
          simp only
          rw [declared_set_other k .Fill hk'.1, hother k hk hk'.2.1 hk'.2.2]
        · simp only
          rw [hinv hx, fillOf_none]
          left
          unfold value
          rw [declared_silent .Fill (by decide), find_set .Fill (.inl (by decide))]
          · rfl
          · exact silent_set _ _ _ _ _ (silent_filter _ _ _ _ (hs .Fill (by decide)))
      · next hset =>
        have heq : statically isNone (style c .Fill) = true := by
          simp only [Bool.or_eq_true, not_or, Bool.not_eq_true'] at hset
          simpa using hset.2
        refine ⟨?_, ?_, fun hr => ⟨hr, hinv hx⟩⟩
        · intro k hk hk'
          simp only [fillKeys, List.mem_cons, List.not_mem_nil, or_false, not_or] at hk'
          exact hother k hk hk'.2.1 hk'.2.2
        · simp only
          rw [hinv hx, fillOf_none]
          left
          have h1 : value .Fill ((n, as1.filter fun a => !begins "fill-" a) :: cs) = value .Fill ((n, as) :: cs) := by
            apply value_head
            rw [hother .Fill (by decide) (fun h => Key.noConfusion h) (fun h => Key.noConfusion h), hd .Fill (by decide)]
          rw [h1]
          exact hnone heq
    · refine ⟨fun _ _ _ => rfl, hsame, ?_⟩
      intro hr
      simp only [Bool.and_eq_true] at hr
      exact ⟨hr.2, hinv (.inl hr.1)⟩

theorem fill_not_stroke : ∀ k ∈ fillKeys, k ∉ strokeKeys ∧ k ∈ inheritedProperties ++ otherProperties := by decide

theorem stroke_not_fill : ∀ k ∈ strokeKeys, k ∉ fillKeys ∧ k ∈ inheritedProperties ++ otherProperties := by decide

/-- What the hook does to a shape with ancestors that stay as they are. -/
theorem hook_shape (o : Options) (n : EName) (as : List Attr) (cs : List E) (hw : ∀ e ∈ cs, (e.2.map idOf).Nodup)
    (hs : ∀ k ∈ fillKeys ++ strokeKeys, Silent k (n, as)) (as' : List Attr) (gone : Bool)
    (hh : hook o cs n as = some (as', gone)) :
    fillOf ((n, as') :: cs) = fillOf ((n, as) :: cs) ∧ strokeOf ((n, as') :: cs) = strokeOf ((n, as) :: cs) ∧
    (∀ k ∈ inheritedProperties ++ otherProperties, k ∉ fillKeys ++ strokeKeys →
      value k ((n, as') :: cs) = value k ((n, as) :: cs)) ∧
    (((∃ v, .plain (.known .MarkerEnd) v ∈ as) ∧ ¬ Zero (value .StrokeWidth ((n, as) :: cs))) →
      value .StrokeWidth ((n, as') :: cs) = value .StrokeWidth ((n, as) :: cs)) ∧
    (gone = true → o.removeNone = true ∧ (fillOf ((n, as) :: cs) = none ∨ strokeOf ((n, as) :: cs) = none)) := by
  unfold hook at hh
  split at hh
  · rw [computed_eq] at hh
    simp only [Option.some.injEq, Prod.mk.injEq] at hh
    obtain ⟨rfl, rfl⟩ := hh
    have hc : Clear n as cs _ := ⟨computed_eq (n, as) cs, hw, hs⟩
    generalize (⟨inh cs, fun _ => none, List.filterMap presented (n, as).2, List.findSome? blockOf (n, as).2, fun _ => none⟩ :
      Computed Key Val) = c at hc ⊢
    obtain ⟨s1, s2, s3, s4, s5⟩ := stroke_step o n as cs c hc
    obtain ⟨f1, f2, f3⟩ := fill_step o n as (removeStroke o c as).1 cs c hc
      (fun k hk => s1 k (fill_not_stroke k hk).2 (fill_not_stroke k hk).1)
      (fun k hk => s4 k (hs k (by simp [hk])))
    refine ⟨f2, ?_, ?_, ?_, ?_⟩
    · rw [← s2]
      exact strokeOf_congr _ _ fun k hk => value_head k _ _ cs (f1 k (stroke_not_fill k hk).2 (stroke_not_fill k hk).1)
    · intro k hk hk'
      simp only [List.mem_append, not_or] at hk'
      apply value_head
      rw [f1 k hk hk'.1, s1 k hk hk'.2]
    · rintro ⟨⟨v, hv⟩, hz⟩
      have hst : (removeStroke o c as).1 = as := by
        rcases s3 with h | h | h
        · exact h
        · exfalso
          apply hz
          rw [hc.style .StrokeWidth (by decide), statically_map] at h
          obtain ⟨w, hw', hzw⟩ := h
          have hzw := zero_of w hzw
          rw [value_nearest _ (by decide) w (by rintro rfl; rcases hzw with h | h | h | ⟨_, h⟩ <;> simp at h) _ hw']
          exact hzw
        · exfalso
          have hsome : ((as.filterMap presented).find? fun d => d.1 = .MarkerEnd) ≠ none := by
            rw [ne_eq, List.find?_eq_none]
            intro hall
            have hm : (Key.MarkerEnd, v) ∈ as.filterMap presented := by
              rw [List.mem_filterMap]
              refine ⟨_, hv, ?_⟩
              have : Unknowns.Group.Presentation ∈ Key.MarkerEnd.groups := by decide
              simp [presented, this]
            exact hall _ hm (by simp)
          have hst := hc.styles
          rw [computed_eq] at hst
          cases hst
          unfold style Cascade.get at h
          simp only [Option.or_eq_none_iff] at h
          have h2 := h.2.2.1
          simp only [Cascade.findFirst, Option.map_eq_none_iff] at h2
          exact hsome h2
      have h1 : declared (n, (removeFill o c (removeStroke o c as).1).1) .StrokeWidth = declared (n, as) .StrokeWidth := by
        rw [f1 .StrokeWidth (by decide) (by decide), hst]
      exact value_head _ _ _ cs h1
    · intro hg
      simp only [Bool.or_eq_true] at hg
      rcases hg with hg | hg
      · exact ⟨(s5 hg).1, .inr (s5 hg).2⟩
      · exact ⟨(f3 hg).1, .inl (f3 hg).2⟩
  · simp only [Option.some.injEq, Prod.mk.injEq] at hh
    obtain ⟨rfl, rfl⟩ := hh
    exact ⟨rfl, rfl, fun _ _ _ => rfl, fun _ => rfl, by simp⟩

/-! ## Documents -/

theorem chain_head (o : Options) (e : E) (cs : List E) (h : ∀ x ∈ cs, ¬ Shape x) :
    (chain o (e :: cs)).1 = e :: cs ∨ ∃ as' gone, hook o cs e.1 e.2 = some (as', gone) ∧
      (chain o (e :: cs)).1 = (e.1, as') :: cs := by
  have hp := chain_plain o cs h
  unfold chain
  simp only
  split
  · rw [hp]; exact .inl rfl
  · obtain ⟨⟨as', gone⟩, hr⟩ := hook_some o (chain o cs).1 e.1 e.2
    rw [hr]
    right
    rw [hp] at hr ⊢
    exact ⟨as', gone, hr, rfl⟩

theorem hook_gone (o : Options) (h : o.removeNone = false) (anc : List E) (n : EName) (as as' : List Attr) (gone : Bool)
    (hh : hook o anc n as = some (as', gone)) : gone = false := by
  unfold hook at hh
  split at hh
  · rw [computed_eq] at hh
    simp only [Option.some.injEq, Prod.mk.injEq] at hh
    rw [← hh.2]
    have h1 : ∀ c as, (removeStroke o c as).2 = false := by
      intro c as
      unfold removeStroke
      split
      · rfl
      · simp only
        split
        · rfl
        · split
          · split
            · simp [h]
            · simp [h]
          · simp [h]
    have h2 : ∀ c as, (removeFill o c as).2 = false := by
      intro c as
      unfold removeFill
      split
      · rfl
      · simp only
        split
        · split
          · simp [h]
          · simp [h]
        · simp [h]
    rw [h1, h2]
    rfl
  · simp only [Option.some.injEq, Prod.mk.injEq] at hh
    exact hh.2.symm

theorem goneChain_false (o : Options) (h : o.removeNone = false) : ∀ c : List E, goneChain o c = false
  | [] => rfl
  | e :: cs => by
    unfold goneChain
    rw [goneChain_false o h cs]
    obtain ⟨⟨as', gone⟩, hr⟩ := hook_some o (chain o cs).1 e.1 e.2
    rw [hr]
    simp [hook_gone o h _ _ _ _ _ hr]

/-- Items that stay are related to what they become. -/
theorem along_job (o : Options) (js : Val → Bool) (doc doc' : List (Node Attr)) (hj : job o js doc = some doc')
    (P : List E → List E → Prop) (h : ∀ c, .elem c ∈ content doc → P c (chain o c).1)
    (h' : ∀ c, .elem c ∈ content doc → P c c)
    (hn : ∀ c : List E, (chain o c).1.map (·.1) = c.map (·.1)) :
    ∃ keep : Item → Bool, (keep = (fun _ => true) ∨ keep = stays o) ∧
      List.Forall₂ (Along P) ((content doc).filter keep) (content doc') := by
  unfold job at hj
  split at hj
  · cases hj
    refine ⟨fun _ => true, .inl rfl, ?_⟩
    have : (content doc).filter (fun _ => true) = content doc := by simp
    rw [this, List.forall₂_same]
    intro i hi
    match i, hi with
    | .elem c, hi => exact h' c hi
    | .leaf a n, _ => exact ⟨rfl, rfl⟩
  · refine ⟨stays o, .inr rfl, ?_⟩
    rw [content_visit o doc doc' hj, List.forall₂_map_right_iff, List.forall₂_same]
    intro i hi
    match i, List.mem_of_mem_filter hi with
    | .elem c, hi => exact h c hi
    | .leaf a n, _ => exact ⟨hn a, rfl⟩

theorem chain_names (o : Options) : ∀ c : List E, (chain o c).1.map (·.1) = c.map (·.1)
  | [] => rfl
  | e :: cs => by
    have ih := chain_names o cs
    unfold chain
    simp only
    split
    · simp [ih]
    · obtain ⟨⟨as', gone⟩, hr⟩ := hook_some o (chain o cs).1 e.1 e.2
      rw [hr]
      simp [ih]

theorem along_all (o : Options) (ho : o.removeNone = false) (js : Val → Bool) (doc doc' : List (Node Attr))
    (hj : job o js doc = some doc') (P : List E → List E → Prop) (h : ∀ c, .elem c ∈ content doc → P c (chain o c).1)
    (h' : ∀ c, .elem c ∈ content doc → P c c) : List.Forall₂ (Along P) (content doc) (content doc') := by
  obtain ⟨keep, hk, hf⟩ := along_job o js doc doc' hj P h h' (chain_names o)
  have : (content doc).filter keep = content doc := by
    rw [List.filter_eq_self]
    intro i _
    rcases hk with rfl | rfl
    · rfl
    · cases i <;> simp [stays, goneChain_false o ho]
  rwa [this] at hf

/-- **C55 (the job does not fail).** -/
theorem succeeds (o : Options) (js : Val → Bool) (doc : List (Node Attr)) : ∃ doc', job o js doc = some doc' := by
  unfold job
  split
  · exact ⟨doc, rfl⟩
  · exact visitAll_some o false [] doc

/-- **C55 (strokes and fills), partial.** Unless `removeNone` is given: in all documents, elements that are not within a shape and,
if they are shapes, say nothing about fills and strokes in `style`, are filled and stroked as before and have all other
properties as before. Markers are the same if there are none, or if the shape has an attribute `marker-end` and a stroke that is not
empty. -/
theorem picture_partial (o : Options) (ho : o.removeNone = false) (js : Val → Bool) (doc doc' : List (Node Attr))
    (hw : Wellformed doc) (hj : job o js doc = some doc') :
    List.Forall₂ (Along fun c c' => ∀ e cs, c = e :: cs → (∀ x ∈ cs, ¬ Shape x) →
      (Shape e → ∀ k ∈ fillKeys ++ strokeKeys, Silent k e) →
      fillOf c' = fillOf c ∧ strokeOf c' = strokeOf c ∧
      (∀ k ∈ inheritedProperties ++ otherProperties, k ∉ fillKeys ++ strokeKeys → value k c' = value k c) ∧
      ((markersOf c = none ∨ ((∃ v, .plain (.known .MarkerEnd) v ∈ e.2) ∧ ¬ Zero (value .StrokeWidth c))) →
        markersOf c' = markersOf c))
      (content doc) (content doc') := by
  apply along_all o ho js doc doc' hj
  · rintro c hc e cs rfl hsh hsil
    by_cases hse : Shape e
    · rcases chain_head o e cs hsh with h | ⟨as', gone, hh, h⟩
      · rw [h]; exact ⟨rfl, rfl, fun _ _ _ => rfl, fun _ => rfl⟩
      · rw [h]
        have hnd : ∀ x ∈ cs, (x.2.map idOf).Nodup := by
          intro x hx
          obtain ⟨ys, hys⟩ := Retain.content_ancestor doc (e :: cs) hc x (by simp [hx])
          exact hw x ys hys
        obtain ⟨h1, h2, h3, h4, _⟩ := hook_shape o e.1 e.2 cs hnd (hsil hse) as' gone hh
        refine ⟨h1, h2, h3, ?_⟩
        have hm : ∀ k ∈ [Key.MarkerStart, .MarkerMid, .MarkerEnd], value k ((e.1, as') :: cs) = value k (e :: cs) := by
          intro k hk
          have : ∀ k ∈ [Key.MarkerStart, .MarkerMid, .MarkerEnd],
            k ∈ inheritedProperties ++ otherProperties ∧ k ∉ fillKeys ++ strokeKeys := by decide
          exact h3 k (this k hk).1 (this k hk).2
        unfold markersOf
        rw [hm .MarkerStart (by decide), hm .MarkerMid (by decide), hm .MarkerEnd (by decide)]
        rintro (hn | hn)
        · split at hn
          · next hx => rw [if_pos hx, if_pos hx]
          · simp at hn
        · split
          · rfl
          · simp only [List.map_cons, List.map_nil]
            rw [hm .MarkerStart (by decide), hm .MarkerMid (by decide), hm .MarkerEnd (by decide), h4 hn]
    · have h1 : isShape e.1 = false := by
        rw [← isShape_iff] at hse
        simpa using hse
      have : (chain o (e :: cs)).1 = e :: cs := by
        rcases chain_head o e cs hsh with h | ⟨as', gone, hh, h⟩
        · exact h
        · rw [h]
          simp only [hook, h1] at hh
          cases hh
          rfl
      rw [this]
      exact ⟨rfl, rfl, fun _ _ _ => rfl, fun _ => rfl⟩
  · rintro c _ e cs rfl _ _
    exact ⟨rfl, rfl, fun _ _ _ => rfl, fun _ => rfl⟩

/-- **C55 (with `removeNone`), partial.** With any options: what is left is as in `picture_partial`, and what goes away is or is within
a shape that is not filled or not stroked, if the job looks at the right styles. -/
theorem none_partial (o : Options) (js : Val → Bool) (doc doc' : List (Node Attr)) (hw : Wellformed doc)
    (hj : job o js doc = some doc') :
    ∃ keep : Item → Bool, (∀ c, .elem c ∈ content doc → keep (.elem c) = false → o.removeNone = true ∧
      ∃ e cs, e :: cs <:+ c ∧ Shape e ∧ ¬ HasId e ∧ ((∀ x ∈ cs, ¬ Shape x) → (∀ k ∈ fillKeys ++ strokeKeys, Silent k e) →
        fillOf (e :: cs) = none ∨ strokeOf (e :: cs) = none)) ∧
      List.Forall₂ (Along fun c c' => ∀ e cs, c = e :: cs → (∀ x ∈ cs, ¬ Shape x) →
        (Shape e → ∀ k ∈ fillKeys ++ strokeKeys, Silent k e) → fillOf c' = fillOf c ∧ strokeOf c' = strokeOf c)
        ((content doc).filter keep) (content doc') := by
  have hnd : ∀ e cs, Item.elem (e :: cs) ∈ content doc → ∀ x ∈ cs, (x.2.map idOf).Nodup := by
    intro e cs hc x hx
    obtain ⟨ys, hys⟩ := Retain.content_ancestor doc (e :: cs) hc x (by simp [hx])
    exact hw x ys hys
  obtain ⟨keep, hk, hf⟩ := along_job o js doc doc' hj (fun c c' => ∀ e cs, c = e :: cs → (∀ x ∈ cs, ¬ Shape x) →
        (Shape e → ∀ k ∈ fillKeys ++ strokeKeys, Silent k e) → fillOf c' = fillOf c ∧ strokeOf c' = strokeOf c) (by
    rintro c hc e cs rfl hsh hsil
    rcases chain_head o e cs hsh with h | ⟨as', gone, hh, h⟩
    · rw [h]; exact ⟨rfl, rfl⟩
    · rw [h]
      by_cases hse : Shape e
      · obtain ⟨h1, h2, _⟩ := hook_shape o e.1 e.2 cs (hnd e cs hc) (hsil hse) as' gone hh
        exact ⟨h1, h2⟩
      · have h1 : isShape e.1 = false := by
          rw [← isShape_iff] at hse
          simpa using hse
        simp only [hook, h1] at hh
        cases hh
        exact ⟨rfl, rfl⟩) (fun _ _ _ _ _ _ _ => ⟨rfl, rfl⟩) (chain_names o)
  refine ⟨keep, ?_, hf⟩
  intro c hc hkc
  rcases hk with rfl | rfl
  · simp at hkc
  · have hg : goneChain o c = true := by simpa [stays] using hkc
    have hrem : o.removeNone = true := by
      by_contra hne
      rw [goneChain_false o (by simpa using hne)] at hg
      simp at hg
    refine ⟨hrem, ?_⟩
    have hnd' : ∀ x ∈ c, (x.2.map idOf).Nodup := by
      intro x hx
      obtain ⟨ys, hys⟩ := Retain.content_ancestor doc c hc x hx
      exact hw x ys hys
    clear hc hkc
    induction c with
    | nil => simp [goneChain] at hg
    | cons e cs ih =>
      unfold goneChain at hg
      by_cases hgc : goneChain o cs = true
      · obtain ⟨e', cs', hsuf, h⟩ := ih hgc fun x hx => hnd' x (by simp [hx])
        exact ⟨e', cs', hsuf.trans (List.suffix_cons e cs), h⟩
      · simp only [Bool.not_eq_true] at hgc
        rw [hgc, Bool.false_or, Bool.and_eq_true] at hg
        obtain ⟨hid, hgone⟩ := hg
        obtain ⟨⟨as', gone⟩, hr⟩ := hook_some o (chain o cs).1 e.1 e.2
        rw [hr] at hgone
        simp only at hgone
        subst hgone
        have hse : Shape e := by
          rw [← isShape_iff]
          by_contra hne
          simp only [Bool.not_eq_true] at hne
          simp only [hook, hne] at hr
          simp at hr
        refine ⟨e, cs, List.suffix_refl _, hse, ?_, ?_⟩
        · rw [← hasId_iff]
          simp only [Bool.not_eq_true', Bool.or_eq_false_iff] at hid
          simp [hid.2]
        · intro hsh hsil
          rw [chain_plain o cs hsh] at hr
          exact ((hook_shape o e.1 e.2 cs (fun x hx => hnd' x (by simp [hx])) hsil as' true hr).2.2.2.2 rfl).2

/-! ## What changes and what does not -/

theorem painting_stroke (a : Attr) (h : begins "stroke" a = true) : Painting a := by
  match a, h with
  | .style b, h => simp [(begins_style b).1] at h
  | .plain (.known k) v, h =>
    simp only [begins, Bool.and_eq_true, Unknowns.startsWith, List.isPrefixOf_iff_prefix, Option.isNone_iff_eq_none] at h
    exact ⟨_, v, rfl, h.1, .inl h.2⟩
  | .plain (.other p l) v, h =>
    simp only [begins, Bool.and_eq_true, Unknowns.startsWith, List.isPrefixOf_iff_prefix, decide_eq_true_eq] at h
    exact ⟨_, v, rfl, h.1, .inl h.2⟩

theorem fill_prefix (l : Str) (h : lit "fill-" <+: l) : lit "fill" <+: l :=
  List.IsPrefix.trans (by decide) h

theorem painting_fill (a : Attr) (h : begins "fill-" a = true) : Painting a := by
  match a, h with
  | .style b, h => simp [(begins_style b).2] at h
  | .plain (.known k) v, h =>
    simp only [begins, Bool.and_eq_true, Unknowns.startsWith, List.isPrefixOf_iff_prefix, Option.isNone_iff_eq_none] at h
    exact ⟨_, v, rfl, h.1, .inr (fill_prefix _ h.2)⟩
  | .plain (.other p l) v, h =>
    simp only [begins, Bool.and_eq_true, Unknowns.startsWith, List.isPrefixOf_iff_prefix, decide_eq_true_eq] at h
    exact ⟨_, v, rfl, h.1, .inr (fill_prefix _ h.2)⟩

open Classical in
theorem unpainted_filter (s : String) (h : ∀ a, begins s a = true → Painting a) (as : List Attr) :
    (as.filter fun a => !begins s a).filter (fun a => decide (¬ Painting a)) = as.filter (fun a => decide (¬ Painting a)) := by
  rw [List.filter_filter]
  congr 1
  funext a
  cases hb : begins s a with
  | true => simp [h a hb]
  | false => simp

open Classical in
theorem unpainted_set (k : Key) (h : ∀ v, Painting (.plain (.known k) v)) (v : Val) (as : List Attr) :
    (set k v as).filter (fun a => decide (¬ Painting a)) = as.filter (fun a => decide (¬ Painting a)) := by
  induction as with
  | nil => simp [set, h]
  | cons a as ih =>
    match a with
    | .style b => simp only [set, List.filter_cons, ih]
    | .plain (.other p i) w => simp only [set, List.filter_cons, ih]
    | .plain (.known x) w =>
      simp only [set]
      split
      · next hx =>
        subst hx
        simp [h]
      · simp only [List.filter_cons, ih]

theorem painting_key : (∀ v, Painting (.plain (.known .Stroke) v)) ∧ ∀ v, Painting (.plain (.known .Fill) v) :=
  ⟨fun v => ⟨_, v, rfl, rfl, .inl (by decide)⟩, fun v => ⟨_, v, rfl, rfl, .inr (by decide)⟩⟩

open Classical in
theorem hook_others (o : Options) (anc : List E) (n : EName) (as as' : List Attr) (gone : Bool)
    (hh : hook o anc n as = some (as', gone)) :
    as'.filter (fun a => decide (¬ Painting a)) = as.filter (fun a => decide (¬ Painting a)) := by
  unfold hook at hh
  split at hh
  · rw [computed_eq] at hh
    simp only [Option.some.injEq, Prod.mk.injEq] at hh
    rw [← hh.1]
    have h1 : ∀ c as, (removeStroke o c as).1.filter (fun a => decide (¬ Painting a)) =
        as.filter (fun a => decide (¬ Painting a)) := by
      intro c as
      unfold removeStroke
      split
      · rfl
      · simp only
        split
        · rfl
        · split
          · split
            · simp only
              rw [unpainted_set .Stroke painting_key.1, unpainted_filter "stroke" painting_stroke]
            · exact unpainted_filter "stroke" painting_stroke as
          · rfl
    have h2 : ∀ c as, (removeFill o c as).1.filter (fun a => decide (¬ Painting a)) =
        as.filter (fun a => decide (¬ Painting a)) := by
      intro c as
      unfold removeFill
      split
      · rfl
      · simp only
        split
        · split
          · simp only
            rw [unpainted_set .Fill painting_key.2, unpainted_filter "fill-" painting_fill]
          · exact unpainted_filter "fill-" painting_fill as
        · rfl
    rw [h2, h1]
  · simp only [Option.some.injEq, Prod.mk.injEq] at hh
    rw [hh.1]

open Classical in
/-- **C55 (what is left alone).** Unless `removeNone` is given: no element goes away, all attributes stay but those without a prefix whose
name begins with `stroke` or `fill`, and all attributes of elements that are not shapes, have an id or are within an
element that has one stay. Documents with scripts or style sheets stay as they are. -/
theorem others_kept (o : Options) (ho : o.removeNone = false) (js : Val → Bool) (doc doc' : List (Node Attr))
    (hj : job o js doc = some doc') :
    List.Forall₂ (Along fun c c' => c'.map (·.1) = c.map (·.1) ∧ ∀ e cs, c = e :: cs → ∃ e' cs', c' = e' :: cs' ∧
      e'.2.filter (fun a => decide (¬ Painting a)) = e.2.filter (fun a => decide (¬ Painting a)) ∧
      ((¬ Shape e ∨ ∃ x ∈ c, HasId x) → e' = e))
      (content doc) (content doc') := by
  apply along_all o ho js doc doc' hj
  · intro c hc
    refine ⟨chain_names o c, ?_⟩
    rintro e cs rfl
    have hid : ∀ cs : List E, (∃ x ∈ cs, HasId x) → (chain o cs).2 = true := by
      intro cs
      induction cs with
      | nil => rintro ⟨x, hx, _⟩; simp at hx
      | cons y ys ih =>
        rintro ⟨x, hx, hxi⟩
        unfold chain
        simp only
        rw [if_pos]
        rcases List.mem_cons.mp hx with rfl | hx
        · rw [(hasId_iff x).mpr hxi]; simp
        · rw [ih ⟨x, hx, hxi⟩]; simp
    unfold chain
    simp only
    split
    · exact ⟨e, _, rfl, rfl, fun _ => rfl⟩
    · next hno =>
      obtain ⟨⟨as', gone⟩, hr⟩ := hook_some o (chain o cs).1 e.1 e.2
      rw [hr]
      refine ⟨_, _, rfl, hook_others o _ _ _ _ _ hr, ?_⟩
      rintro (h | ⟨x, hx, hxi⟩)
      · rw [← isShape_iff] at h
        simp only [Bool.not_eq_true] at h
        simp only [hook, h] at hr
        cases hr
        rfl
      · exfalso
        apply hno
        rcases List.mem_cons.mp hx with rfl | hx
        · rw [(hasId_iff x).mpr hxi]; simp
        · rw [hid cs ⟨x, hx, hxi⟩]; simp
  · intro c _
    refine ⟨rfl, ?_⟩
    rintro e cs rfl
    exact ⟨e, cs, rfl, rfl, fun _ => rfl⟩

mutual
theorem someElem_lines (p : EName → List Attr → List (Node Attr) → Bool) (n : EName) (as : List Attr) (ks : List (Node Attr))
    (hp : p n as ks = true) : ∀ (m : Node Attr) (anc l : List (Node Attr)), l ∈ m.lines anc →
      l.head? = some (.elem n as ks) → someElem p m = true
  | .elem n' as' ks', anc, l, hl, hh => by
    simp only [Node.lines, List.mem_cons] at hl
    simp only [someElem, Bool.or_eq_true]
    rcases hl with rfl | hl
    · simp only [List.head?_cons, Option.some.injEq, Node.elem.injEq] at hh
      obtain ⟨rfl, rfl, rfl⟩ := hh
      exact .inl hp
    · exact .inr (anyElem_lines p n as ks hp ks' _ _ hl hh)
  | .text s, anc, l, hl, hh => by simp only [Node.lines, List.mem_singleton] at hl; subst hl; simp at hh
  | .css s, anc, l, hl, hh => by simp only [Node.lines, List.mem_singleton] at hl; subst hl; simp at hh
  | .comment s, anc, l, hl, hh => by simp only [Node.lines, List.mem_singleton] at hl; subst hl; simp at hh
  | .pi t d, anc, l, hl, hh => by simp only [Node.lines, List.mem_singleton] at hl; subst hl; simp at hh
theorem anyElem_lines (p : EName → List Attr → List (Node Attr) → Bool) (n : EName) (as : List Attr) (ks : List (Node Attr))
    (hp : p n as ks = true) : ∀ (ms : List (Node Attr)) (anc l : List (Node Attr)), l ∈ Tree.linesAll anc ms →
      l.head? = some (.elem n as ks) → anyElem p ms = true
  | [], anc, l, hl, _ => by simp [Tree.linesAll] at hl
  | m :: ms, anc, l, hl, hh => by
    simp only [Tree.linesAll, List.mem_append] at hl
    simp only [anyElem, Bool.or_eq_true]
    exact hl.imp (fun h => someElem_lines p n as ks hp m anc l h hh) fun h => anyElem_lines p n as ks hp ms anc l h hh
end

mutual
theorem lines_someElem (p : EName → List Attr → List (Node Attr) → Bool) : ∀ (m : Node Attr) (anc : List (Node Attr)),
    someElem p m = true → ∃ n as ks r, .elem n as ks :: r ∈ m.lines anc ∧ p n as ks = true
  | .elem n' as' ks', anc, h => by
    simp only [someElem, Bool.or_eq_true] at h
    rcases h with h | h
    · exact ⟨n', as', ks', anc, by simp [Node.lines], h⟩
    · obtain ⟨n, as, ks, r, h1, h2⟩ := lines_anyElem p ks' (.elem n' as' ks' :: anc) h
      exact ⟨n, as, ks, r, by simp [Node.lines, h1], h2⟩
  | .text s, anc, h => by simp [someElem] at h
  | .css s, anc, h => by simp [someElem] at h
  | .comment s, anc, h => by simp [someElem] at h
  | .pi t d, anc, h => by simp [someElem] at h
theorem lines_anyElem (p : EName → List Attr → List (Node Attr) → Bool) : ∀ (ms : List (Node Attr)) (anc : List (Node Attr)),
    anyElem p ms = true → ∃ n as ks r, .elem n as ks :: r ∈ Tree.linesAll anc ms ∧ p n as ks = true
  | [], anc, h => by simp [anyElem] at h
  | m :: ms, anc, h => by
    simp only [anyElem, Bool.or_eq_true] at h
    simp only [Tree.linesAll, List.mem_append]
    rcases h with h | h
    · obtain ⟨n, as, ks, r, h1, h2⟩ := lines_someElem p m anc h
      exact ⟨n, as, ks, r, .inl h1, h2⟩
    · obtain ⟨n, as, ks, r, h1, h2⟩ := lines_anyElem p ms anc h
      exact ⟨n, as, ks, r, .inr h1, h2⟩
end

theorem live_iff (js : Val → Bool) (doc : List (Node Attr)) :
    (hasScript js doc || hasSheet doc) = true ↔ ∃ n as ks, Tree.Occurs doc (.elem n as ks) ∧ Live js n as ks := by
  rw [Bool.or_eq_true]
  constructor
  · rintro (h | h)
    · obtain ⟨n, as, ks, r, h1, h2⟩ := lines_anyElem _ doc [] h
      refine ⟨n, as, ks, ⟨r, h1⟩, ?_⟩
      rw [Bool.or_eq_true, List.any_eq_true] at h2
      rcases h2 with h2 | ⟨a, ha, h2⟩
      · exact .inr (.inl h2)
      · split at h2
        · next v =>
          rw [Bool.and_eq_true] at h2
          exact .inr (.inr (.inr ⟨h2.1, _, ha, h2.2⟩))
        · next k v hk =>
          rw [List.any_eq_true] at h2
          obtain ⟨g, hg, hge⟩ := h2
          refine .inr (.inr (.inl ⟨k, v, ha, ?_, g, of_decide_eq_true hge, hg⟩))
          rintro rfl
          exact hk rfl
        · simp at h2
    · obtain ⟨n, as, ks, r, h1, h2⟩ := lines_anyElem _ doc [] h
      refine ⟨n, as, ks, ⟨r, h1⟩, .inl ?_⟩
      split at h2
      · exact ⟨_, _, rfl⟩
      · simp at h2
  · rintro ⟨n, as, ks, ⟨anc, hanc⟩, hs⟩
    have hany : ∀ p : EName → List Attr → List (Node Attr) → Bool, p n as ks = true → anyElem p doc = true :=
      fun p hp => anyElem_lines p n as ks hp doc [] _ hanc rfl
    rcases hs with ⟨s, r, rfl⟩ | h | ⟨k, v, hv, hk, g, hg, hgk⟩ | ⟨ha, v, hv, hjs⟩
    · exact .inr (hany _ rfl)
    · exact .inl (hany _ (by simp [h]))
    · refine .inl (hany _ ?_)
      rw [Bool.or_eq_true, List.any_eq_true]
      refine .inr ⟨_, hv, ?_⟩
      have : k.groups.any (· ∈ events) = true := by
        rw [List.any_eq_true]
        exact ⟨g, hgk, decide_eq_true hg⟩
      split
      · next heq => cases heq; exact absurd rfl hk
      · next heq => cases heq; exact this
      · next h => exact absurd rfl (h _ _)
    · refine .inl (hany _ ?_)
      rw [Bool.or_eq_true, List.any_eq_true]
      exact .inr ⟨_, hv, by simp [ha, hjs]⟩

/-- **C55 (nothing to do).** Documents with a style sheet or a script are left alone. -/
theorem skips (o : Options) (js : Val → Bool) (doc : List (Node Attr))
    (h : ∃ n as ks, Tree.Occurs doc (.elem n as ks) ∧ Live js n as ks) : job o js doc = some doc := by
  unfold job
  rw [if_pos ((live_iff js doc).mpr h)]

/-- **C55 (useless strokes and fills go).** On a shape that is not within another, has no id and is not within an element with one, and
around which no `style`, no `marker-end` and no value `inherit` is used: if the stroke is not drawn, all attributes of the
stroke go but for `stroke="none"`, and if the fill is not drawn, all attributes of the fill but `fill` itself go. -/
theorem useless_gone (o : Options) (ho : o.removeNone = false) (js : Val → Bool) (doc doc' : List (Node Attr)) (hw : Wellformed doc)
    (hj : job o js doc = some doc') 
    (hrun : ∀ n as ks, Tree.Occurs doc (.elem n as ks) → ¬ Live js n as ks) :
    List.Forall₂ (Along fun c c' => ∀ e cs, c = e :: cs → Shape e → (∀ x ∈ cs, ¬ Shape x) → (∀ x ∈ c, ¬ HasId x) →
      (∀ x ∈ c, ∀ a ∈ x.2, (∃ i v, a = .plain i v ∧ i ≠ .known .MarkerEnd ∧ v ≠ .inherit)) →
      ∃ as', c' = (e.1, as') :: cs ∧
        (o.stroke = true → strokeOf c = none → ∀ k v, .plain (.known k) v ∈ as' → k ∈ strokeKeys →
          k = .Stroke ∧ v = word "none") ∧
        (o.fill = true → fillOf c = none → ∀ k v, .plain (.known k) v ∈ as' → k ≠ .FillOpacity ∧ k ≠ .FillRule))
      (content doc) (content doc') := by
  have hv : visitAll o false [] doc = some doc' := by
    unfold job at hj
    rw [if_neg] at hj
    · exact hj
    · rw [live_iff]
      rintro ⟨n, as, ks, h1, h2⟩
      exact hrun n as ks h1 h2
  rw [content_visit o doc doc' hv]
  have hst : (content doc).filter (stays o) = content doc := by
    rw [List.filter_eq_self]
    intro i _
    cases i <;> simp [stays, goneChain_false o ho]
  rw [hst, List.forall₂_map_right_iff, List.forall₂_same]
  intro i hi
  match i, hi with
  | .leaf a n, _ => exact ⟨chain_names o a, rfl⟩
  | .elem c, hc =>
    rintro e cs rfl hse hsh hid hplain
    have hp := chain_plain o cs hsh
    have hnoid : ((chain o cs).2 || e.2.any isId) = false := by
      have h1 : ∀ cs : List E, (∀ x ∈ cs, ¬ HasId x) → (chain o cs).2 = false := by
        intro cs
        induction cs with
        | nil => intro _; rfl
        | cons y ys ih =>
          intro h
          have hy := h y (by simp)
          rw [← hasId_iff] at hy
          unfold chain
          simp only
          rw [ih fun x hx => h x (by simp [hx]), if_neg (by simpa using hy)]
          obtain ⟨⟨as', gone⟩, hr⟩ := hook_some o (chain o ys).1 y.1 y.2
          rw [hr]
      rw [h1 cs fun x hx => hid x (by simp [hx])]
      have := hid e (by simp)
      rw [← hasId_iff] at this
      simpa using this
    have hnd : ∀ x ∈ cs, (x.2.map idOf).Nodup := by
      intro x hx
      obtain ⟨ys, hys⟩ := Retain.content_ancestor doc (e :: cs) hc x (by simp [hx])
      exact hw x ys hys
    have hsil : ∀ k, Silent k e := by
      intro k b hb
      obtain ⟨i, v, h, _⟩ := hplain e (by simp) _ hb
      simp at h
    have hnostyle : ∀ x ∈ e :: cs, x.2.findSome? inlineBlock = none := by
      intro x hx
      rw [List.findSome?_eq_none_iff]
      intro a ha
      obtain ⟨i, v, rfl, _⟩ := hplain x hx a ha
      rfl
    have hdec : ∀ x ∈ e :: cs, ∀ k v, declared x k = some v → .plain (.known k) v ∈ x.2 := by
      intro x hx k v h
      unfold declared at h
      rw [hnostyle x hx] at h
      simp only [Option.getD_none, List.flatMap_nil, lastOf, List.filter_nil, List.map_nil, List.getLast?_nil,
        Option.none_or, Option.map_eq_some_iff] at h
      obtain ⟨d, hd, rfl⟩ := h
      have h1 := List.mem_of_find?_eq_some hd
      have h2 := List.find?_some hd
      simp only [decide_eq_true_eq] at h2
      obtain ⟨a, ha, hpa⟩ := List.mem_filterMap.mp h1
      match a, ha, hpa with
      | .plain (.known l) w, ha, hpa =>
        simp only [property] at hpa
        split at hpa
        · cases hpa
          simp only at h2
          subst h2
          exact ha
        · simp at hpa
    have hnear : ∀ k v, nearest k (e :: cs) = some v → v ≠ .inherit ∧ k ≠ .MarkerEnd := by
      intro k v
      have : ∀ l : List E, (∀ x ∈ l, x ∈ e :: cs) → nearest k l = some v → v ≠ .inherit ∧ k ≠ .MarkerEnd := by
        intro l
        induction l with
        | nil => intro _ h; simp [nearest] at h
        | cons y ys ih =>
          intro hl h
          unfold nearest at h
          cases hd : declared y k with
          | some w =>
            rw [hd] at h
            simp only [Option.some_or, Option.some.injEq] at h
            subst h
            obtain ⟨i, u, hiu, h1, h2⟩ := hplain y (hl y (by simp)) _ (hdec y (hl y (by simp)) k w hd)
            cases hiu
            exact ⟨h2, fun hk => h1 (by rw [hk])⟩
          | none =>
            rw [hd] at h
            exact ih (fun x hx => hl x (by simp [hx])) (by simpa using h)
      exact this _ fun x hx => hx
    have hval : ∀ k ∈ fillKeys ++ strokeKeys, (nearest k (e :: cs) = none ∧ value k (e :: cs) = initial k) ∨
        nearest k (e :: cs) = some (value k (e :: cs)) := by
      intro k hk
      cases h : nearest k (e :: cs) with
      | none => exact .inl ⟨rfl, value_none _ _ h⟩
      | some v =>
        right
        have hki : ∀ k ∈ fillKeys ++ strokeKeys, k ∈ inheritedProperties := by decide
        rw [value_nearest k (hki k hk) v (hnear k v h).1 _ h]
    have hmark : ∀ c, computed e cs = some c → style c .MarkerEnd = none := by
      intro c hcc
      rw [computed_eq] at hcc
      cases hcc
      have hinh : inh cs .MarkerEnd = none := by
        have : ∀ l : List E, (∀ x ∈ l, x ∈ e :: cs) → inh l .MarkerEnd = none := by
          intro l
          induction l with
          | nil => intro _; rfl
          | cons y ys ih =>
            intro hl
            have hb := hnostyle y (hl y (by simp))
            have ha : lastOf .MarkerEnd (y.2.filterMap property) = none := by
              apply lastOf_silent
              intro d hd hk
              obtain ⟨a, ha, hpa⟩ := List.mem_filterMap.mp hd
              obtain ⟨i, v, rfl, h1, _⟩ := hplain y (hl y (by simp)) a ha
              have := property_id _ d hpa
              simp only [idOf, Option.some.injEq] at this
              exact h1 (by rw [this, hk])
            simp only [inh, Cascade.takeOver, Computed.empty, Cascade.extendMap, extendList_eq, Unknowns.presented_eq, blockOf_eq,
              hb, ha, ih fun x hx => hl x (by simp [hx])]
            simp [lastOf]
        exact this cs fun x hx => by simp [hx]
      have hfirst : Cascade.findFirst (e.2.filterMap presented) .MarkerEnd = none := by
        unfold Cascade.findFirst
        rw [Unknowns.presented_eq, List.find?_eq_none.mpr]
        · rfl
        · intro d hd hk
          simp only [decide_eq_true_eq] at hk
          obtain ⟨a, ha, hpa⟩ := List.mem_filterMap.mp hd
          obtain ⟨i, v, rfl, h1, _⟩ := hplain e (by simp) a ha
          have := property_id _ d hpa
          simp only [idOf, Option.some.injEq] at this
          exact h1 (by rw [this, hk])
      have hb := hnostyle e (by simp)
      unfold style Cascade.get Cascade.getHigh getInherited
      simp only [hfirst, hinh, blockOf_eq, hb]
      simp
    have hcl : ∀ c, computed e cs = some c → Clear e.1 e.2 cs c := fun c h => ⟨h, hnd, fun k _ => hsil k⟩
    have hshape : isShape e.1 = true := (isShape_iff e).mpr hse
    obtain ⟨⟨as', gone⟩, hr⟩ := hook_some o cs e.1 e.2
    have hc' : (chain o (e :: cs)).1 = (e.1, as') :: cs := by
      unfold chain
      simp only
      rw [hnoid, hp, hr]
      rfl
    refine ⟨as', hc', ?_, ?_⟩
    · intro hos hnone k v hkv hks
      unfold hook at hr
      rw [if_pos hshape] at hr
      obtain ⟨cst, hcst⟩ : ∃ c, computed e cs = some c := ⟨_, computed_eq e cs⟩
      rw [show (e.1, e.2) = e from rfl, hcst] at hr
      simp only [Option.some.injEq, Prod.mk.injEq] at hr
      have hC := hcl cst hcst
      have hinv : (strokeNone cst || statically zeroAlpha (style cst .StrokeOpacity) ||
          statically zeroLength (style cst .StrokeWidth)) = true := by
        rw [strokeOf_none] at hnone
        simp only [Bool.or_eq_true, or_assoc]
        rcases hnone with h | h | h
        · left
          unfold strokeNone strokeEqNone
          rw [hC.style .Stroke (by decide)]
          rcases hval .Stroke (by decide) with ⟨h1, _⟩ | h1
          · rw [show nearest .Stroke ((e.1, e.2) :: cs) = none from h1]
            rfl
          · rw [show nearest .Stroke ((e.1, e.2) :: cs) = some _ from h1, h]
            rfl
        · right; left
          rw [hC.style .StrokeOpacity (by decide), statically_map]
          rcases hval .StrokeOpacity (by decide) with ⟨_, h1⟩ | h1
          · rw [h] at h1
            exact absurd h1 (by decide +kernel)
          · exact ⟨_, h1, by rw [h]; rfl⟩
        · right; right
          rw [hC.style .StrokeWidth (by decide), statically_map]
          rcases hval .StrokeWidth (by decide) with ⟨_, h1⟩ | h1
          · have hz := of_zero _ h
            rw [h1] at hz
            exact absurd hz (by decide +kernel)
          · exact ⟨_, h1, of_zero _ h⟩
      have hs1 : (removeStroke o cst e.2).1 = (if statically (fun v => !isNone v) (getInherited Key.inheritable cst .Stroke)
          then set .Stroke noPaint (e.2.filter fun a => !begins "stroke" a) else e.2.filter fun a => !begins "stroke" a) := by
        unfold removeStroke
        rw [if_neg (by simp [hos])]
        simp only
        rw [if_neg (by simp [hmark cst hcst]), if_pos hinv]
        split <;> rfl
      have hmem : ∀ c as, .plain (.known k) v ∈ (removeFill o c as).1 → .plain (.known k) v ∈ as := by
        intro c as hm
        unfold removeFill at hm
        have hk : k ≠ .Fill := by
          rintro rfl
          exact absurd hks (by decide)
        split at hm
        · exact hm
        · simp only at hm
          split at hm
          · split at hm
            · rcases mem_set _ _ _ _ hm with h | h
              · cases h; exact absurd rfl hk
              · exact List.mem_of_mem_filter h
            · exact List.mem_of_mem_filter hm
          · exact hm
      rw [← hr.1] at hkv
      have hkv := hmem _ _ hkv
      rw [hs1] at hkv
      have hf : .plain (.known k) v ∉ e.2.filter fun a => !begins "stroke" a := by
        rw [List.mem_filter]
        rintro ⟨_, h⟩
        rw [begins_stroke k (stroke_not_fill k hks).2] at h
        simp [hks] at h
      split at hkv
      · rcases mem_set _ _ _ _ hkv with h | h
        · cases h; exact ⟨rfl, rfl⟩
        · exact absurd h hf
      · exact absurd hkv hf
    · intro hof hnone k v hkv
      unfold hook at hr
      rw [if_pos hshape] at hr
      obtain ⟨cst, hcst⟩ : ∃ c, computed e cs = some c := ⟨_, computed_eq e cs⟩
      rw [show (e.1, e.2) = e from rfl, hcst] at hr
      simp only [Option.some.injEq, Prod.mk.injEq] at hr
      have hC := hcl cst hcst
      have hinv : (statically isNone (style cst .Fill) || statically zeroAlpha (style cst .FillOpacity)) = true := by
        rw [fillOf_none] at hnone
        simp only [Bool.or_eq_true]
        rcases hnone with h | h
        · left
          rw [hC.style .Fill (by decide), statically_map]
          rcases hval .Fill (by decide) with ⟨_, h1⟩ | h1
          · rw [h] at h1
            exact absurd h1 (by decide +kernel)
          · exact ⟨_, h1, by rw [h]; rfl⟩
        · right
          rw [hC.style .FillOpacity (by decide), statically_map]
          rcases hval .FillOpacity (by decide) with ⟨_, h1⟩ | h1
          · rw [h] at h1
            exact absurd h1 (by decide +kernel)
          · exact ⟨_, h1, by rw [h]; rfl⟩
      have hf : .plain (.known k) v ∈ (removeStroke o cst e.2).1.filter (fun a => !begins "fill-" a) ∨ k = .Fill := by
        rw [← hr.1] at hkv
        unfold removeFill at hkv
        rw [if_neg (by simp [hof])] at hkv
        simp only at hkv
        rw [if_pos hinv] at hkv
        split at hkv
        · rcases mem_set _ _ _ _ hkv with h | h
          · cases h; exact .inr rfl
          · exact .inl h
        · exact .inl hkv
      rcases hf with hf | rfl
      · have := (List.mem_filter.mp hf).2
        constructor
        · rintro rfl
          rw [begins_fill .FillOpacity (by decide)] at this
          simp at this
        · rintro rfl
          rw [begins_fill .FillRule (by decide)] at this
          simp at this
      · exact ⟨fun h => Key.noConfusion h, fun h => Key.noConfusion h⟩

end Verif.Unpainted
