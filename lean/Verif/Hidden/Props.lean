import Verif.Hidden.Lemmas
import Verif.Unpainted.Props

/-!
# Removing hidden elements
-/

namespace Verif.Hidden

open Verif.Tree Verif.Names
open Verif.Unknowns (Key Val Attr AId E Item word content items itemsAll)
open Verif.Cascade (Mode)

variable {o : Options} {rd : Reading} {st : List (Node Attr) → Styles} {order : List Nat → Nat} {doc doc' : List (Node Attr)}

/-- The parts of the job. -/
theorem job_parts (h : job o rd st order doc = .ok doc') : ∃ ms g l ms' g' l',
    sweepAll rd (dataHook o rd (st doc)) [] false 0 (markedAll doc) = .ok (ms, g, l) ∧
    sweepAll rd (stateHook o rd (st (plainAll ms)) l.uses) [] false 0 ms = .ok (ms', g', l') ∧
    doc' = stripAll rd.white order [] 0 (clearAll rd (l.removed ++ l'.removed) l'.seen
      (Unpainted.hasScript rd.javascript doc || Unpainted.hasSheet (plainAll ms)) ms') := by
  unfold job at h
  split at h
  · simp at h
  · next ms g l h1 =>
    split at h
    · simp at h
    · next ms' g' l' h2 =>
      simp only [Except.ok.injEq] at h
      exact ⟨ms, g, l, ms', g', l', h1, h2, h.symm⟩

/-! ## The hooks -/

theorem links_uses (n : EName) (hn : n.is "use" = true) : ∀ (as bs : List Attr) (us : List (List Char)), links rd as = .ok us →
    (∀ a ∈ as, a ∈ bs) → ∀ i ∈ us, Uses rd (n, bs) i := by
  intro as bs
  induction as with
  | nil => intro us h _ i hi; simp only [links, Except.ok.injEq] at h; subst h; simp at hi
  | cons a as ih =>
    intro us h hb i hi
    have hb' : ∀ x ∈ as, x ∈ bs := fun x hx => hb x (List.mem_cons_of_mem _ hx)
    unfold links at h
    split at h
    · next heq => simp at heq
    · next k v as' heq =>
      obtain ⟨rfl, rfl⟩ : a = .plain (.known k) v ∧ as = as' := by simpa using heq
      split at h
      · next hk =>
        split at h
        · next j js hj hjs =>
          simp only [Except.ok.injEq] at h
          subst h
          rcases List.mem_cons.mp hi with rfl | hi
          · cases ht : rd.text v with
            | nil => simp [ht, behind] at hj
            | cons x r =>
              have : r = i := by
                simp only [ht, behind] at hj
                split at hj
                · simpa using hj
                · simp at hj
              subst this
              exact ⟨hn, k, v, x, hk, hb _ (by simp), ht⟩
          · exact ih js hjs hb' i hi
        · simp at h
        · simp at h
      · exact ih us h hb' i hi
    · next heq =>
      obtain ⟨rfl, rfl⟩ := List.cons.inj heq
      exact ih us h hb' i hi

theorem links_ok (as : List Attr) (h : ∀ k v, (k = .Href ∨ k = .XLinkHref) → Attr.plain (.known k) v ∈ as →
    ∃ x i, rd.text v = x :: i ∧ x.val < 128) : ∃ us, links rd as = .ok us := by
  induction as with
  | nil => exact ⟨_, rfl⟩
  | cons a as ih =>
    obtain ⟨us, hus⟩ := ih fun k v hk hm => h k v hk (List.mem_cons_of_mem _ hm)
    unfold links
    split
    · exact ⟨_, rfl⟩
    · next k v as' heq =>
      obtain ⟨rfl, rfl⟩ := List.cons.inj heq
      split
      · next hk =>
        obtain ⟨x, i, ht, hx⟩ := h k v hk (by simp)
        rw [ht, hus]
        simp [behind, hx]
      · exact ⟨_, hus⟩
    · next heq =>
      obtain ⟨rfl, rfl⟩ := List.cons.inj heq
      exact ⟨_, hus⟩

/-- The first hook, in cases. -/
theorem data_cases (s1 : Styles) (anc : List E) (n : EName) (as : List Attr) (k : Mark) (ks : List Marked) (v : Verdict)
    (h : dataHook o rd s1 anc n as k ks = .ok v) :
    (nonRendering n = true ∧ v = { mark := { k with non := true }, skip := true }) ∨
    (nonRendering n = false ∧ ∃ s, s1 ((n, as) :: anc) = some s ∧ (∀ i ∈ v.uses, Uses rd (n, as) i) ∧ v.mark.uses = v.uses ∧
      v.mark.defs = n.is "defs" ∧ v.seen = [] ∧ v.direct = false ∧
      v.gone = (o.opacityZero && holds s .Opacity (.parts [.num 0]) && !n.is "path") ∧
      v.skip = (o.opacityZero && holds s .Opacity (.parts [.num 0]) && n.is "path") ∧
      v.mark.non = (k.non || v.skip)) := by
  unfold dataHook at h
  split at h
  · next hn =>
    simp only [Except.ok.injEq] at h
    exact .inl ⟨hn, h.symm⟩
  · next hn =>
    right
    refine ⟨by simpa using hn, ?_⟩
    split at h
    · simp at h
    · next us hus =>
      have hU : ∀ i ∈ us, Uses rd (n, as) i := by
        split at hus
        · next hu => exact links_uses n hu as as us hus (fun _ h => h)
        · simp only [Except.ok.injEq] at hus
          subst hus
          simp
      split at h
      · simp at h
      · next s hs =>
        refine ⟨s, hs, ?_⟩
        simp only at h
        split at h
        · next hz =>
          split at h
          · next hp =>
            simp only [Except.ok.injEq] at h
            subst h
            simp [hz, hp]
            exact hU
          · next hp =>
            simp only [Except.ok.injEq] at h
            subst h
            simp [hz, hp]
            exact hU
        · next hz =>
          simp only [Except.ok.injEq] at h
          subst h
          simp only [Bool.not_eq_true] at hz
          simp [hz]
          exact hU

/-- The second hook, in parts. -/
theorem state_parts (s2 : Styles) (uses : List (List Char)) (anc : List E) (n : EName) (as : List Attr) (k : Mark) (ks : List Marked)
    (v : Verdict) (h : stateHook o rd s2 uses anc n as k ks = .ok v) : ∃ s, s2 ((n, as) :: anc) = some s ∧ v.mark = k ∧ v.uses = [] ∧
    v.skip = (styleHides o s n ks && isUsed rd uses as) ∧
    v.gone = ((styleHides o s n ks && !isUsed rd uses as && !below (isUsed rd uses) ks) || hiddenCircle o rd n as ks ||
      hiddenEllipse o n as || hiddenRect o rd n as ks || hiddenPattern o n as || hiddenImage o n as || hiddenPath o rd s n as ||
      hiddenPoly o n as) ∧
    v.seen = (if v.gone then [] else (as.filter notId).flatMap rd.refs) ∧ (v.direct = true → hiddenCircle o rd n as ks = true) := by
  unfold stateHook at h
  split at h
  · simp at h
  · next s hs =>
    refine ⟨s, hs, ?_⟩
    simp only [Except.ok.injEq] at h
    subst h
    refine ⟨rfl, rfl, ?_, ?_, rfl, ?_⟩
    · simp only [hiddenStyle]
      by_cases h1 : styleHides o s n ks = true
      · by_cases h2 : isUsed rd uses as = true <;> simp [h1, h2]
      · simp [h1]
    · simp only [hiddenStyle]
      by_cases h1 : styleHides o s n ks = true
      · by_cases h2 : isUsed rd uses as = true
        · simp [h1, h2]
        · by_cases h3 : below (isUsed rd uses) ks = true <;> simp [h1, h2, h3]
      · simp [h1]
    · simp only [Bool.and_eq_true]
      exact fun h => h.2

/-! ## What is removed is not seen -/

theorem zeroPx_null (v : Val) (h : zeroPx v = true) : v = .parts [.num 0] ∨ v = .parts [.px 0] ∨ ∃ u, v = .parts [.dim 0 u] := by
  unfold zeroPx at h
  split at h
  · simp only [decide_eq_true_eq] at h; subst h; exact .inl rfl
  · simp only [decide_eq_true_eq] at h; subst h; exact .inr (.inl rfl)
  · simp only [Bool.and_eq_true, decide_eq_true_eq] at h
    obtain ⟨rfl, _⟩ := h
    exact .inr (.inr ⟨_, rfl⟩)
  · simp at h

theorem zero_null (k : Key) (n : EName) (as : List Attr) (h : zero k as = true) : Null k (n, as) := by
  unfold zero at h
  cases hv : attr k as with
  | none => simp [hv] at h
  | some v =>
    simp only [hv, Option.any_some] at h
    exact ⟨v, hv, zeroPx_null v h⟩

theorem holds_iff (s : Key → Option (Val × Mode)) (k : Key) (v : Val) : holds s k v = true ↔ s k = some (v, .static) := by
  simp [holds]

/-- Why the second pass removes something. -/
theorem state_gone (css : Css) (s2 : Styles) (hR : Right css doc s2) (uses : List (List Char)) (anc : List E) (n : EName) (as : List Attr)
    (k : Mark) (ks : List Marked) (v : Verdict) (h : stateHook o rd s2 uses anc n as k ks = .ok v) (hg : v.gone = true)
    (hIn : In doc ((n, as) :: anc)) :
    (∃ s, s2 ((n, as) :: anc) = some s ∧ styleHides o s n ks = true ∧ isUsed rd uses as = false ∧
      below (isUsed rd uses) ks = false) ∨
    Flat rd (n, as) ∨ Dot css rd (n, as) anc ∨ Void (n, as) := by
  obtain ⟨s, hs, _, _, _, hgone, _, _⟩ := state_parts s2 uses anc n as k ks v h
  rw [hgone] at hg
  simp only [Bool.or_eq_true] at hg
  rcases hg with ((((((hg | hg) | hg) | hg) | hg) | hg) | hg) | hg
  · simp only [Bool.and_eq_true, Bool.not_eq_true'] at hg
    exact .inl ⟨s, hs, hg.1.1, hg.1.2, hg.2⟩
  · simp only [hiddenCircle, Bool.and_eq_true] at hg
    exact .inr (.inl (.inl ⟨hg.1.1.1, zero_null _ _ _ hg.2⟩))
  · simp only [hiddenEllipse, Bool.and_eq_true, Bool.or_eq_true] at hg
    exact .inr (.inl (.inr (.inl ⟨hg.1, hg.2.imp (fun x => zero_null _ _ _ x.2) fun x => zero_null _ _ _ x.2⟩)))
  · simp only [hiddenRect, Bool.and_eq_true, Bool.or_eq_true] at hg
    exact .inr (.inl (.inr (.inr (.inl ⟨hg.1.1, hg.2.imp (fun x => zero_null _ _ _ x.2) fun x => zero_null _ _ _ x.2⟩))))
  · simp only [hiddenPattern, Bool.and_eq_true, Bool.or_eq_true] at hg
    exact .inr (.inr (.inr ⟨hg.1, hg.2.imp (fun x => zero_null _ _ _ x.2) fun x => zero_null _ _ _ x.2⟩))
  · simp only [hiddenImage, Bool.and_eq_true, Bool.or_eq_true] at hg
    exact .inr (.inl (.inr (.inr (.inr (.inl
      ⟨hg.1, hg.2.imp (fun x => zero_null _ _ _ x.2) fun x => zero_null _ _ _ x.2⟩)))))
  · simp only [hiddenPath, Bool.and_eq_true] at hg
    obtain ⟨⟨_, hp⟩, hd⟩ := hg
    right
    cases hv : attr .D as with
    | none => exact .inl (.inr (.inr (.inr (.inr (.inl ⟨hp, fun d hd => by simp [hv] at hd⟩)))))
    | some d =>
      simp only [hv, Bool.or_eq_true, Bool.and_eq_true, beq_iff_eq] at hd
      rcases hd with hd | ⟨⟨hd, h1⟩, h2⟩
      · refine .inl (.inr (.inr (.inr (.inr (.inl ⟨hp, fun d' hd' => ?_⟩)))))
        simp only [hv, Option.some.injEq] at hd'
        rw [← hd', hd]
      · have hm := hR.markers _ s hIn hs
        exact .inr (.inl ⟨hp, d, hv, hd, hm.1 (Option.isNone_iff_eq_none.mp h1), hm.2 (Option.isNone_iff_eq_none.mp h2)⟩)
  · simp only [hiddenPoly, Bool.and_eq_true, Bool.or_eq_true, Option.isNone_iff_eq_none] at hg
    refine .inr (.inl (.inr (.inr (.inr (.inr (.inr ?_))))))
    rcases hg with hg | hg
    · exact ⟨.inl hg.1.2, hg.2⟩
    · exact ⟨.inr hg.1.2, hg.2⟩

/-- Within something hidden nothing is visible unless it says so. -/
theorem not_visible (css : Css) (hB : ByAttribute css doc) (anc : List E) (n : EName) (as : List Attr) (k : Mark) (ks : List Marked)
    (hS : ∀ i ∈ all anc (.elem n as k ks), i ∈ content doc) (hv : css ((n, as) :: anc) .Visibility = word "hidden")
    (hb : below showsUp ks = false) : ∀ i ∈ all anc (.elem n as k ks), css (chainOf i) .Visibility ≠ word "visible" := by
  have hself : css ((n, as) :: anc) .Visibility ≠ word "visible" := by
    rw [hv]; decide
  have hno : ∀ e cs, .elem (e :: cs) ∈ allAll ((n, as) :: anc) ks → showsUp e.2 = false := by
    intro e cs hm
    by_contra hc
    have : below showsUp ks = true := (below_all showsUp ks ((n, as) :: anc)).mpr ⟨e, cs, hm, by simpa using hc⟩
    rw [this] at hb
    simp at hb
  have helem : ∀ c, .elem c ∈ allAll ((n, as) :: anc) ks → css c .Visibility ≠ word "visible" := by
    intro c
    induction c with
    | nil =>
      intro hm
      have := allAll_suffix _ ks _ hm
      simp [chainOf] at this
    | cons e cs ih =>
      intro hm
      have hIn : In doc (e :: cs) := hS _ (by simp [all, hm])
      have hse := hno e cs hm
      simp only [showsUp, Bool.or_eq_false_iff, beq_eq_false_iff_ne, ne_eq] at hse
      have hcs : css cs .Visibility ≠ word "visible" := by
        rcases allAll_parent ks _ e cs hm with rfl | h
        · exact hself
        · exact ih h
      rw [hB e cs hIn]
      cases hat : attr .Visibility e.2 with
      | none => exact hcs
      | some v =>
        cases v with
        | inherit => exact hcs
        | parts ps =>
          intro hv
          exact hse.1 (by rw [hat]; exact congrArg some hv)
  intro i hi
  simp only [all, List.mem_cons] at hi
  rcases hi with rfl | hi
  · exact hself
  · cases i with
    | elem c => exact helem c hi
    | leaf c l =>
      rcases allAll_leaf ks _ c l hi with rfl | h
      · exact hself
      · exact helem c h

theorem style_gone (css : Css) (s2 : Styles) (hR : Right css doc s2) (hB : ByAttribute css doc) (anc : List E) (n : EName) (as : List Attr)
    (k : Mark) (ks : List Marked) (hS : ∀ i ∈ all anc (.elem n as k ks), i ∈ content doc) (s : Key → Option (Val × Mode))
    (hs : s2 ((n, as) :: anc) = some s) (hh : styleHides o s n ks = true) :
    Hides css ((n, as) :: anc) ∨ ∀ i ∈ all anc (.elem n as k ks), css (chainOf i) .Visibility ≠ word "visible" := by
  simp only [styleHides, Bool.or_eq_true, Bool.and_eq_true, Bool.not_eq_true'] at hh
  rcases hh with ⟨⟨_, hv⟩, hb⟩ | ⟨⟨_, hd⟩, _⟩
  · rw [holds_iff] at hv
    exact .inr (not_visible css hB anc n as k ks hS (hR.visibility _ s (hS _ (by simp [all])) hs hv) hb)
  · left
    cases hx : s .Display with
    | none => simp [hx] at hd
    | some x =>
      obtain ⟨w, m⟩ := x
      simp only [hx, Option.any_some, beq_iff_eq] at hd
      subst hd
      exact .inl (hR.display _ s m (hS _ (by simp [all])) hs hx)

theorem nonRendering_unrendered (n : EName) (as : List Attr) (h : nonRendering n = true) : Unrendered (n, as) := by
  simp only [nonRendering, Bool.and_eq_true, Empty.among, List.any_eq_true] at h
  obtain ⟨_, s, hs, hn⟩ := h
  refine ⟨s, ?_, hn⟩
  simp only [Empty.nonRendering, List.mem_cons, List.not_mem_nil, or_false] at hs
  simp only [List.mem_cons, List.not_mem_nil, or_false]
  tauto

/-- The marks after the first pass. -/
def Marking (css : Css) (rd : Reading) (anc : List E) (n : EName) (as : List Attr) (k : Mark) : Prop :=
  (k.defs = true → n.is "defs" = true) ∧ (∀ i ∈ k.uses, Uses rd (n, as) i) ∧
  (k.non = true → nonRendering n = true ∨ (n.is "path" = true ∧ css ((n, as) :: anc) .Opacity = .parts [.num 0]))

/-- All that the first pass leaves is part of the document. -/
theorem first_in (css : Css) {ms : List Marked} {g : Bool} {l : Log}
    (h1 : sweepAll rd (dataHook o rd (st doc)) [] false 0 (markedAll doc) = .ok (ms, g, l)) :
    ∀ i ∈ allAll [] ms, i ∈ content doc := by
  intro i hi
  rw [content_marked]
  exact (sweepAll_sublist rd _ _ _ _ _ _ _ _ h1).subset hi

theorem second_in {ms ms' : List Marked} {g g' : Bool} {l l' : Log}
    (h1 : sweepAll rd (dataHook o rd (st doc)) [] false 0 (markedAll doc) = .ok (ms, g, l)) {s2 : Styles} {u : List (List Char)}
    (h2 : sweepAll rd (stateHook o rd s2 u) [] false 0 ms = .ok (ms', g', l')) :
    ∀ i ∈ allAll [] ms', i ∈ content doc := by
  intro i hi
  rw [content_marked]
  exact (sweepAll_sublist rd _ _ _ _ _ _ _ _ h1).subset ((sweepAll_sublist rd _ _ _ _ _ _ _ _ h2).subset hi)

theorem data_gone (css : Css) (s1 : Styles) (hR : Right css doc s1) (anc : List E) (n : EName) (as : List Attr) (k : Mark)
    (ks : List Marked) (v : Verdict) (h : dataHook o rd s1 anc n as k ks = .ok v) (hg : v.gone = true ∨ v.skip = true ∧ nonRendering n = false)
    (hIn : In doc ((n, as) :: anc)) :
    css ((n, as) :: anc) .Opacity = .parts [.num 0] := by
  rcases data_cases s1 anc n as k ks v h with ⟨hn, rfl⟩ | ⟨_, s, hs, _, _, _, _, _, h1, h2, _⟩
  · simp [hn] at hg
  · have : holds s .Opacity (.parts [.num 0]) = true := by
      rcases hg with hg | ⟨hg, _⟩
      · rw [h1] at hg
        simp only [Bool.and_eq_true] at hg
        exact hg.1.2
      · rw [h2] at hg
        simp only [Bool.and_eq_true] at hg
        exact hg.1.2
    exact hR.opacity _ s hIn hs ((holds_iff _ _ _).mp this)

theorem first_marks (css : Css) (s1 : Styles) (hR : Right css doc s1) {ms : List Marked} {g : Bool} {l : Log}
    (h1 : sweepAll rd (dataHook o rd s1) [] false 0 (markedAll doc) = .ok (ms, g, l)) : EveryAll (Marking css rd) [] ms := by
  have hb : EveryAll (fun _ _ _ k => k = Mark.blank) [] (markedAll doc) := everyAll_marked (fun _ _ _ k => k = Mark.blank) (fun _ _ _ => rfl) doc []
  have hi : EveryAll (fun cs n as _ => In doc ((n, as) :: cs)) [] (markedAll doc) :=
    everyAll_of_all _ _ _ fun n as k cs hi => by rw [← content_marked] at hi; exact hi
  refine sweepAll_every rd _ (fun cs n as k => k = Mark.blank ∧ In doc ((n, as) :: cs)) (Marking css rd) ?_ ?_ _ _ _ _ _ _ _ h1
    (everyAll_and _ _ _ _ hb hi)
  · intro anc n as k ks v _ _ hk
    refine everyAll_mono _ _ ?_ ks _ hk
    rintro anc n as k ⟨rfl, _⟩
    simp [Marking, Mark.blank]
  · rintro anc n as k ks v hv _ ⟨rfl, hIn⟩
    rcases data_cases s1 anc n as _ ks v hv with ⟨hn, rfl⟩ | ⟨hn, s, hs, hU, hm, hd, _, _, _, hsk, hnon⟩
    · simp [Marking, Mark.blank, hn]
    · refine ⟨fun h => by rw [hd] at h; exact h, fun i hi => hU i (by rw [← hm]; exact hi), fun h => ?_⟩
      rw [hnon] at h
      simp only [Mark.blank, Bool.false_or] at h
      refine .inr ⟨?_, data_gone css s1 hR _ _ _ _ _ v hv (.inr ⟨h, hn⟩) hIn⟩
      rw [hsk] at h
      simp only [Bool.and_eq_true] at h
      exact h.2

theorem first_uses (s1 : Styles) {ms : List Marked} {g : Bool} {l : Log}
    (h1 : sweepAll rd (dataHook o rd s1) [] false 0 (markedAll doc) = .ok (ms, g, l)) :
    EveryAll (fun _ _ _ k => ∀ i ∈ k.uses, i ∈ l.uses) [] ms := by
  refine sweepAll_uses rd _ ?_ _ _ _ _ _ _ _ h1 (everyAll_marked (fun _ _ _ k => k.uses = []) (fun _ _ _ => rfl) doc [])
  intro anc n as k ks v hv
  rcases data_cases s1 anc n as _ ks v hv with ⟨_, rfl⟩ | ⟨_, _, _, _, hm, _⟩
  · exact .inl rfl
  · exact .inr hm

/-- The second pass leaves marks as they are. -/
theorem second_marks (P : List E → EName → List Attr → Mark → Prop) (s2 : Styles) (u : List (List Char)) {ms ms' : List Marked} {g : Bool}
    {l : Log} (h2 : sweepAll rd (stateHook o rd s2 u) [] false 0 ms = .ok (ms', g, l)) (hm : EveryAll P [] ms) : EveryAll P [] ms' := by
  refine sweepAll_every rd _ P P (fun _ _ _ _ _ _ _ _ h => h) ?_ _ _ _ _ _ _ _ h2 hm
  intro anc n as k ks v hv _ hP
  obtain ⟨_, _, hmk, _⟩ := state_parts s2 u anc n as k ks v hv
  rw [hmk]
  exact hP

theorem sheets_filter (P : Item → Bool) (hP : ∀ i, P i = true ↔ isSheet i) (a b : List (Node Attr))
    (h : (content a).filter P = (content b).filter P) : sheets a = sheets b := by
  have key : ∀ l : List Item, l.filterMap sheetOf = (l.filter P).filterMap sheetOf := by
    intro l
    induction l with
    | nil => rfl
    | cons i l ih =>
      by_cases hi : P i = true
      · rw [List.filter_cons_of_pos hi, List.filterMap_cons, List.filterMap_cons, ih]
      · rw [List.filter_cons_of_neg hi, List.filterMap_cons, ih]
        have : ¬ isSheet i := fun h => hi ((hP i).mpr h)
        cases i with
        | elem c => rfl
        | leaf c n => cases n <;> first | rfl | exact absurd trivial this
  unfold sheets
  rw [key, key (content b), h]

open Classical in
/-- The first pass leaves the style sheets. -/
theorem first_sheets (css : Css) (H : Ordinary css rd st doc) {ms : List Marked} {g : Bool} {l : Log}
    (h1 : sweepAll rd (dataHook o rd (st doc)) [] false 0 (markedAll doc) = .ok (ms, g, l)) :
    sheets (plainAll ms) = sheets doc := by
  refine sheets_filter (fun i => decide (isSheet i)) (by simp) _ _ ?_
  rw [content_plain, content_marked]
  refine sweepAll_keep rd _ (content doc) isSheet ⟨?_, ?_⟩ _ _ _ _ _ _ _ h1 (by rw [content_marked]; exact fun _ h => h)
  · intro anc n as k ks v hv hg hS i hi hK
    have ho := data_gone css _ (H.right doc rfl) _ _ _ _ _ v hv (.inl hg) (hS _ (by simp [all]))
    cases i with
    | elem c => exact hK
    | leaf c x =>
      cases x with
      | css s => exact (H.sheets c s (hS _ hi)).1 _ _ (elem_suffix anc n as k ks _ hi) ho
      | _ => exact hK
  · intro anc n as hn
    refine ⟨fun _ h => h, ?_⟩
    intro x hm hK
    cases x with
    | css s =>
      have := (H.sheets _ s hm).2 _ _ rfl
      rw [hn] at this
      simp at this
    | _ => exact hK

open Classical in
/-- What stays. -/
theorem kept (css : Css) (H : Ordinary css rd st doc) (K : Item → Prop)
    (hK : ∀ i ∈ content doc, K i → Sound css rd doc (chainOf i) ∧ css (chainOf i) .Visibility = word "visible")
    (hd : ∀ anc n as, n.is "defs" = true → (.elem ((n, as) :: anc) ∈ content doc → ¬ K (.elem ((n, as) :: anc))) ∧
      ∀ l, .leaf ((n, as) :: anc) l ∈ content doc → ¬ K (.leaf ((n, as) :: anc) l))
    {ms ms' : List Marked} {g g' : Bool} {l l' : Log}
    (h1 : sweepAll rd (dataHook o rd (st doc)) [] false 0 (markedAll doc) = .ok (ms, g, l))
    (h2 : sweepAll rd (stateHook o rd (st (plainAll ms)) l.uses) [] false 0 ms = .ok (ms', g', l')) (deo : Bool)
    (hn : deo = false → ∀ anc n as k ks, nonRendering n = true → canRemove rd l'.seen (.elem n as k ks) = true →
      (∀ i ∈ all anc (.elem n as k ks), i ∈ content doc) → ∀ i ∈ all anc (.elem n as k ks), ¬ K i) :
    (content (stripAll rd.white order [] 0 (clearAll rd (l.removed ++ l'.removed) l'.seen deo ms'))).filter K =
      (content doc).filter K := by
  have hR1 := H.right doc rfl
  have hR2 := H.right _ (first_sheets css H h1)
  have hin1 := first_in css h1
  have hin2 := second_in h1 h2
  have bad : ∀ anc n as k ks, (∀ i ∈ all anc (.elem n as k ks), i ∈ content doc) →
      (∀ c, (n, as) :: anc <:+ c → ¬ Sound css rd doc c) → ∀ i ∈ all anc (.elem n as k ks), ¬ K i := by
    intro anc n as k ks hS hbad i hi hKi
    exact hbad _ (elem_suffix anc n as k ks i hi) (hK i (hS i hi) hKi).1
  have why2 : ∀ anc n as k ks v, stateHook o rd (st (plainAll ms)) l.uses anc n as k ks = .ok v → v.gone = true →
      (∀ i ∈ all anc (.elem n as k ks), i ∈ content doc) →
      (∀ c, (n, as) :: anc <:+ c → ¬ Sound css rd doc c) ∨
        ∀ i ∈ all anc (.elem n as k ks), css (chainOf i) .Visibility ≠ word "visible" := by
    intro anc n as k ks v hv hg hS
    rcases state_gone css _ hR2 _ _ _ _ _ _ v hv hg (hS _ (by simp [all])) with ⟨s, hs, hh, _⟩ | hf | hf | hf
    · rcases style_gone css _ hR2 H.visibility anc n as k ks hS s hs hh with h | h
      · exact .inl fun c hc hs => (hs _ _ hc).1 h
      · exact .inr h
    · exact .inl fun c hc hs => (hs _ _ hc).2.1 hf
    · exact .inl fun c hc hs => (hs _ _ hc).2.2.1 hf
    · exact .inl fun c hc hs => (hs _ _ hc).2.2.2.1 hf
  have e1 : (allAll [] ms).filter K = (content doc).filter K := by
    rw [content_marked]
    refine sweepAll_keep rd _ (content doc) K ⟨?_, hd⟩ _ _ _ _ _ _ _ h1 (by rw [content_marked]; exact fun _ h => h)
    intro anc n as k ks v hv hg hS
    have ho := data_gone css _ hR1 _ _ _ _ _ v hv (.inl hg) (hS _ (by simp [all]))
    exact bad anc n as k ks hS fun c hc hs => (hs _ _ hc).1 (.inr ho)
  have e2 : (allAll [] ms').filter K = (allAll [] ms).filter K := by
    refine sweepAll_keep rd _ (content doc) K ⟨?_, hd⟩ _ _ _ _ _ _ _ h2 hin1
    intro anc n as k ks v hv hg hS
    rcases why2 anc n as k ks v hv hg hS with h | h
    · exact bad anc n as k ks hS h
    · exact fun i hi hKi => h i hi (hK i (hS i hi) hKi).2
  have hM : EveryAll (fun a n as k => Marking css rd a n as k ∧ ∀ i ∈ k.uses, i ∈ l.uses) [] ms' :=
    second_marks _ _ _ h2 (everyAll_and _ _ ms [] (first_marks css _ hR1 h1) (first_uses _ h1))
  -- a `defs` is not in something that is removed
  have nodefs : ∀ (d : Decide), (∀ anc n as k ks v, d anc n as k ks = .ok v → v.gone = true →
      (∀ i ∈ all anc (.elem n as k ks), i ∈ content doc) → (∀ c, (n, as) :: anc <:+ c → ¬ Sound css rd doc c) ∨
        ∀ i ∈ all anc (.elem n as k ks), css (chainOf i) .Visibility ≠ word "visible") →
      ∀ anc n as k ks v, d anc n as k ks = .ok v → v.gone = true → (∀ i ∈ all anc (.elem n as k ks), i ∈ content doc) →
        defsIn (.elem n as k ks) = false := by
    intro d hd' anc n as k ks v hv hg hS
    by_contra hc
    obtain ⟨n', as', cs, hm, hn'⟩ := defsIn_all _ anc (by simpa using hc)
    have hsight := H.sight _ _ (hS _ hm) hn'
    rcases hd' anc n as k ks v hv hg hS with h | h
    · exact h _ (elem_suffix anc n as k ks _ hm) hsight.1
    · exact h _ hm hsight.2
  have r1 := sweepAll_removed rd _ (content doc) (nodefs _ fun anc n as k ks v hv hg hS => .inl fun c hc hs =>
      (hs _ _ hc).1 (.inr (data_gone css _ hR1 _ _ _ _ _ v hv (.inl hg) (hS _ (by simp [all]))))) _ _ _ _ _ _ _ h1
    (by rw [content_marked]; exact fun _ h => h) (by simp)
  have r2 := sweepAll_removed rd _ (content doc) (nodefs _ why2) _ _ _ _ _ _ _ h2 hin1 (by simp)
  have e3 : (allAll [] (clearAll rd (l.removed ++ l'.removed) l'.seen deo ms')).filter K = (allAll [] ms').filter K := by
    refine clearAll_keep rd (content doc) K _ _ _ deo ?_ ms' [] hM hin2
    intro anc n as k ks hP hS hcl
    simp only [cleared, Bool.or_eq_true, List.any_eq_true, decide_eq_true_eq, Bool.and_eq_true, Bool.not_eq_true'] at hcl
    rcases hcl with ⟨i, hi, hrem⟩ | ⟨⟨hdeo, hnon⟩, hcan⟩
    · refine bad anc n as k ks hS fun c hc hs => (hs _ _ hc).2.2.2.2 ?_
      rcases List.mem_append.mp hrem with hrem | hrem
      · obtain ⟨n', as', k', ks', v, p, cs, hv, hg, _, hid, hp, hIn⟩ := r1 i hrem
        exact ⟨i, (n', as'), p, cs, hP.1.2.1 i hi, hIn, hp, hid, .inl (data_gone css _ hR1 _ _ _ _ _ v hv (.inl hg) hIn)⟩
      · obtain ⟨n', as', k', ks', v, p, cs, hv, hg, _, hid, hp, hIn⟩ := r2 i hrem
        refine ⟨i, (n', as'), p, cs, hP.1.2.1 i hi, hIn, hp, hid, .inr ?_⟩
        rcases state_gone css _ hR2 _ _ _ _ _ _ v hv hg hIn with ⟨_, _, _, hu, _⟩ | hf | hf | hf
        · exfalso
          have : isUsed rd l.uses as' = true := by
            simp only [isUsed, List.any_eq_true, decide_eq_true_eq]
            exact ⟨i, hid, hP.2 i hi⟩
          rw [hu] at this
          simp at this
        · exact .inl hf
        · exfalso
          obtain ⟨hpath, d, hd1, hd2, _⟩ := hf
          exact H.dots _ _ _ d hIn hp hpath hd1 hd2
        · exact .inr hf
    · rcases hP.1.2.2 hnon with hN | ⟨_, ho⟩
      · exact hn hdeo anc n as k ks hN hcan hS
      · exact bad anc n as k ks hS fun c hc hs => (hs _ _ hc).1 (.inr ho)
  have hin3 : ∀ i ∈ allAll [] (clearAll rd (l.removed ++ l'.removed) l'.seen deo ms'), i ∈ content doc :=
    fun i hi => hin2 i ((clearAll_sublist rd _ _ _ ms' []).subset hi)
  rw [show content (stripAll rd.white order [] 0 (clearAll rd (l.removed ++ l'.removed) l'.seen deo ms')) =
    itemsAll (fun _ _ _ => false) false [] (stripAll rd.white order [] 0
      (clearAll rd (l.removed ++ l'.removed) l'.seen deo ms')) from rfl]
  rw [stripAll_keep (content doc) K rd.white order hd _ _ _ _ _
    (everyAll_mono _ _ (fun _ _ _ _ h => h.1.1) _ _ (clearAll_every rd _ _ _ deo ms' [] hM)) hin3, e3, e2, e1]

/-! ## What a user relies on -/

theorem result_in {ms' : List Marked} {a b : List (List Char)} {deo : Bool} :
    ∀ i ∈ content (stripAll rd.white order [] 0 (clearAll rd a b deo ms')), i ∈ allAll [] (clearAll rd a b deo ms') :=
  fun _ hi => (stripAll_sublist rd.white order _ [] 0 [] false).subset hi

theorem result_second {ms' : List Marked} {a b : List (List Char)} {deo : Bool} :
    ∀ i ∈ content (stripAll rd.white order [] 0 (clearAll rd a b deo ms')), i ∈ allAll [] ms' :=
  fun i hi => (clearAll_sublist rd _ _ _ ms' []).subset (result_in i hi)

/-- **C56 (nothing is added).** All elements, attributes and texts of the result are those of the document, in that order and within
the same ancestors. -/
theorem nothing_new (h : job o rd st order doc = .ok doc') : (content doc').Sublist (content doc) := by
  obtain ⟨ms, g, l, ms', g', l', h1, h2, rfl⟩ := job_parts h
  rw [content_marked doc]
  exact ((stripAll_sublist rd.white order _ [] 0 [] false).trans (clearAll_sublist rd _ _ _ ms' [])).trans
    ((sweepAll_sublist rd _ _ _ _ _ _ _ _ h2).trans (sweepAll_sublist rd _ _ _ _ _ _ _ _ h1))

/-- **C56 (the job succeeds, where it does).** If the styles can be computed and every link of a `use` begins with a character of one
byte, there is a result. -/
theorem succeeds_partial (o : Options) (rd : Reading) (st : List (Node Attr) → Styles) (order : List Nat → Nat) (doc : List (Node Attr))
    (hst : ∀ d c, st d c ≠ none)
    (hu : ∀ e cs k v, In doc (e :: cs) → e.1.is "use" = true → (k = .Href ∨ k = .XLinkHref) → .plain (.known k) v ∈ e.2 →
      ∃ x i, rd.text v = x :: i ∧ x.val < 128) : ∃ doc', job o rd st order doc = .ok doc' := by
  have hG : EveryAll (each fun e => ∃ cs, In doc (e :: cs)) [] (markedAll doc) := by
    refine everyAll_of_all _ _ _ fun n as k cs hi => ⟨cs, ?_⟩
    rw [← content_marked] at hi
    exact hi
  obtain ⟨⟨ms, g, l⟩, h1⟩ := sweepAll_ok rd (dataHook o rd (st doc)) (fun e => ∃ cs, In doc (e :: cs)) (by
    rintro anc n as k ks ⟨cs, hIn⟩
    obtain ⟨us, hus⟩ : ∃ us, (if n.is "use" then links rd as else .ok []) = (.ok us : Except Err _) := by
      split
      · next hn => exact links_ok as fun k v hk hv => hu _ _ k v hIn hn hk hv
      · exact ⟨_, rfl⟩
    obtain ⟨s, hs⟩ := Option.ne_none_iff_exists'.mp (hst doc ((n, as) :: anc))
    unfold dataHook
    split
    · exact ⟨_, rfl⟩
    · rw [hus]
      simp only [hs]
      split
      · split <;> exact ⟨_, rfl⟩
      · exact ⟨_, rfl⟩) (markedAll doc) [] false 0 hG
  obtain ⟨⟨ms', g', l'⟩, h2⟩ := sweepAll_ok rd (stateHook o rd (st (plainAll ms)) l.uses) (fun _ => True) (by
    intro anc n as k ks _
    obtain ⟨s, hs⟩ := Option.ne_none_iff_exists'.mp (hst (plainAll ms) ((n, as) :: anc))
    unfold stateHook
    simp only [hs]
    exact ⟨_, rfl⟩) ms [] false 0 (everyAll_of_all _ _ _ fun _ _ _ _ _ => trivial)
  unfold job
  simp only [h1, h2]
  exact ⟨_, rfl⟩

open Classical in
/-- **C56 (the picture stays).** In an ordinary document whose styles are computed as they should be, all that is rendered and visible
stays: elements with their attributes, texts, their order and their ancestors. -/
theorem shown_kept_partial (css : Css) (H : Ordinary css rd st doc) (h : job o rd st order doc = .ok doc') :
    (content doc').filter (Shown css rd doc) = (content doc).filter (Shown css rd doc) := by
  obtain ⟨ms, g, l, ms', g', l', h1, h2, rfl⟩ := job_parts h
  have hren : ∀ i, Shown css rd doc i → Rendered css rd doc (chainOf i) ∧ css (chainOf i) .Visibility = word "visible" := by
    intro i hi
    cases i with
    | elem c => exact hi
    | leaf c n => exact hi
  refine kept css H (Shown css rd doc) ?_ ?_ h1 h2 _ ?_
  · intro i _ hi
    obtain ⟨hr, hv⟩ := hren i hi
    refine ⟨fun e cs hc => ?_, hv⟩
    obtain ⟨a, b, c, d, e'⟩ := hr e cs hc
    exact ⟨a, b, c, fun hvoid => d ⟨"pattern", by simp, hvoid.1⟩, e'⟩
  · intro anc n as hn
    have hU : Unrendered (n, as) := ⟨"defs", by simp, hn⟩
    exact ⟨fun _ hs => ((hren _ hs).1 _ _ (List.suffix_refl _)).2.2.2.1 hU,
      fun l _ hs => ((hren _ hs).1 _ _ (List.suffix_refl _)).2.2.2.1 hU⟩
  · intro _ anc n as k ks hN _ hS i hi hs
    exact ((hren i hs).1 _ _ (elem_suffix anc n as k ks i hi)).2.2.2.1 (nonRendering_unrendered n as hN)

theorem filter_mem {K : Item → Prop} [DecidablePred K] {a b : List Item} (h : a.filter K = b.filter K) (i : Item) (hi : i ∈ b) (hK : K i) :
    i ∈ a := by
  have : i ∈ b.filter K := List.mem_filter.mpr ⟨hi, by simpa using hK⟩
  rw [← h] at this
  exact (List.mem_filter.mp this).1

/-- **C56 (what is referred to stays).** In such a document, what is left refers to nothing that was removed: if an element of the
result is not hidden and refers to an element of the document, then that element stays, unless it is a `defs`, or it or something around
it is itself hidden. -/
theorem targets_kept_partial (css : Css) (H : Ordinary css rd st doc) (h : job o rd st order doc = .ok doc')
    (s : E) (ss : List E) (hs : In doc' (s :: ss)) (a : Attr) (ha : a ∈ s.2) (hid : ∀ v, a ≠ .plain (.known .Id) v)
    (i : List Char) (hi : i ∈ rd.refs a)
    (hvis : ∀ e es, e :: es <:+ s :: ss → css (e :: es) .Display ≠ word "none" ∧ css (e :: es) .Visibility ≠ word "hidden")
    (t : E) (ts : List E) (ht : In doc (t :: ts)) (hit : i ∈ idsOf rd t.2) (hdefs : t.1.is "defs" = false)
    (hsound : Sound css rd doc (t :: ts)) (hseen : css (t :: ts) .Visibility = word "visible") : In doc' (t :: ts) := by
  classical
  obtain ⟨ms, g, l, ms', g', l', h1, h2, rfl⟩ := job_parts h
  have hR2 := H.right _ (first_sheets css H h1)
  have hseen' : i ∈ l'.seen := by
    obtain ⟨n, as, cs, k, ks, v, hsuf, _, hv, hg, hsk, hlog, hall⟩ := sweepAll_visited rd _ _ _ _ _ _ _ _ h2 _ (result_second _ hs)
    have hIn : In doc ((n, as) :: cs) := first_in css h1 _ (hall _ (by simp [all]))
    obtain ⟨x, hx, _, _, hskip, _, hsn, _⟩ := state_parts _ _ cs n as k ks v hv
    have hno : v.skip = false := by
      by_contra hc
      simp only [Bool.not_eq_false] at hc
      rw [hskip] at hc
      simp only [Bool.and_eq_true, styleHides, Bool.or_eq_true] at hc
      rcases hc.1 with hc | hc
      · exact (hvis _ _ hsuf).2 (hR2.visibility _ x hIn hx ((holds_iff _ _ _).mp hc.1.2))
      · cases hd : x .Display with
        | none => simp [hd] at hc
        | some y =>
          obtain ⟨w, m⟩ := y
          simp only [hd, Option.any_some, beq_iff_eq] at hc
          obtain ⟨⟨_, rfl⟩, _⟩ := hc
          exact (hvis _ _ hsuf).1 (hR2.display _ x m hIn hx hd)
    rcases hsk with hsk | hsk
    · rw [hno] at hsk
      simp at hsk
    · obtain ⟨rfl, rfl⟩ := List.cons.inj hsk
      apply hlog
      rw [hsn, hg]
      simp only [Bool.false_eq_true, if_false, List.mem_flatMap, List.mem_filter]
      refine ⟨a, ⟨ha, ?_⟩, hi⟩
      unfold notId
      split
      · next k v =>
        rw [bne_iff_ne]
        rintro rfl
        exact hid v rfl
      · rfl
  refine filter_mem (kept css H (fun j => j = .elem (t :: ts)) ?_ ?_ h1 h2 _ ?_) _ ht rfl
  · rintro j _ rfl
    exact ⟨hsound, hseen⟩
  · intro anc n as hn
    refine ⟨fun _ hj => ?_, fun l _ hj => by simp at hj⟩
    simp only [Item.elem.injEq, List.cons.injEq] at hj
    rw [← hj.1] at hdefs
    simp [hn] at hdefs
  · rintro _ anc n as k ks _ hcan _ j hj rfl
    have := canRemove_all rd _ _ anc hcan t ts hj
    have hu : isUsed rd l'.seen t.2 = true := by
      simp only [isUsed, List.any_eq_true, decide_eq_true_eq]
      exact ⟨i, hit, hseen'⟩
    rw [hu] at this
    simp at this

/-- **C56 (careful with scripts and style sheets).** If there is a script or a style sheet, elements stay even if they are not rendered
and nothing refers to them. -/
theorem careful_partial (css : Css) (H : Ordinary css rd st doc) (h : job o rd st order doc = .ok doc')
    (hlive : ∃ n as ks, Tree.Occurs doc (.elem n as ks) ∧ Unpainted.Live rd.javascript n as ks)
    (t : E) (ts : List E) (ht : In doc (t :: ts)) (hdefs : t.1.is "defs" = false)
    (hsound : Sound css rd doc (t :: ts)) (hseen : css (t :: ts) .Visibility = word "visible") : In doc' (t :: ts) := by
  classical
  obtain ⟨ms, g, l, ms', g', l', h1, h2, rfl⟩ := job_parts h
  have hdeo : (Unpainted.hasScript rd.javascript doc || Unpainted.hasSheet (plainAll ms)) = true := by
    have := (Unpainted.live_iff rd.javascript doc).mpr hlive
    rw [Bool.or_eq_true] at this ⊢
    refine this.imp_right fun hsh => ?_
    rw [hasSheet_plain]
    refine sweepAll_sheet rd _ (content doc) ⟨?_, ?_⟩ _ _ _ _ _ _ _ h1 (by rw [content_marked]; exact fun _ h => h) ?_
    · intro anc n as k ks v hv hg hS i hi hK
      have ho := data_gone css _ (H.right doc rfl) _ _ _ _ _ v hv (.inl hg) (hS _ (by simp [all]))
      cases i with
      | elem c => exact hK
      | leaf c x =>
        cases x with
        | css s => exact (H.sheets c s (hS _ hi)).1 _ _ (elem_suffix anc n as k ks _ hi) ho
        | _ => exact hK
    · intro anc n as hn
      refine ⟨fun _ h => h, ?_⟩
      intro x hm hK
      cases x with
      | css s =>
        have := (H.sheets _ s hm).2 _ _ rfl
        rw [hn] at this
        simp at this
      | _ => exact hK
    · rw [← hasSheet_plain, plainAll_marked]
      exact hsh
  rw [hdeo]
  refine filter_mem (kept css H (fun j => j = .elem (t :: ts)) ?_ ?_ h1 h2 true (by simp)) _ ht rfl
  · rintro j _ rfl
    exact ⟨hsound, hseen⟩
  · intro anc n as hn
    refine ⟨fun _ hj => ?_, fun l _ hj => by simp at hj⟩
    simp only [Item.elem.injEq, List.cons.injEq] at hj
    rw [← hj.1] at hdefs
    simp [hn] at hdefs

/-- The ids that are collected in the first pass are used. -/
theorem used_of {ms : List Marked} {g : Bool} {l : Log}
    (h1 : sweepAll rd (dataHook o rd (st doc)) [] false 0 (markedAll doc) = .ok (ms, g, l)) (n : EName) (as : List Attr)
    (h : isUsed rd l.uses as = true) : Used rd doc (n, as) := by
  have hG : EveryAll (each fun e => ∃ cs, In doc (e :: cs)) [] (markedAll doc) := by
    refine everyAll_of_all _ _ _ fun n as k cs hi => ⟨cs, ?_⟩
    rw [← content_marked] at hi
    exact hi
  have := (sweepAll_log rd _ (fun e => ∃ cs, In doc (e :: cs)) (fun i => ∃ u us, In doc (u :: us) ∧ Uses rd u i) (fun _ => True) (by
    rintro anc n as k ks v ⟨cs, hIn⟩ hv
    refine ⟨?_, fun _ _ => trivial⟩
    rcases data_cases _ anc n as _ ks v hv with ⟨_, rfl⟩ | ⟨_, _, _, hU, _⟩
    · simp
    · exact fun i hi => ⟨_, _, hIn, hU i hi⟩) _ _ _ _ _ _ _ h1 hG).1
  simp only [isUsed, List.any_eq_true, decide_eq_true_eq] at h
  obtain ⟨i, hi, hu⟩ := h
  obtain ⟨u, us, hIn, hU⟩ := this i hu
  exact ⟨u, us, i, hIn, hU, hi⟩

/-- **C56 (transparent elements go).** No element of the result had an opacity of zero in the document, but for paths and for what is
not rendered where it stands. -/
theorem transparent_gone (ho : o.opacityZero = true) (h : job o rd st order doc = .ok doc') (e : E) (cs : List E)
    (hin : In doc' (e :: cs)) (s : Key → Option (Val × Mode)) (hs : st doc (e :: cs) = some s)
    (hop : s .Opacity = some (.parts [.num 0], .static)) : ∃ x ∈ e :: cs, Unrendered x ∨ x.1.is "path" = true := by
  obtain ⟨ms, g, l, ms', g', l', h1, h2, rfl⟩ := job_parts h
  have h3 := (sweepAll_sublist rd _ _ _ _ _ _ _ _ h2).subset (result_second _ hin)
  obtain ⟨n, as, ds, k, ks, v, hsuf, _, hv, hg, hsk, _, _⟩ := sweepAll_visited rd _ _ _ _ _ _ _ _ h1 _ h3
  have hmem : (n, as) ∈ e :: cs := hsuf.subset (by simp)
  rcases data_cases _ ds n as k ks v hv with ⟨hn, _⟩ | ⟨_, s', hs', _, _, _, _, _, hgone, hskip, _⟩
  · exact ⟨_, hmem, .inl (nonRendering_unrendered n as hn)⟩
  · rcases hsk with hsk | hsk
    · rw [hskip] at hsk
      simp only [Bool.and_eq_true] at hsk
      exact ⟨_, hmem, .inr hsk.2⟩
    · obtain ⟨rfl, rfl⟩ := List.cons.inj hsk
      rw [hs] at hs'
      cases hs'
      rw [hgone, ho, (holds_iff _ _ _).mpr hop] at hg
      simp only [Bool.true_and, Bool.not_eq_false'] at hg
      exact ⟨_, hmem, .inr hg⟩

theorem bare_nil {anc : List E} {n : EName} {as : List Attr} {k : Mark} {ks : List Marked}
    (hS : ∀ i ∈ all anc (.elem n as k ks), i ∈ content doc) (hb : Bare doc ((n, as) :: anc)) : ks = [] := by
  cases ks with
  | nil => rfl
  | cons m ms =>
    exfalso
    cases m with
    | leaf l => exact hb (.leaf ((n, as) :: anc) l.node) (hS _ (by simp [all, allAll])) rfl
    | elem n' as' k' ks' => exact hb (.elem ((n', as') :: (n, as) :: anc)) (hS _ (by simp [all, allAll])) (n', as') rfl

theorem nought_zero {k : Key} {n : EName} {as : List Attr} (h : Nought k (n, as)) : zero k as = true := by
  unfold zero
  rcases h with h | h
  · rw [show attr k as = _ from h]; rfl
  · rw [show attr k as = _ from h]; rfl

/-- **C56 (shapes without an extent go).** No element of the result is one that is asked to be removed for its size, unless a `use` refers
to it or to something around it. -/
theorem flat_gone (h : job o rd st order doc = .ok doc') (e : E) (cs : List E) (hin : In doc' (e :: cs)) (ha : Asked o rd doc e cs) :
    ∃ t ∈ e :: cs, Used rd doc t := by
  obtain ⟨ms, g, l, ms', g', l', h1, h2, rfl⟩ := job_parts h
  obtain ⟨n, as, ds, k, ks, v, hsuf, _, hv, hg, hsk, _, hall⟩ := sweepAll_visited rd _ _ _ _ _ _ _ _ h2 _ (result_second _ hin)
  obtain ⟨s, hs, _, _, hskip, hgone, _⟩ := state_parts _ _ ds n as k ks v hv
  rcases hsk with hsk | hsk
  · rw [hskip] at hsk
    simp only [Bool.and_eq_true] at hsk
    exact ⟨(n, as), hsuf.subset (by simp), used_of h1 n as hsk.2⟩
  · exfalso
    obtain ⟨rfl, rfl⟩ := List.cons.inj hsk
    have hS : ∀ i ∈ all cs (.elem n as k ks), i ∈ content doc := fun i hi => first_in (fun _ _ => .inherit) h1 i (hall i hi)
    rw [hgone] at hg
    simp only [Bool.or_eq_false_iff] at hg
    obtain ⟨⟨⟨⟨⟨⟨⟨_, hc⟩, he⟩, hr⟩, hpat⟩, him⟩, hpath⟩, hpoly⟩ := hg
    rcases ha with ⟨a, b, c, d⟩ | ⟨a, b⟩ | ⟨a, b, c⟩ | ⟨a, b⟩ | ⟨a, b⟩ | ⟨a, b, c⟩ | ⟨a, b, c⟩ | ⟨a, b, c⟩
    · simp [hiddenCircle, show n.is "circle" = true from a, b, nought_zero c, bare_nil hS d, isEmpty] at hc
    · rcases b with ⟨b, c⟩ | ⟨b, c⟩ <;> simp [hiddenEllipse, show n.is "ellipse" = true from a, b, nought_zero c] at he
    · rcases b with ⟨b, d⟩ | ⟨b, d⟩ <;>
        simp [hiddenRect, show n.is "rect" = true from a, b, nought_zero d, bare_nil hS c, isEmpty] at hr
    · rcases b with ⟨b, c⟩ | ⟨b, c⟩ <;> simp [hiddenPattern, show n.is "pattern" = true from a, b, nought_zero c] at hpat
    · rcases b with ⟨b, c⟩ | ⟨b, c⟩ <;> simp [hiddenImage, show n.is "image" = true from a, b, nought_zero c] at him
    · cases hd : attr .D as with
      | none => simp [hiddenPath, show n.is "path" = true from a, b, hd] at hpath
      | some d => simp [hiddenPath, show n.is "path" = true from a, b, hd, c d hd] at hpath
    · simp [hiddenPoly, show n.is "polyline" = true from a, b, show attr .Points as = none from c] at hpoly
    · simp [hiddenPoly, show n.is "polygon" = true from a, b, show attr .Points as = none from c] at hpoly

/-- **C56 (what is not displayed goes).** No element of the result has `display: none`, but for markers, and unless a `use` refers to it,
to something in it or to something around it. -/
theorem hidden_gone (ho : o.displayNone = true) (h : job o rd st order doc = .ok doc') (e : E) (cs : List E)
    (hin : In doc' (e :: cs)) (hd : ∀ d s, st d (e :: cs) = some s → ∃ m, s .Display = some (word "none", m)) :
    e.1.is "marker" = true ∨ ∃ t ts, In doc (t :: ts) ∧ Used rd doc t ∧ (e :: cs <:+ t :: ts ∨ t :: ts <:+ e :: cs) := by
  obtain ⟨ms, g, l, ms', g', l', h1, h2, rfl⟩ := job_parts h
  obtain ⟨n, as, ds, k, ks, v, hsuf, _, hv, hg, hsk, _, hall⟩ := sweepAll_visited rd _ _ _ _ _ _ _ _ h2 _ (result_second _ hin)
  obtain ⟨s, hs, _, _, hskip, hgone, _⟩ := state_parts _ _ ds n as k ks v hv
  have hS : ∀ i ∈ all ds (.elem n as k ks), i ∈ content doc := fun i hi => first_in (fun _ _ => .inherit) h1 i (hall i hi)
  by_cases hm : e.1.is "marker" = true
  · exact .inl hm
  · right
    rcases hsk with hsk | hsk
    · rw [hskip] at hsk
      simp only [Bool.and_eq_true] at hsk
      exact ⟨(n, as), ds, hS _ (by simp [all]), used_of h1 n as hsk.2, .inr hsuf⟩
    · obtain ⟨rfl, rfl⟩ := List.cons.inj hsk
      obtain ⟨m, hdm⟩ := hd _ s hs
      have hh : styleHides o s n ks = true := by
        simp only [Bool.not_eq_true] at hm
        simp only [styleHides, ho, hdm, Option.any_some, word, hm]
        simp
      by_cases hu : isUsed rd l.uses as = true
      · exact ⟨(n, as), cs, hS _ (by simp [all]), used_of h1 n as hu, .inr (List.suffix_refl _)⟩
      · by_cases hb : below (isUsed rd l.uses) ks = true
        · obtain ⟨t, ts, ht, hut⟩ := (below_all _ ks ((n, as) :: cs)).mp hb
          exact ⟨t, ts, hS _ (by simp [all, ht]), used_of h1 t.1 t.2 hut, .inl (allAll_suffix _ ks _ ht)⟩
        · rw [hgone] at hg
          simp [hh, hu, hb] at hg

/-- **C56 (what nothing refers to goes).** Without scripts and style sheets, no element of the result is a gradient, pattern, clipping
path, mask, marker, filter or symbol to which, and to the content of which, nothing in the document refers. -/
theorem unreferenced_gone (h : job o rd st order doc = .ok doc')
    (hrun : ∀ n as ks, Tree.Occurs doc (.elem n as ks) → ¬ Unpainted.Live rd.javascript n as ks) (hsheets : sheets doc = [])
    (x : E) (xs : List E) (hx : Resource x) (hxs : ∀ e ∈ xs, ¬ Resource e ∧ e.1.is "path" = false)
    (hun : Unreferenced rd doc (x :: xs)) : ¬ In doc' (x :: xs) := by
  obtain ⟨ms, g, l, ms', g', l', h1, h2, rfl⟩ := job_parts h
  intro hin
  have hres : ∀ n as, nonRendering n = true → Resource (n, as) := by
    intro n as hn
    simp only [nonRendering, Bool.and_eq_true, Empty.among, List.any_eq_true, beq_iff_eq] at hn
    obtain ⟨hp, s, hs, hn⟩ := hn
    exact ⟨hp, s, hs, hn⟩
  have hdeo : (Unpainted.hasScript rd.javascript doc || Unpainted.hasSheet (plainAll ms)) = false := by
    rw [Bool.or_eq_false_iff]
    constructor
    · by_contra hc
      obtain ⟨n, as, ks, h3, h4⟩ := (Unpainted.live_iff rd.javascript doc).mp (by simp [hc])
      exact hrun n as ks h3 h4
    · by_contra hc
      rw [hasSheet_plain] at hc
      obtain ⟨c, s, hm, _⟩ := sheetInAll_all ms [] (by simpa using hc)
      have hm' := first_in (fun _ _ => .inherit) h1 _ hm
      have : s ∈ sheets doc := List.mem_filterMap.mpr ⟨_, hm', rfl⟩
      rw [hsheets] at this
      simp at this
  rw [hdeo] at hin
  have hM : EveryAll (fun anc n _ k => (∀ e ∈ anc, ¬ Resource e ∧ e.1.is "path" = false) → nonRendering n = true → k.non = true) [] ms' := by
    refine second_marks _ _ _ h2 (sweepAll_every rd _ (fun _ _ _ k => k = Mark.blank) _ ?_ ?_ _ _ _ _ _ _ _ h1
      (everyAll_marked (fun _ _ _ k => k = Mark.blank) (fun _ _ _ => rfl) doc []))
    · intro anc n as k ks v hv hsk _
      refine everyAll_of_all _ _ _ fun n' as' k' cs hi hno _ => ?_
      exfalso
      have hsuf : (n, as) :: anc <:+ cs := by
        rcases allAll_parent ks _ _ _ hi with rfl | h
        · exact List.suffix_refl _
        · exact allAll_suffix _ ks _ h
      have := hno (n, as) (hsuf.subset (by simp))
      rcases data_cases _ anc n as k ks v hv with ⟨hn, _⟩ | ⟨_, _, _, _, _, _, _, _, _, hskip, _⟩
      · exact this.1 (hres n as hn)
      · rw [hskip] at hsk
        simp only [Bool.and_eq_true] at hsk
        rw [hsk.2] at this
        simp at this
    · intro anc n as k ks v hv _ _ _ hn
      rcases data_cases _ anc n as k ks v hv with ⟨_, rfl⟩ | ⟨hn', _⟩
      · rfl
      · rw [hn] at hn'
        simp at hn'
  obtain ⟨n, as, cs, k, ks, heq, hP, hcl, hall⟩ := clearAll_stays rd _ _ _ _ ms' [] hM _ (result_in _ hin)
  obtain ⟨rfl, rfl⟩ := List.cons.inj heq
  have hn : nonRendering n = true := by
    obtain ⟨hp, s, hs, hn⟩ := hx
    simp only [nonRendering, Bool.and_eq_true, Empty.among, List.any_eq_true, beq_iff_eq]
    exact ⟨hp, s, hs, hn⟩
  have hcan : canRemove rd l'.seen (.elem n as k ks) = true := by
    refine canRemove_of_all rd _ _ xs fun e es he => ?_
    have hIn : In doc (e :: es) := second_in h1 h2 _ (hall _ he)
    by_contra hc
    simp only [Bool.not_eq_false, isUsed, List.any_eq_true, decide_eq_true_eq] at hc
    obtain ⟨i, hi, hsn⟩ := hc
    have hG : EveryAll (each fun e => ∃ cs, In doc (e :: cs)) [] ms := by
      refine everyAll_of_all _ _ _ fun n as k cs hi => ⟨cs, first_in (fun _ _ => .inherit) h1 _ hi⟩
    obtain ⟨r, rs, a, hr, ha, hna, hia⟩ := (sweepAll_log rd _ (fun e => ∃ cs, In doc (e :: cs)) (fun _ => True)
      (fun i => ∃ r rs a, In doc (r :: rs) ∧ a ∈ r.2 ∧ (∀ v, a ≠ .plain (.known .Id) v) ∧ i ∈ rd.refs a) (by
      rintro anc n as k ks v ⟨cs, hIn⟩ hv
      refine ⟨fun _ _ => trivial, fun i hi => ?_⟩
      obtain ⟨_, _, _, _, _, _, hseen, _⟩ := state_parts _ _ anc n as k ks v hv
      rw [hseen] at hi
      split at hi
      · simp at hi
      · simp only [List.mem_flatMap, List.mem_filter] at hi
        obtain ⟨a, ⟨ha, hna⟩, hi⟩ := hi
        refine ⟨_, _, a, hIn, ha, ?_, hi⟩
        rintro v rfl
        simp [notId] at hna) _ _ _ _ _ _ _ h2 hG).2 i hsn
    exact hun e es hIn (elem_suffix xs n as k ks _ he) i hi r rs a hr ha hna hia
  simp [cleared, hP hxs hn, hcan] at hcl

open Classical in
/-- **C56 (nothing asked for).** With all options turned off, however styles are computed, only what is not rendered where it stands can go. -/
theorem off_kept (ho : o = ⟨false, false, false, false, false, false, false, false, false, false, false, false, false, false, false⟩)
    (h : job o rd st order doc = .ok doc') : (content doc').filter Placed = (content doc).filter Placed := by
  let K := Placed
  change (content doc').filter K = (content doc).filter K
  obtain ⟨ms, g, l, ms', g', l', h1, h2, rfl⟩ := job_parts h
  have hmem : ∀ i, K i → ∀ e ∈ chainOf i, ¬ Unrendered e := by
    intro i hi
    exact hi
  have g1 : ∀ anc n as k ks v, dataHook o rd (st doc) anc n as k ks = .ok v → v.gone = false := by
    intro anc n as k ks v hv
    rcases data_cases _ anc n as k ks v hv with ⟨_, rfl⟩ | ⟨_, _, _, _, _, _, _, _, hg, _⟩
    · rfl
    · rw [hg, ho]; rfl
  have g2 : ∀ anc n as k ks v, stateHook o rd (st (plainAll ms)) l.uses anc n as k ks = .ok v → v.gone = false := by
    intro anc n as k ks v hv
    obtain ⟨s, _, _, _, _, hg, _⟩ := state_parts _ _ anc n as k ks v hv
    rw [hg, ho]
    simp [styleHides, hiddenCircle, hiddenEllipse, hiddenRect, hiddenPattern, hiddenImage, hiddenPath, hiddenPoly]
  have hd : ∀ anc n as, n.is "defs" = true → (.elem ((n, as) :: anc) ∈ content doc → ¬ K (.elem ((n, as) :: anc))) ∧
      ∀ l, .leaf ((n, as) :: anc) l ∈ content doc → ¬ K (.leaf ((n, as) :: anc) l) := by
    intro anc n as hn
    have hU : Unrendered (n, as) := ⟨"defs", by simp, hn⟩
    exact ⟨fun _ hk => hmem _ hk (n, as) (by simp [chainOf]) hU, fun l _ hk => hmem _ hk (n, as) (by simp [chainOf]) hU⟩
  have e1 : (allAll [] ms).filter K = (content doc).filter K := by
    rw [content_marked]
    refine sweepAll_keep rd _ (content doc) K ⟨?_, hd⟩ _ _ _ _ _ _ _ h1 (by rw [content_marked]; exact fun _ h => h)
    intro anc n as k ks v hv hg
    rw [g1 anc n as k ks v hv] at hg
    simp at hg
  have e2 : (allAll [] ms').filter K = (allAll [] ms).filter K := by
    refine sweepAll_keep rd _ (content doc) K ⟨?_, hd⟩ _ _ _ _ _ _ _ h2 (first_in (fun _ _ => .inherit) h1)
    intro anc n as k ks v hv hg
    rw [g2 anc n as k ks v hv] at hg
    simp at hg
  have r1 := sweepAll_removed rd _ (content doc) (fun anc n as k ks v hv hg => by
      rw [g1 anc n as k ks v hv] at hg
      simp at hg) _ _ _ _ _ _ _ h1
    (by rw [content_marked]; exact fun _ h => h) (by simp)
  have r2 := sweepAll_removed rd _ (content doc) (fun anc n as k ks v hv hg => by
      rw [g2 anc n as k ks v hv] at hg
      simp at hg) _ _ _ _ _ _ _ h2 (first_in (fun _ _ => .inherit) h1) (by simp)
  have hM : EveryAll (fun _ n _ k => (k.defs = true → n.is "defs" = true) ∧ (k.non = true → nonRendering n = true)) [] ms' := by
    refine second_marks _ _ _ h2 (sweepAll_every rd _ (fun _ _ _ k => k = Mark.blank) _ ?_ ?_ _ _ _ _ _ _ _ h1
      (everyAll_marked (fun _ _ _ k => k = Mark.blank) (fun _ _ _ => rfl) doc []))
    · intro anc n as k ks v _ _ hk
      refine everyAll_mono _ _ ?_ ks _ hk
      rintro anc n as k rfl
      simp [Mark.blank]
    · rintro anc n as k ks v hv _ rfl
      rcases data_cases _ anc n as _ ks v hv with ⟨hn, rfl⟩ | ⟨_, s, _, _, _, hdf, _, _, _, hsk, hnon⟩
      · simp [Mark.blank, hn]
      · refine ⟨fun h => by rw [hdf] at h; exact h, fun h => ?_⟩
        rw [hnon, hsk, ho] at h
        simp [Mark.blank] at h
  have hin2 := second_in h1 h2
  rw [show content (stripAll rd.white order [] 0 (clearAll rd (l.removed ++ l'.removed) l'.seen
      (Unpainted.hasScript rd.javascript doc || Unpainted.hasSheet (plainAll ms)) ms')) =
    itemsAll (fun _ _ _ => false) false [] (stripAll rd.white order [] 0
      (clearAll rd (l.removed ++ l'.removed) l'.seen (Unpainted.hasScript rd.javascript doc || Unpainted.hasSheet (plainAll ms)) ms')) from rfl]
  rw [stripAll_keep (content doc) K rd.white order hd _ _ _ _ _
    (everyAll_mono _ _ (fun _ _ _ _ h => h.1) _ _ (clearAll_every rd _ _ _ _ ms' [] hM))
    (fun i hi => hin2 i ((clearAll_sublist rd _ _ _ ms' []).subset hi)), ← e1, ← e2]
  refine clearAll_keep rd (content doc) K _ _ _ _ ?_ ms' [] hM hin2
  intro anc n as k ks hP hS hcl i hi hKi
  simp only [cleared, Bool.or_eq_true, List.any_eq_true, decide_eq_true_eq, Bool.and_eq_true, Bool.not_eq_true'] at hcl
  rcases hcl with ⟨j, _, hrem⟩ | ⟨⟨_, hnon⟩, _⟩
  · rcases List.mem_append.mp hrem with hrem | hrem
    · obtain ⟨n', as', k', ks', v, p, cs, hv, hg, _⟩ := r1 j hrem
      rw [g1 _ _ _ _ _ v hv] at hg
      simp at hg
    · obtain ⟨n', as', k', ks', v, p, cs, hv, hg, _⟩ := r2 j hrem
      rw [g2 _ _ _ _ _ v hv] at hg
      simp at hg
  · exact hmem i hKi (n, as) ((elem_suffix anc n as k ks i hi).subset (by simp)) (nonRendering_unrendered n as (hP.2 hnon))

/-- **C56 (the same result each time).** If no `defs` is directly in a `defs`, the result does not depend on the order in which they are
looked at. -/
theorem order_partial (order' : List Nat → Nat)
    (hd : ∀ e p cs, In doc (e :: p :: cs) → e.1.is "defs" = true → p.1.is "defs" = false) :
    job o rd st order doc = job o rd st order' doc := by
  unfold job
  split
  · rfl
  · next ms g l h1 =>
    split
    · rfl
    · next ms' g' l' h2 =>
      simp only [Except.ok.injEq]
      refine stripAll_order rd.white order order' _ _ _ (apartAll_of _ [] ?_ ?_)
      · refine clearAll_every rd DefsOnly _ _ _ ms' [] (second_marks _ _ _ h2 (sweepAll_every rd _
          (fun _ _ _ k => k = Mark.blank) _ ?_ ?_ _ _ _ _ _ _ _ h1 (everyAll_marked (fun _ _ _ k => k = Mark.blank) (fun _ _ _ => rfl) doc [])))
        · intro anc n as k ks v _ _ hk
          refine everyAll_mono _ _ ?_ ks _ hk
          rintro anc n as k rfl
          simp [Mark.blank, DefsOnly]
        · rintro anc n as k ks v hv _ rfl
          rcases data_cases _ anc n as _ ks v hv with ⟨hn, rfl⟩ | ⟨_, s, _, _, _, hdf, _⟩
          · simp [Mark.blank, DefsOnly]
          · intro h
            rw [hdf] at h
            exact h
      · intro e p cs hm
        exact hd e p cs (second_in h1 h2 _ ((clearAll_sublist rd _ _ _ ms' []).subset hm))

/-! ## Documents without style sheets -/

theorem inh_plain (k : Key) : ∀ cs : List E, (∀ e ∈ cs, e.2.findSome? Unknowns.inlineBlock = none) →
    (∀ e ∈ cs, (e.2.map Retain.idOf).Nodup) → Unpainted.inh cs k = (Unpainted.nearest k cs).map fun v => (v, Mode.static)
  | [], _, _ => rfl
  | e :: cs, hs, h => by
    have h0 := Unpainted.lastOf_attrs k e.2 (h e (by simp))
    have ih := inh_plain k cs (fun x hx => hs x (by simp [hx])) fun x hx => h x (by simp [hx])
    simp only [Unpainted.inh, Cascade.takeOver, Cascade.Computed.empty, Cascade.extendMap, Unpainted.extendList_eq, Unpainted.nearest,
      Unpainted.declared, h0, ih, Unknowns.presented_eq, Unpainted.blockOf_eq, hs e (by simp)]
    cases (List.find? (fun d => decide (d.1 = k)) (List.filterMap Unknowns.property e.2)) <;> simp [Unpainted.lastOf]

/-- Styles without `style` attributes. -/
theorem style_plain (k : Key) (e : E) (cs : List E) (hs : ∀ x ∈ e :: cs, x.2.findSome? Unknowns.inlineBlock = none)
    (h : ∀ x ∈ e :: cs, (x.2.map Retain.idOf).Nodup) (c : Cascade.Computed Key Val) (hc : Unpainted.computed e cs = some c) :
    Unpainted.style c k = (((Unpainted.declared e k).or (if Key.inheritable k then Unpainted.nearest k cs else none)).map
      fun v => (v, Mode.static)) := by
  rw [Unpainted.computed_eq] at hc
  cases hc
  have hi := inh_plain k cs (fun x hx => hs x (by simp [hx])) fun x hx => h x (by simp [hx])
  simp only [Unpainted.style, Cascade.get, Cascade.getHigh, Cascade.getInherited, Unpainted.blockOf_eq, hs e (by simp),
    Option.bind_none, Option.map_none, Option.none_or, Unknowns.presented_eq, Cascade.findFirst, Unpainted.declared,
    Option.getD_none, List.flatMap_nil, Unpainted.lastOf, List.filter_nil, List.map_nil, List.getLast?_nil, hi]
  cases (List.find? (fun d => decide (d.1 = k)) (List.filterMap Unknowns.property e.2)) <;> split <;> simp

theorem attr_property (k : Key) (hk : k ∈ Unknowns.inheritedProperties ∨ k ∈ Unknowns.otherProperties) (as : List Attr) :
    ((as.filterMap Unknowns.property).find? fun d => d.1 = k).map (·.2) = attr k as := by
  induction as with
  | nil => rfl
  | cons a as ih =>
    match a with
    | .style b => simpa [Unknowns.property, attr] using ih
    | .plain (.other p l) v => simpa [Unknowns.property, attr] using ih
    | .plain (.known l) v =>
      by_cases hl : l = k
      · subst hl
        simp [Unknowns.property, hk, attr]
      · simp only [attr] at ih ⊢
        rw [List.findSome?_cons]
        simp only [hl, if_false]
        rw [← ih, List.filterMap_cons]
        simp only [Unknowns.property]
        split
        · rfl
        · next d heq =>
          have : d.1 = l := by
            split at heq
            · cases heq; rfl
            · simp at heq
          rw [List.find?_cons]
          simp [this, hl]

theorem declared_plain (k : Key) (hk : k ∈ Unknowns.inheritedProperties ∨ k ∈ Unknowns.otherProperties) (e : E)
    (hs : e.2.findSome? Unknowns.inlineBlock = none) : Unpainted.declared e k = attr k e.2 := by
  rw [← attr_property k hk e.2]
  simp [Unpainted.declared, hs, Unpainted.lastOf]

/-- The styles of documents without style sheets. -/
def plainStyles : List (Node Attr) → Styles := fun _ c => match c with
  | [] => none
  | e :: cs => (Unpainted.computed e cs).map Unpainted.style

/-- No `style` is read where none is written. -/
theorem inline_none (e : E) (h : ∀ b, Attr.style b ∉ e.2) : e.2.findSome? Unknowns.inlineBlock = none := by
  rw [List.findSome?_eq_none_iff]
  intro a ha
  match a, ha with
  | .style b, ha => exact absurd ha (h b)
  | .plain _ _, _ => rfl

open Classical in
/-- **C56 (the picture stays, without style sheets).** In a document without style sheets and `style` attributes, in which no attribute
is given twice, every `defs` is in plain sight, and no path directly in a `defs` has just one command, all that is rendered and visible
stays, however options are chosen. -/
theorem picture_kept_partial
    (hsheet : ∀ c s, .leaf c (.css s) ∉ content doc)
    (hstyle : ∀ e cs, In doc (e :: cs) → ∀ b, .style b ∉ e.2)
    (hdup : ∀ e cs, In doc (e :: cs) → (e.2.map Retain.idOf).Nodup)
    (hsight : ∀ e es, In doc (e :: es) → e.1.is "defs" = true →
      Sound (fun c k => Unpainted.value k c) rd doc (e :: es) ∧ Unpainted.value .Visibility (e :: es) = word "visible")
    (hdots : ∀ t d cs v, In doc (t :: d :: cs) → d.1.is "defs" = true → t.1.is "path" = true → attr .D t.2 = some v → rd.commands v ≠ 1)
    (h : job o rd plainStyles order doc = .ok doc') :
    (content doc').filter (Shown (fun c k => Unpainted.value k c) rd doc) =
      (content doc).filter (Shown (fun c k => Unpainted.value k c) rd doc) := by
  have hchain : ∀ c, In doc c → (∀ x ∈ c, x.2.findSome? Unknowns.inlineBlock = none) ∧ ∀ x ∈ c, (x.2.map Retain.idOf).Nodup := by
    intro c hc
    constructor
    · intro x hx
      obtain ⟨cs, hcs⟩ := Retain.content_ancestor doc c hc x hx
      exact inline_none x (hstyle x cs hcs)
    · intro x hx
      obtain ⟨cs, hcs⟩ := Retain.content_ancestor doc c hc x hx
      exact hdup x cs hcs
  have key : ∀ c s k, In doc c → plainStyles doc c = some s → ∃ e cs, c = e :: cs ∧
      s k = (((Unpainted.declared e k).or (if Key.inheritable k then Unpainted.nearest k cs else none)).map fun v => (v, Mode.static)) := by
    intro c s k hc hs
    cases c with
    | nil => simp [plainStyles] at hs
    | cons e cs =>
      cases hx : Unpainted.computed e cs with
      | none => simp [plainStyles, hx] at hs
      | some x =>
        simp only [plainStyles, hx, Option.map_some, Option.some.injEq] at hs
        subst hs
        exact ⟨e, cs, rfl, style_plain k e cs (hchain _ hc).1 (hchain _ hc).2 x hx⟩
  have alone : ∀ c s k v m, Key.inheritable k = false → In doc c → plainStyles doc c = some s → s k = some (v, m) → v ≠ .inherit →
      Unpainted.value k c = v := by
    intro c s k v m hk hc hs hv hne
    obtain ⟨e, cs, rfl, h1⟩ := key c s k hc hs
    rw [h1, hk] at hv
    simp only [Bool.false_eq_true, if_false, Option.or_none, Option.map_eq_some_iff, Prod.mk.injEq] at hv
    obtain ⟨w, hw, rfl, _⟩ := hv
    unfold Unpainted.value
    rw [hw]
    cases w with
    | inherit => exact absurd rfl hne
    | parts _ => rfl
  refine shown_kept_partial (fun c k => Unpainted.value k c) ⟨fun d _ => ⟨?_, ?_, ?_, ?_⟩, ?_, fun c s hc => absurd hc (hsheet c s), hsight, hdots⟩ h
  · intro c s hc hs hv
    exact alone c s .Opacity _ _ rfl hc hs hv (by simp)
  · intro c s m hc hs hv
    exact alone c s .Display _ m rfl hc hs hv (by simp [word])
  · intro c s hc hs hv
    obtain ⟨e, cs, rfl, h1⟩ := key c s .Visibility hc hs
    rw [h1] at hv
    simp only [Key.inheritable, if_true, Option.map_eq_some_iff, Prod.mk.injEq, and_true] at hv
    obtain ⟨w, hw, rfl⟩ := hv
    exact Unpainted.value_nearest .Visibility (by decide) _ (by simp [word]) (e :: cs) hw
  · intro c s hc hs
    constructor
    · intro hv
      obtain ⟨e, cs, rfl, h1⟩ := key c s .MarkerStart hc hs
      rw [h1] at hv
      simp only [Key.inheritable, if_true, Option.map_eq_none_iff] at hv
      exact Unpainted.value_none .MarkerStart (e :: cs) hv
    · intro hv
      obtain ⟨e, cs, rfl, h1⟩ := key c s .MarkerEnd hc hs
      rw [h1] at hv
      simp only [Key.inheritable, if_true, Option.map_eq_none_iff] at hv
      exact Unpainted.value_none .MarkerEnd (e :: cs) hv
  · intro e cs hc
    simp only
    rw [← declared_plain .Visibility (by decide) e ((hchain _ hc).1 e (by simp))]
    conv_lhs => unfold Unpainted.value
    cases hd : Unpainted.declared e .Visibility with
    | none => rfl
    | some v => cases v <;> rfl

end Verif.Hidden
