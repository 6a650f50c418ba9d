import Verif.Xlink.Lemmas

/-!
# Properties
-/

namespace Verif.Xlink

open Verif.Tree
open Verif.Names (Str lit StdNs)

theorem showOf_new {v : Str} : showOf v = some .new ↔ v = lit "new" := by
  unfold showOf
  constructor
  · intro h
    split at h
    · assumption
    · repeat' split at h
      all_goals simp at h
  · rintro rfl; rfl

/-! ## One element -/

theorem show_spec {as bs : List Attr} (w : Wf as) (h : handleShow as = some bs) :
    Wf bs ∧ hrefOf bs = hrefOf as ∧ bs.filter isKnown = as.filter isKnown ∧ (∀ k, k ≠ .shows → xlinkOf k bs = xlinkOf k as) ∧
      targetOf bs = (targetOf as).or (if xlinkOf .shows as = some (lit "new") then some (lit "_blank") else none) ∧
      xlinkOf .shows bs = if (targetOf as).isSome ∨ xlinkOf .shows as = some (lit "new") then none else xlinkOf .shows as := by
  rw [handleShow, hasTarget_iff] at h
  by_cases ht : (targetOf as).isSome = true
  · rw [if_pos ht] at h
    obtain ⟨t, ht'⟩ := Option.isSome_iff_exists.1 ht
    have hor : ∀ o : Option Str, (targetOf as).or o = targetOf as := by intro o; rw [ht']; rfl
    rw [hor, if_pos (Or.inl ht)]
    cases hg : getX .shows as with
    | none =>
      rw [hg] at h
      simp only [Option.some.injEq] at h
      subst h
      exact ⟨w, rfl, rfl, fun _ _ => rfl, rfl, getX_none.1 hg⟩
    | some pv =>
      rw [hg] at h
      simp only at h
      split at h
      · simp only [Option.some.injEq] at h
        subst h
        have v := view_dropX .shows as
        exact ⟨w.sublist (dropX_sublist _ _), v.1, v.2.2, fun k hk => xlinkOf_dropX hk as, v.2.1, xlinkOf_dropX_self (w.once _)⟩
      · simp at h
  · rw [if_neg ht] at h
    have ht' : targetOf as = none := by simpa using ht
    cases hg : getX .shows as with
    | none =>
      rw [hg] at h
      simp only [Option.some.injEq] at h
      subst h
      have hx := getX_none.1 hg
      refine ⟨w, rfl, rfl, fun _ _ => rfl, ?_, ?_⟩
      · rw [ht', hx]; rfl
      · rw [ht', hx]; rfl
    | some pv =>
      obtain ⟨p, v⟩ := pv
      rw [hg] at h
      have hx := getX_some hg
      by_cases hn : v = lit "new"
      · simp only [showOf_new.2 hn, Option.some.injEq] at h
        subst h
        have wd := w.setNamed (n := lit "target") (a := .target (lit "_blank")) (fun _ => rfl) rfl
        have vd := view_dropX .shows (setNamed (lit "target") (.target (lit "_blank")) as)
        refine ⟨wd.sublist (dropX_sublist _ _), ?_, ?_, ?_, ?_, ?_⟩
        · rw [vd.1, hrefOf_setTarget]
        · rw [vd.2.2, known_setNamed rfl w.target]
        · intro k hk; rw [xlinkOf_dropX hk, xlinkOf_setNamed _ _ _ (fun _ => rfl)]
        · rw [vd.2.1, targetOf_setTarget ht', ht', hx, if_pos (by rw [hn])]; rfl
        · rw [xlinkOf_dropX_self (wd.once _), if_pos (Or.inr (by rw [hx, hn]))]
      · have : bs = as := by
          simp only at h
          cases hs : showOf v with
          | none => rw [hs] at h; simpa using h.symm
          | some s =>
            cases s with
            | new => exact absurd (showOf_new.1 hs) hn
            | _ => rw [hs] at h; simpa using h.symm
        subst this
        have hne : ¬xlinkOf .shows bs = some (lit "new") := by rw [hx]; simpa using hn
        refine ⟨w, rfl, rfl, fun _ _ => rfl, ?_, ?_⟩
        · rw [if_neg hne, ht']; rfl
        · rw [if_neg (by rw [ht']; simpa using hne)]

theorem title_spec {as : List Attr} (w : Wf as) (ks : List (Node Attr)) :
    Wf (handleTitle as ks).1 ∧ hrefOf (handleTitle as ks).1 = hrefOf as ∧ targetOf (handleTitle as ks).1 = targetOf as ∧
      (handleTitle as ks).1.filter isKnown = as.filter isKnown ∧ (∀ k, k ≠ .title → xlinkOf k (handleTitle as ks).1 = xlinkOf k as) ∧
      xlinkOf .title (handleTitle as ks).1 = (if ks.any isTitle then xlinkOf .title as else none) ∧
      (handleTitle as ks).2 = if ks.any isTitle then [] else ((xlinkOf .title as).map titleElement).toList := by
  rw [handleTitle]
  by_cases ht : ks.any isTitle = true
  · simp only [if_pos ht]
    refine ⟨w, ?_, ?_, ?_, ?_, ?_, ?_⟩ <;> simp
  · simp only [if_neg ht]
    cases hg : getX .title as with
    | none =>
      have hx := getX_none.1 hg
      exact ⟨w, rfl, rfl, rfl, fun _ _ => rfl, hx, by rw [hx]; rfl⟩
    | some pv =>
      obtain ⟨p, v⟩ := pv
      have vd := view_dropX .title as
      exact ⟨w.sublist (dropX_sublist _ _), vd.1, vd.2.1, vd.2.2, fun k hk => xlinkOf_dropX hk as, xlinkOf_dropX_self (w.once _), by
        rw [getX_some hg]; rfl⟩

theorem href_spec (legacy : Bool) (n : EName) {as : List Attr} (w : Wf as) (st : List Entry) :
    let r := (handleHref legacy n as st).1
    let stays := (hrefOf as).isSome ∨ legacy = false ∧ isLegacy n = true
    Wf r ∧ targetOf r = targetOf as ∧ r.filter isKnown = as.filter isKnown ∧ (∀ k, k ≠ .href → xlinkOf k r = xlinkOf k as) ∧
      (stays → hrefOf r = hrefOf as ∧ xlinkOf .href r = xlinkOf .href as) ∧ (¬stays → hrefOf r = xlinkOf .href as ∧ xlinkOf .href r = none) := by
  intro r stays
  have keep : r = as → stays → Wf r ∧ targetOf r = targetOf as ∧ r.filter isKnown = as.filter isKnown ∧ (∀ k, k ≠ .href → xlinkOf k r = xlinkOf k as) ∧
      (stays → hrefOf r = hrefOf as ∧ xlinkOf .href r = xlinkOf .href as) ∧ (¬stays → hrefOf r = xlinkOf .href as ∧ xlinkOf .href r = none) := by
    intro e hs
    rw [e]
    exact ⟨w, rfl, rfl, fun _ _ => rfl, fun _ => ⟨rfl, rfl⟩, fun hn => absurd hs hn⟩
  by_cases hh : (hrefOf as).isSome = true
  · exact keep (by simp only [r]; rw [handleHref, hasHref_iff, if_pos hh]) (Or.inl hh)
  · by_cases hl : (!legacy && isLegacy n) = true
    · refine keep (by simp only [r]; rw [handleHref, hasHref_iff, if_neg hh, if_pos hl]) (Or.inr (by simpa using hl))
    · have hns : ¬stays := by
        rintro (h | ⟨h₁, h₂⟩)
        · exact hh h
        · simp [h₁, h₂] at hl
      have hn : hrefOf as = none := by simpa using hh
      have hr : r = match getX .href as with
          | some (_, v) => setNamed (lit "href") (.href v) (dropX .href as)
          | none => as := by
        simp only [r]
        rw [handleHref, hasHref_iff, if_neg hh, if_neg hl]
        cases getX .href as <;> rfl
      cases hg : getX .href as with
      | none =>
        rw [hg] at hr
        simp only at hr
        have hx := getX_none.1 hg
        rw [hr]
        exact ⟨w, rfl, rfl, fun _ _ => rfl, fun h => absurd h hns, fun _ => ⟨by rw [hn, hx], hx⟩⟩
      | some pv =>
        obtain ⟨p, v⟩ := pv
        rw [hg] at hr
        simp only at hr
        have hx := getX_some hg
        have wd := w.sublist (dropX_sublist .href as)
        have vd := view_dropX .href as
        rw [hr]
        refine ⟨wd.setNamed (fun _ => rfl) rfl, ?_, ?_, ?_, fun h => absurd h hns, fun _ => ⟨?_, ?_⟩⟩
        · rw [targetOf_setHref, vd.2.1]
        · rw [known_setNamed rfl wd.href, vd.2.2]
        · intro k hk; rw [xlinkOf_setNamed _ _ _ (fun _ => rfl), xlinkOf_dropX hk]
        · rw [hrefOf_setHref (by rw [vd.1, hn]), hx]
        · rw [xlinkOf_setNamed _ _ _ (fun _ => rfl), xlinkOf_dropX_self (w.once _)]

theorem isTitle_titleElement (v : Str) : isTitle (titleElement v) = true := by rfl

/-- What the job does to one element, seen by a reader. -/
structure Kept (legacy : Bool) (n : EName) (as : List Attr) (ks : List (Node Attr)) (as' : List Attr) (new : List (Node Attr)) : Prop where
  link : link as' = link as
  opens : opens as' = opens as
  tip : tip as' (new ++ ks) = tip as ks
  new : new = [] ∨ ∃ v, xlinkOf .title as = some v ∧ new = [titleElement v]
  known : as'.filter isKnown = as.filter isKnown
  href : ∀ v, hrefOf as = some v → hrefOf as' = some v
  target : ∀ v, targetOf as = some v → targetOf as' = some v
  stay : ∀ k, (∃ p v, Attr.xlink k p v ∈ as') ↔ Stays legacy n as ks k
  decl : ∀ a ∈ as', isXDecl a = false

theorem enter_kept {legacy : Bool} {n : EName} {as as' : List Attr} {ks new : List (Node Attr)} {st st' : List Entry} (w : Wf as)
    (h : enter legacy n as ks st = some (as', new, st')) (st'' : List Entry) : Kept legacy n as ks (leave legacy st'' as').1 new := by
  rw [enter] at h
  simp only at h
  cases hs : handleShow (as.filter plain) with
  | none => rw [hs] at h; simp at h
  | some bs =>
    rw [hs] at h
    simp only [Option.some.injEq, Prod.mk.injEq] at h
    obtain ⟨rfl, rfl, rfl⟩ := h
    have p₁ := view_plain as
    simp only [view] at p₁
    have p₂ := fun k => xlinkOf_plain k as
    obtain ⟨w₁, s₁, s₂, s₃, s₄, s₅⟩ := show_spec (w.sublist List.filter_sublist) hs
    obtain ⟨w₂, t₁, t₂, t₃, t₄, t₅, t₆⟩ := title_spec w₁ ks
    obtain ⟨w₃, u₁, u₂, u₃, u₄, u₅⟩ := href_spec legacy n w₂ (as.foldl note st)
    have v := leave_view legacy st'' (handleHref legacy n (handleTitle bs ks).1 (as.foldl note st)).1
    have v₁ : ∀ k, xlinkOf k _ = xlinkOf k _ := fun k => congrFun (congrArg View.x v) k
    have v₂ : hrefOf _ = hrefOf _ := congrArg View.href v
    have v₃ : targetOf _ = targetOf _ := congrArg View.target v
    have v₄ : List.filter isKnown _ = List.filter isKnown _ := congrArg View.known v
    generalize hr : (handleHref legacy n (handleTitle bs ks).1 (as.foldl note st)).1 = r at *
    rw [p₁.2.1, p₂] at s₄
    rw [p₁.2.1, p₂] at s₅
    simp only [reduceCtorEq, or_self, if_false] at s₄ s₅
    have xh : xlinkOf .href (handleTitle bs ks).1 = xlinkOf .href as := by
      rw [t₄ _ (by simp), s₃ _ (by simp), p₂, if_neg (by simp)]
    have hh : hrefOf (handleTitle bs ks).1 = hrefOf as := by rw [t₁, s₁, p₁.1]
    rw [hh, xh] at u₄ u₅
    have xt : xlinkOf .title bs = xlinkOf .title as := by rw [s₃ _ (by simp), p₂, if_neg (by simp)]
    rw [xt] at t₅ t₆
    have tgt : targetOf r = (targetOf as).or (if xlinkOf .shows as = some (lit "new") then some (lit "_blank") else none) := by rw [u₁, t₂, s₄]
    have shw : xlinkOf .shows r = if (targetOf as).isSome ∨ xlinkOf .shows as = some (lit "new") then none else xlinkOf .shows as := by
      rw [u₃ _ (by simp), t₄ _ (by simp), s₅]
    have ttl : xlinkOf .title r = if ks.any isTitle then xlinkOf .title as else none := by rw [u₃ _ (by simp), t₅]
    refine ⟨?_, ?_, ?_, ?_, ?_, ?_, ?_, ?_, leave_no_decl legacy st'' r⟩
    · rw [link, link, v₂, v₁]
      by_cases hst : (hrefOf as).isSome = true ∨ legacy = false ∧ isLegacy n = true
      · rw [(u₄ hst).1, (u₄ hst).2]
      · rw [(u₅ hst).1, (u₅ hst).2]
        have : hrefOf as = none := by
          cases hv : hrefOf as with
          | none => rfl
          | some x => exact absurd (Or.inl (by rw [hv]; rfl)) hst
        rw [this]
        cases xlinkOf .href as <;> rfl
    · rw [opens, opens, v₃, v₁, tgt, shw]
      cases ht : targetOf as with
      | some x => rfl
      | none =>
        by_cases hx : xlinkOf .shows as = some (lit "new")
        · simp [hx]
        · simp [hx]
    · rw [tip, tip, v₁, ttl, t₆]
      cases ht : ks.any isTitle with
      | true =>
        simp only [if_true, List.nil_append]
      | false =>
        have hf : ks.find? isTitle = none := by
          rw [List.find?_eq_none]
          intro x hx hx'
          rw [List.any_eq_true.2 ⟨x, hx, hx'⟩] at ht
          simp at ht
        simp only [Bool.false_eq_true, if_false, hf]
        cases hx : xlinkOf .title as with
        | none => simp [hf]
        | some x =>
          simp only [Option.map_some, Option.toList_some, List.cons_append, List.nil_append, List.find?_cons, isTitle_titleElement]
          simp [titleElement, Node.kids, wordsOf]
    · rw [t₆]
      split
      · exact Or.inl rfl
      · cases hx : xlinkOf .title as with
        | none => exact Or.inl rfl
        | some x => exact Or.inr ⟨x, rfl, rfl⟩
    · rw [v₄, u₂, t₃, s₂, p₁.2.2]
    · intro x hx
      rw [v₂, (u₄ (Or.inl (by rw [hx]; rfl))).1, hx]
    · intro x hx
      rw [v₃, tgt, hx]; rfl
    · intro k
      rw [← xlinkOf_isSome, v₁]
      cases k with
      | shows =>
        rw [shw, Stays]
        cases ht : targetOf as with
        | some x => simp
        | none =>
          by_cases hx : xlinkOf .shows as = some (lit "new")
          · simp only [hx, or_true, if_true]; simp
          · rw [if_neg (by simpa using hx)]
            cases hv : xlinkOf .shows as with
            | none => simp
            | some y => rw [hv] at hx; simpa using hx
      | title =>
        rw [ttl, Stays, ← List.any_eq_true]
        cases ks.any isTitle <;> simp
      | href =>
        rw [Stays]
        by_cases hst : (hrefOf as).isSome = true ∨ legacy = false ∧ isLegacy n = true
        · rw [(u₄ hst).2]; simp [hst]
        · rw [(u₅ hst).2]; simp [hst]
      | _ =>
        simp only [Stays]
        rw [u₃ _ (by simp), t₄ _ (by simp), s₃ _ (by simp), p₂, if_pos (by simp)]
        simp

/-! ## Documents -/

mutual
theorem visit_match {legacy : Bool} : ∀ (t : Node Attr) {st st' : List Entry} {t' : Node Attr}, Every (fun _ as _ => Wf as) t →
    visit legacy t st = some (t', st') → Match (Kept legacy) t t'
  | .elem n as ks, st, st', t', hw, h => by
    rw [Every] at hw
    rw [visit] at h
    split at h
    · simp at h
    · rename_i as' new st₁ he
      split at h
      · simp at h
      · rename_i ks' st₂ hv
        simp only [Option.some.injEq, Prod.mk.injEq] at h
        obtain ⟨rfl, rfl⟩ := h
        rw [Match]
        exact ⟨_, new, ks', rfl, enter_kept hw.1 he st₂, visitAll_match ks hw.2 hv⟩
  | .text s, _, _, _, _, h => by rw [visit] at h; simp only [Option.some.injEq, Prod.mk.injEq] at h; rw [Match]; exact h.1.symm
  | .css s, _, _, _, _, h => by rw [visit] at h; simp only [Option.some.injEq, Prod.mk.injEq] at h; rw [Match]; exact h.1.symm
  | .comment s, _, _, _, _, h => by rw [visit] at h; simp only [Option.some.injEq, Prod.mk.injEq] at h; rw [Match]; exact h.1.symm
  | .pi t d, _, _, _, _, h => by rw [visit] at h; simp only [Option.some.injEq, Prod.mk.injEq] at h; rw [Match]; exact h.1.symm
theorem visitAll_match {legacy : Bool} : ∀ (ns : List (Node Attr)) {st st' : List Entry} {ns' : List (Node Attr)}, EveryAll (fun _ as _ => Wf as) ns →
    visitAll legacy ns st = some (ns', st') → MatchAll (Kept legacy) ns ns'
  | [], _, _, _, _, h => by rw [visitAll] at h; simp only [Option.some.injEq, Prod.mk.injEq] at h; rw [MatchAll]; exact h.1.symm
  | n :: ns, st, st', ns', hw, h => by
    rw [EveryAll] at hw
    rw [visitAll] at h
    split at h
    · simp at h
    · rename_i n' st₁ he
      split at h
      · simp at h
      · rename_i ms st₂ hv
        simp only [Option.some.injEq, Prod.mk.injEq] at h
        obtain ⟨rfl, rfl⟩ := h
        rw [MatchAll]
        exact ⟨n', ms, rfl, visit_match n hw.1 he, visitAll_match ns hw.2 hv⟩
end

/-- **C65 (links, places and tooltips).** For every document and both values of the option: nothing but attributes and new first `title` elements changes. Every
element links to what it linked to, opens it where it did, and has the same tooltip; known attributes stay as they are; no declaration of XLink stays. Which
attributes of XLink stay is said exactly: the descriptive ones never; `xlink:show` if there is no `target` and it is not `new`; `xlink:title` if there is a
`title`; `xlink:href` if there is an `href`, or on a legacy element without the option.
Part: what a reader does with other attributes is not covered; see `foreign_gone` and `dangling_iff`. -/
theorem run_kept_partial {legacy : Bool} {doc doc' : List (Node Attr)} (w : EveryAll (fun _ as _ => Wf as) doc) (h : run legacy doc = some doc') :
    MatchAll (Kept legacy) doc doc' := by
  rw [run] at h
  cases hv : visitAll legacy doc [] with
  | none => rw [hv] at h; simp at h
  | some r => rw [hv] at h; simp only [Option.map_some, Option.some.injEq] at h; subst h; exact visitAll_match doc w hv

end Verif.Xlink
