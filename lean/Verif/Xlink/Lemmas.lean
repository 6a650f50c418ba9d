import Verif.Xlink.Spec

/-!
# Lemmas
-/

namespace Verif.Xlink

open Verif.Tree
open Verif.Names (Str lit StdNs)

theorem getX_xlinkOf (k : XK) (as : List Attr) : (getX k as).map (·.2) = xlinkOf k as := by
  induction as with
  | nil => rfl
  | cons a as ih =>
    cases a with
    | xlink j p v =>
      simp only [getX, xlinkOf, List.findSome?_cons] at ih ⊢
      by_cases h : j = k
      · simp [h]
      · simp only [if_neg h]; exact ih
    | _ => simpa only [getX, xlinkOf, List.findSome?_cons] using ih

theorem getX_none {k : XK} {as : List Attr} : getX k as = none ↔ xlinkOf k as = none := by
  rw [← getX_xlinkOf]; simp

theorem getX_some {k : XK} {as : List Attr} {p v : Str} (h : getX k as = some (p, v)) : xlinkOf k as = some v := by
  rw [← getX_xlinkOf, h]; rfl

theorem hasHref_iff (as : List Attr) : hasHref as = (hrefOf as).isSome := by
  induction as with
  | nil => rfl
  | cons a as ih => cases a <;> simp_all [hasHref, hrefOf, List.findSome?_cons]

theorem hasTarget_iff (as : List Attr) : hasTarget as = (targetOf as).isSome := by
  induction as with
  | nil => rfl
  | cons a as ih => cases a <;> simp_all [hasTarget, targetOf, List.findSome?_cons]

theorem xlinkOf_isSome {k : XK} {as : List Attr} : (xlinkOf k as).isSome ↔ ∃ p v, Attr.xlink k p v ∈ as := by
  induction as with
  | nil => simp [xlinkOf]
  | cons a as ih =>
    cases a with
    | xlink j p v =>
      by_cases h : j = k
      · subst h; simp [xlinkOf, List.findSome?_cons]; exact ⟨p, v, Or.inl ⟨rfl, rfl⟩⟩
      · have h' : k ≠ j := fun e => h e.symm
        simp only [xlinkOf, List.findSome?_cons, if_neg h] at ih ⊢
        simp [ih, h']
    | _ => simp only [xlinkOf, List.findSome?_cons] at ih ⊢; simp [ih]

/-! ## The view of an attribute list -/

/-- Everything a reader looks at, of one list of attributes. -/
structure View where
  x : XK → Option Str
  href : Option Str
  target : Option Str
  known : List Attr

def view (as : List Attr) : View := ⟨fun k => xlinkOf k as, hrefOf as, targetOf as, as.filter isKnown⟩

theorem View.ext' {a b : View} (h₁ : ∀ k, a.x k = b.x k) (h₂ : a.href = b.href) (h₃ : a.target = b.target) (h₄ : a.known = b.known) : a = b := by
  obtain ⟨x, _, _, _⟩ := a; obtain ⟨y, _, _, _⟩ := b
  have : x = y := funext h₁
  simp_all

/-! ### Leaving out attributes of XLink that say nothing -/

theorem xlinkOf_plain (k : XK) (as : List Attr) :
    xlinkOf k (as.filter plain) = if k = .actuate ∨ k = .arcrole ∨ k = .role ∨ k = .type then none else xlinkOf k as := by
  induction as with
  | nil => simp [xlinkOf]
  | cons a as ih =>
    cases a with
    | xlink j p v =>
      cases j <;> cases k <;> simp_all [plain, xlinkOf, List.findSome?_cons, List.filter_cons]
    | _ => simp only [xlinkOf, List.findSome?_cons, List.filter_cons, plain] at ih ⊢; simp only [if_true, List.findSome?_cons]; exact ih

theorem view_plain (as : List Attr) : (view (as.filter plain)).href = hrefOf as ∧ (view (as.filter plain)).target = targetOf as ∧
    (view (as.filter plain)).known = as.filter isKnown := by
  induction as with
  | nil => simp [view]
  | cons a as ih =>
    cases a with
    | xlink j p v => cases j <;> simp_all [view, plain, hrefOf, targetOf, List.findSome?_cons, List.filter_cons, isKnown]
    | _ => simp_all [view, plain, hrefOf, targetOf, List.findSome?_cons, List.filter_cons, isKnown]

/-! ### `dropX` -/

theorem dropX_cons {k : XK} {a : Attr} {as : List Attr} : dropX k (a :: as) = if isX k a then as else a :: dropX k as := by
  cases a <;> simp [dropX, isX]

theorem xlinkOf_eq_none {k : XK} {as : List Attr} (h : as.filter (isX k) = []) : xlinkOf k as = none := by
  cases hv : xlinkOf k as with
  | none => rfl
  | some v =>
    obtain ⟨p, w, hm⟩ := xlinkOf_isSome.1 (by rw [hv]; rfl)
    have : Attr.xlink k p w ∈ as.filter (isX k) := List.mem_filter.2 ⟨hm, by simp [isX]⟩
    rw [h] at this; simp at this

theorem xlinkOf_cons {k : XK} {a : Attr} {as : List Attr} (h : isX k a = false) : xlinkOf k (a :: as) = xlinkOf k as := by
  cases a with
  | xlink j p v => simp only [isX, decide_eq_false_iff_not] at h; simp [xlinkOf, List.findSome?_cons, h]
  | _ => rfl

theorem xlinkOf_dropX_self {k : XK} {as : List Attr} (h : (as.filter (isX k)).length ≤ 1) : xlinkOf k (dropX k as) = none := by
  induction as with
  | nil => rfl
  | cons a as ih =>
    rw [dropX_cons]
    cases ha : isX k a with
    | true =>
      rw [if_pos rfl]
      rw [List.filter_cons, if_pos ha] at h
      apply xlinkOf_eq_none
      cases hf : as.filter (isX k) with
      | nil => rfl
      | cons b bs => rw [hf] at h; simp at h
    | false =>
      rw [if_neg (by simp), xlinkOf_cons ha]
      rw [List.filter_cons, if_neg (by simp [ha])] at h
      exact ih h

theorem xlinkOf_dropX {k j : XK} (h : j ≠ k) (as : List Attr) : xlinkOf j (dropX k as) = xlinkOf j as := by
  induction as with
  | nil => rfl
  | cons a as ih =>
    rw [dropX_cons]
    cases ha : isX k a with
    | true =>
      rw [if_pos rfl, xlinkOf_cons]
      cases a with
      | xlink i p v => simp only [isX, decide_eq_true_eq] at ha; subst ha; simp only [isX, decide_eq_false_iff_not]; exact fun e => h e.symm
      | _ => rfl
    | false =>
      rw [if_neg (by simp)]
      cases hb : isX j a with
      | false => rw [xlinkOf_cons hb, xlinkOf_cons hb, ih]
      | true =>
        cases a with
        | xlink i p v => simp only [isX, decide_eq_true_eq] at hb; subst hb; simp [xlinkOf, List.findSome?_cons]
        | _ => simp [isX] at hb

theorem view_dropX (k : XK) (as : List Attr) : hrefOf (dropX k as) = hrefOf as ∧ targetOf (dropX k as) = targetOf as ∧
    (dropX k as).filter isKnown = as.filter isKnown := by
  induction as with
  | nil => exact ⟨rfl, rfl, rfl⟩
  | cons a as ih =>
    cases a with
    | xlink j p v =>
      rw [dropX_cons]
      by_cases h : j = k
      · simp [isX, h, hrefOf, targetOf, List.findSome?_cons, isKnown, List.filter_cons]
      · simpa [isX, h, hrefOf, targetOf, List.findSome?_cons, isKnown, List.filter_cons] using ih
    | _ => simp_all [dropX, hrefOf, targetOf, List.findSome?_cons, isKnown, List.filter_cons]

theorem dropX_sublist (k : XK) (as : List Attr) : (dropX k as).Sublist as := by
  induction as with
  | nil => exact List.Sublist.refl _
  | cons a as ih =>
    rw [dropX_cons]
    split
    · exact List.sublist_cons_self _ _
    · exact ih.cons_cons _

theorem Wf.sublist {as bs : List Attr} (w : Wf as) (h : bs.Sublist as) : Wf bs :=
  ⟨fun k => Nat.le_trans (h.filter _).length_le (w.once k), fun v hm => w.href v (h.mem hm), fun v hm => w.target v (h.mem hm)⟩

/-! ### `setNamed` -/

theorem xlinkOf_setNamed (k : XK) (n : Str) (a : Attr) (ha : ∀ k, isX k a = false) (as : List Attr) : xlinkOf k (setNamed n a as) = xlinkOf k as := by
  induction as with
  | nil => rw [setNamed, xlinkOf_cons (ha k)]
  | cons b as ih =>
    rw [setNamed]
    split
    · rename_i hb
      have : isX k b = false := by cases b <;> simp_all [Attr.named, isX]
      rw [xlinkOf_cons (ha k), xlinkOf_cons this]
    · cases hb : isX k b with
      | false => rw [xlinkOf_cons hb, xlinkOf_cons hb, ih]
      | true =>
        cases b with
        | xlink i p v => simp only [isX, decide_eq_true_eq] at hb; subst hb; simp [xlinkOf, List.findSome?_cons]
        | _ => simp [isX] at hb

theorem filterX_setNamed (k : XK) (n : Str) (a : Attr) (ha : ∀ k, isX k a = false) (as : List Attr) :
    (setNamed n a as).filter (isX k) = as.filter (isX k) := by
  induction as with
  | nil => simp [setNamed, ha]
  | cons b as ih =>
    rw [setNamed]
    split
    · rename_i hb
      have : isX k b = false := by cases b <;> simp_all [Attr.named, isX]
      simp [List.filter_cons, this, ha]
    · simp [List.filter_cons, ih]

theorem ne_target_href : (lit "target" == lit "href") = false := by decide
theorem ne_href_target : (lit "href" == lit "target") = false := by decide

theorem hrefOf_setHref {as : List Attr} (h : hrefOf as = none) (v : Str) : hrefOf (setNamed (lit "href") (.href v) as) = some v := by
  induction as with
  | nil => rfl
  | cons b as ih =>
    rw [setNamed]
    split
    · rfl
    · cases b with
      | href w => simp [hrefOf, List.findSome?_cons] at h
      | _ => exact ih h

theorem targetOf_setHref (v : Str) (as : List Attr) : targetOf (setNamed (lit "href") (.href v) as) = targetOf as := by
  induction as with
  | nil => rfl
  | cons b as ih =>
    rw [setNamed]
    split
    · rename_i hb
      cases b with
      | target w => rw [Attr.named, ne_href_target] at hb; simp at hb
      | _ => rfl
    · cases b with
      | target w => rfl
      | _ => exact ih

theorem targetOf_setTarget {as : List Attr} (h : targetOf as = none) (v : Str) : targetOf (setNamed (lit "target") (.target v) as) = some v := by
  induction as with
  | nil => rfl
  | cons b as ih =>
    rw [setNamed]
    split
    · rfl
    · cases b with
      | target w => simp [targetOf, List.findSome?_cons] at h
      | _ => exact ih h

theorem hrefOf_setTarget (v : Str) (as : List Attr) : hrefOf (setNamed (lit "target") (.target v) as) = hrefOf as := by
  induction as with
  | nil => rfl
  | cons b as ih =>
    rw [setNamed]
    split
    · rename_i hb
      cases b with
      | href w => rw [Attr.named, ne_target_href] at hb; simp at hb
      | _ => rfl
    · cases b with
      | href w => rfl
      | _ => exact ih

theorem known_setNamed {n : Str} {a : Attr} (ha : isKnown a = false) {as : List Attr} (h : ∀ v, .known none n v ∉ as) :
    (setNamed n a as).filter isKnown = as.filter isKnown := by
  induction as with
  | nil => simp [setNamed, ha]
  | cons b as ih =>
    rw [setNamed]
    split
    · rename_i hb
      have : isKnown b = false := by
        cases b with
        | known p l v =>
          cases p with
          | none => simp only [Attr.named, beq_iff_eq] at hb; subst hb; exact absurd (List.mem_cons_self ..) (h v)
          | some p => simp [Attr.named] at hb
        | _ => rfl
      simp [List.filter_cons, this, ha]
    · rw [List.filter_cons, List.filter_cons, ih fun v hm => h v (List.mem_cons_of_mem _ hm)]

theorem mem_setNamed {n : Str} {a b : Attr} {as : List Attr} (h : b ∈ setNamed n a as) : b = a ∨ b ∈ as := by
  induction as with
  | nil => simpa [setNamed] using h
  | cons c as ih =>
    rw [setNamed] at h
    split at h
    · rcases List.mem_cons.1 h with rfl | h
      · exact Or.inl rfl
      · exact Or.inr (List.mem_cons_of_mem _ h)
    · rcases List.mem_cons.1 h with rfl | h
      · exact Or.inr (List.mem_cons_self ..)
      · exact (ih h).imp id (List.mem_cons_of_mem _)

theorem Wf.setNamed {as : List Attr} (w : Wf as) {n : Str} {a : Attr} (ha : ∀ k, isX k a = false) (hk : isKnown a = false) : Wf (setNamed n a as) := by
  refine ⟨fun k => ?_, fun v hm => ?_, fun v hm => ?_⟩
  · rw [filterX_setNamed k n a ha]; exact w.once k
  · rcases mem_setNamed hm with rfl | hm
    · simp [isKnown] at hk
    · exact w.href v hm
  · rcases mem_setNamed hm with rfl | hm
    · simp [isKnown] at hk
    · exact w.target v hm

/-! ### Leaving -/

theorem leave_sublist (legacy : Bool) (st : List Entry) (as : List Attr) : (leave legacy st as).1.Sublist as := by
  induction as generalizing st with
  | nil => exact List.Sublist.refl _
  | cons a as ih =>
    rw [leave]
    simp only
    split
    · exact (ih _).cons_cons _
    · exact (ih _).cons _

theorem leave_view (legacy : Bool) (st : List Entry) (as : List Attr) : view (leave legacy st as).1 = view as := by
  induction as generalizing st with
  | nil => rfl
  | cons a as ih =>
    rw [leave]
    have hk : ∀ bs cs : List Attr, view bs = view cs → view (a :: bs) = view (a :: cs) := by
      intro bs cs h
      have h₁ : ∀ k, xlinkOf k bs = xlinkOf k cs := fun k => congrFun (congrArg View.x h) k
      have h₂ : hrefOf bs = hrefOf cs := congrArg View.href h
      have h₃ : targetOf bs = targetOf cs := congrArg View.target h
      have h₄ : bs.filter isKnown = cs.filter isKnown := congrArg View.known h
      refine View.ext' (fun k => ?_) ?_ ?_ ?_
      · show xlinkOf k (a :: bs) = xlinkOf k (a :: cs)
        cases ha : isX k a with
        | false => rw [xlinkOf_cons ha, xlinkOf_cons ha, h₁]
        | true => cases a with
          | xlink i p v => simp only [isX, decide_eq_true_eq] at ha; subst ha; simp [xlinkOf, List.findSome?_cons]
          | _ => simp [isX] at ha
      · show hrefOf (a :: bs) = hrefOf (a :: cs)
        cases a <;> first | rfl | exact h₂
      · show targetOf (a :: bs) = targetOf (a :: cs)
        cases a <;> first | rfl | exact h₃
      · show (a :: bs).filter isKnown = (a :: cs).filter isKnown
        rw [List.filter_cons, List.filter_cons, h₄]
    by_cases h : (leaveAttr legacy st a).1 = true
    · simp only [if_pos h]; exact hk _ _ (ih _)
    · simp only [if_neg h]
      rw [ih]
      cases a with
      | decl l u => rfl
      | unknown p l v => rfl
      | _ => exact absurd rfl h

theorem leave_no_decl (legacy : Bool) (st : List Entry) (as : List Attr) : ∀ a ∈ (leave legacy st as).1, isXDecl a = false := by
  induction as generalizing st with
  | nil => intro a h; simp [leave] at h
  | cons b as ih =>
    intro a h
    rw [leave] at h
    simp only at h
    split at h
    · rename_i hb
      rcases List.mem_cons.1 h with rfl | h
      · cases a with
        | decl l u =>
          simp only [isXDecl, decide_eq_false_iff_not]
          intro e
          simp [leaveAttr, e] at hb
        | _ => rfl
      · exact ih _ _ h
    · exact ih _ _ h

theorem leave_legacy (st : List Entry) (as : List Attr) : (leave true st as).1 = as.filter fun a => !isXDecl a := by
  induction as generalizing st with
  | nil => rfl
  | cons a as ih =>
    rw [leave]
    simp only [ih]
    have : (leaveAttr true st a).1 = !isXDecl a := by
      cases a with
      | decl l u => by_cases e : u = StdNs.uri .xlink <;> cases st <;> simp [leaveAttr, isXDecl, e]
      | unknown p l v => cases st <;> rfl
      | _ => rfl
    rw [List.filter_cons, this]

end Verif.Xlink
