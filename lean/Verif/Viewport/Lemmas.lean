import Verif.Viewport.Spec
import Verif.Tree.Lemmas
import Mathlib.Tactic.Linarith
import Mathlib.Tactic.FieldSimp
import Mathlib.Tactic.Ring
import Mathlib.Tactic.NormNum

/-!
# Lemmas about viewports
-/

namespace Verif.Viewport

open Verif.Tree Verif.Names Verif.Empty
open Verif.Collapse (AName plainName)

theorem named_iff {n : EName} {s : String} : n.is s = true ↔ Named n s := by
  simp [EName.is, Named]

theorem find_eq (as : List Attr) (s : String) : find as s = value as (plainName s) := by
  induction as with
  | nil => rfl
  | cons a as ih =>
    simp only [find, List.find?_cons, value] at ih ⊢
    by_cases h : a.name = plainName s
    · simp [h]
    · have hb : (a.name == plainName s) = false := by simp [h]
      simp only [hb, h, if_false]
      exact ih

theorem toPx_eq (v : ℚ) (u : AbsUnit) : toPx v u = u.px' v := by
  cases u <;> simp only [toPx, AbsUnit.px', AbsUnit.perInch] <;> ring

theorem pixels_iff {as : List Attr} {s : String} {w : ℚ} :
    pixels as s = some w ↔ ∃ v u, value as (plainName s) = some (.len (.abs v u)) ∧ u.px' v = w := by
  unfold pixels
  rw [find_eq]
  split
  · rename_i v u h
    rw [h, toPx_eq]
    constructor
    · intro e
      exact ⟨v, u, rfl, by simpa using e⟩
    · rintro ⟨v', u', e, e'⟩
      simp only [Option.some.injEq, Val.len.injEq, Len.abs.injEq] at e
      rw [e.1, e.2, e']
  · rename_i h
    constructor
    · intro e; simp at e
    · rintro ⟨v, u, e, -⟩
      exact absurd e (h v u)

theorem value_none {as : List Attr} {n : AName} (h : n ∉ as.map (·.name)) : value as n = none := by
  induction as with
  | nil => rfl
  | cons a as ih =>
    simp only [List.map_cons, List.mem_cons, not_or] at h
    simp only [value, if_neg (Ne.symm h.1), ih h.2]

theorem value_remove {as : List Attr} (hd : (as.map (·.name)).Nodup) (s : String) (n : AName) :
    value (remove as s) n = if n = plainName s then none else value as n := by
  induction as with
  | nil => simp [remove, value]
  | cons a as ih =>
    simp only [List.map_cons, List.nodup_cons] at hd
    simp only [remove, beq_iff_eq]
    by_cases h : a.name = plainName s
    · simp only [if_pos h, value]
      by_cases hn : n = plainName s
      · rw [if_pos hn, hn, ← h]
        exact value_none hd.1
      · rw [if_neg hn, if_neg (fun e : a.name = n => hn (e.symm.trans h))]
    · simp only [if_neg h, value, ih hd.2]
      by_cases ha : a.name = n
      · simp [ha, show ¬ n = plainName s from fun e => h (ha.trans e)]
      · simp [ha]

theorem names_remove {as : List Attr} (s : String) : ((remove as s).map (·.name)).Sublist (as.map (·.name)) := by
  induction as with
  | nil => simp [remove]
  | cons a as ih =>
    simp only [remove]
    split
    · exact List.sublist_cons_self _ _
    · exact ih.cons_cons _

theorem remove_none {as : List Attr} {s : String} (h : value as (plainName s) = none) : remove as s = as := by
  induction as with
  | nil => rfl
  | cons a as ih =>
    simp only [value] at h
    split at h
    · simp at h
    · rename_i hn
      simp only [remove, beq_iff_eq, if_neg hn, ih h]

theorem value_set {as : List Attr} (a : Attr) (n : AName) :
    value (set as a) n = if n = a.name then some a.val else value as n := by
  induction as with
  | nil =>
    simp only [set, value, eq_comm (a := n)]
  | cons b as ih =>
    simp only [set, beq_iff_eq]
    by_cases h : b.name = a.name
    · rw [if_pos h]
      simp only [value, h]
      by_cases hn : n = a.name
      · subst hn
        simp
      · rw [if_neg hn, if_neg (Ne.symm hn), if_neg (Ne.symm hn)]
    · simp only [if_neg h, value, ih]
      by_cases hb : b.name = n
      · simp [hb, show ¬ n = a.name from fun e => h (hb.trans e)]
      · simp [hb]

theorem others_remove (as : List Attr) (s : String) (h : s = "viewBox" ∨ s = "width" ∨ s = "height") :
    others (remove as s) = others as := by
  induction as with
  | nil => rfl
  | cons a as ih =>
    simp only [others] at ih ⊢
    simp only [remove, beq_iff_eq]
    split
    · rename_i hn
      rw [List.filter_cons_of_neg]
      rcases h with rfl | rfl | rfl <;> simp [hn]
    · simp only [List.filter_cons, ih]

theorem others_set (as : List Attr) (v : Val) (h : value as (plainName "viewBox") = none) :
    others (set as ⟨plainName "viewBox", v⟩) = others as := by
  induction as with
  | nil => simp [set, others]
  | cons a as ih =>
    simp only [value] at h
    split at h
    · simp at h
    · rename_i hn
      have := ih h
      simp only [others] at this ⊢
      simp only [set, beq_iff_eq, if_neg hn, List.filter_cons, this]

theorem plain_ne {a b : String} (h : a ≠ b) : plainName a ≠ plainName b := by
  intro e
  exact h (by simpa [plainName] using e)

theorem plain_inj {a b : String} : plainName a = plainName b ↔ a = b := by simp [plainName]

/-- A view box that fits its viewport maps nothing. -/
theorem fit_id (a : Aspect) (e : Rect) (hw : e.w ≠ 0) (hh : e.h ≠ 0) (p : Pt) :
    a.fit ⟨0, 0, e.w, e.h⟩ e p = (e.x + p.1, e.y + p.2) := by
  have h1 : e.w / e.w = 1 := div_self hw
  have h2 : e.h / e.h = 1 := div_self hh
  rcases a with ⟨_ | ⟨x, y⟩, sl⟩
  · simp only [Aspect.fit, Aspect.factors, h1, h2]
    ext <;> simp <;> ring
  · have hs : ∀ z : Side, z.shift 0 = 0 := by intro z; cases z <;> simp [Side.shift]
    cases sl <;>
    · simp only [Aspect.fit, Aspect.factors, h1, h2]
      ext <;> simp [hs] <;> ring

theorem open_fit (f : Frame) (t : Map) (e : Rect) (a : Aspect) :
    open' f t e (e.x, e.y) (some ⟨0, 0, e.w, e.h⟩) a = open' f t e (e.x, e.y) none a := by
  by_cases h : e.w = 0 ∨ e.h = 0
  · simp [open', h]
  · push Not at h
    simp only [open', h.1, h.2, or_self, if_false, fit_id a e h.1 h.2]

/-- Where the view box matters. -/
theorem open_iff (f : Frame) (t : Map) (e : Rect) (a : Aspect) {w h : ℚ} (hw : 0 < w) (hh : 0 < h) (he : 0 < e.w) (he' : 0 < e.h) :
    open' f t e (e.x, e.y) (some ⟨0, 0, w, h⟩) a = open' f t e (e.x, e.y) none a ↔ w = e.w ∧ h = e.h := by
  constructor
  · intro q
    simp only [open', he.ne', he'.ne', hw.ne', hh.ne', or_self, if_false, Option.some.injEq, Frame.mk.injEq, Prod.mk.injEq] at q
    exact q.2.1
  · rintro ⟨rfl, rfl⟩
    exact open_fit f t e a

/-! ## Documents -/

theorem occurs_below {ns : List (Node Attr)} {p m : Node Attr} (hp : p ∈ ns) (hm : Occurs p.kids m) : Occurs ns m := by
  induction ns with
  | nil => simp at hp
  | cons x xs ih =>
    rw [occurs_cons]
    rcases List.mem_cons.1 hp with rfl | h
    · exact Or.inr (Or.inl hm)
    · exact Or.inr (Or.inr (ih h))

/-- An edit keeps what an element shows and the frame of its content. -/
def Keeps (E : Env) (g : Bool → EName → List Attr → List Attr) (b : Bool) (m : EName) (as : List Attr) (f : Option Frame) : Prop :=
  E.content b m (g b m as) f = E.content b m as f ∧ shown m (g b m as) = shown m as

mutual
theorem draw_edit (E : Env) (g : Bool → EName → List Attr → List Attr) (top : Bool) (f : Option Frame) (n : Node Attr)
    (hn : ∀ m as ks, n = .elem m as ks → Keeps E g top m as f)
    (hk : ∀ m as ks, Occurs n.kids (.elem m as ks) → ∀ f', Keeps E g false m as f') :
    E.draw top f (edit g top n) = E.draw top f n := by
  match n with
  | .elem m as ks =>
    have h1 := hn m as ks rfl
    have h2 : ∀ f', E.drawAll false f' (editAll g false ks) = E.drawAll false f' ks := fun f' =>
      drawAll_edit E g false f' ks (fun m' as' ks' ho => hk m' as' ks' (mem_occurs ho) f')
        (fun p hp m' as' ks' ho f'' => hk m' as' ks' (occurs_below hp ho) f'')
    simp only [edit, Env.draw, h1.1, h1.2, h2]
  | .text s => rfl
  | .css s => rfl
  | .comment s => rfl
  | .pi t d => rfl
theorem drawAll_edit (E : Env) (g : Bool → EName → List Attr → List Attr) (top : Bool) (f : Option Frame) (ns : List (Node Attr))
    (hn : ∀ m as ks, .elem m as ks ∈ ns → Keeps E g top m as f)
    (hk : ∀ p ∈ ns, ∀ m as ks, Occurs p.kids (.elem m as ks) → ∀ f', Keeps E g false m as f') :
    E.drawAll top f (editAll g top ns) = E.drawAll top f ns := by
  match ns with
  | [] => rfl
  | n :: ns =>
    have h1 := draw_edit E g top f n (fun m as ks ho => hn m as ks (by rw [ho]; exact List.mem_cons_self))
      (fun m as ks ho => hk n List.mem_cons_self m as ks ho)
    have h2 := drawAll_edit E g top f ns (fun m as ks ho => hn m as ks (List.mem_cons_of_mem _ ho))
      (fun p hp => hk p (List.mem_cons_of_mem _ hp))
    simp only [editAll, Env.drawAll, h1, h2]
end

end Verif.Viewport
