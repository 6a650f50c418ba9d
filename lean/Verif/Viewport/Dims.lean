import Verif.Viewport.Props

/-!
# C52: removing `width` and `height`
-/

namespace Verif.Viewport

open Verif.Tree Verif.Names Verif.Empty
open Verif.Collapse (AName plainName)

/-- The attributes without `width` and `height`. -/
def unsized (as : List Attr) : List Attr :=
  as.filter fun a => ¬ (a.name = plainName "width" ∨ a.name = plainName "height")

/-- What is left of the attributes of an `svg` element: without `width` and `height` if there is a `viewBox`, or if both are
given in absolute units; then there is a view box of that size. -/
def sizeless (as : List Attr) : List Attr :=
  match value as (plainName "viewBox"), value as (plainName "width"), value as (plainName "height") with
  | some _, _, _ => unsized as
  | none, some (.len (.abs vw uw)), some (.len (.abs vh uh)) =>
    unsized as ++ [⟨plainName "viewBox", .box ⟨0, 0, uw.px' vw, uh.px' vh⟩⟩]
  | none, _, _ => as

theorem remove_eq {as : List Attr} (hd : (as.map (·.name)).Nodup) (s : String) :
    remove as s = as.filter fun a => a.name ≠ plainName s := by
  induction as with
  | nil => rfl
  | cons a as ih =>
    simp only [List.map_cons, List.nodup_cons] at hd
    simp only [remove, beq_iff_eq]
    split
    · rename_i hn
      rw [List.filter_cons_of_neg (by simp [hn])]
      refine (List.filter_eq_self.2 fun b hb => ?_).symm
      have : b.name ≠ plainName s := fun e => hd.1 (by rw [hn, ← e]; exact List.mem_map_of_mem hb)
      simp [this]
    · rename_i hn
      rw [List.filter_cons_of_pos (by simp [hn]), ih hd.2]

theorem removes_eq {as : List Attr} (hd : (as.map (·.name)).Nodup) : remove (remove as "width") "height" = unsized as := by
  rw [remove_eq (hd.sublist (names_remove _)), remove_eq hd, List.filter_filter]
  refine List.filter_congr fun a _ => ?_
  by_cases h1 : a.name = plainName "width" <;> by_cases h2 : a.name = plainName "height" <;> simp [h1, h2]

theorem value_unsized {as : List Attr} (hd : (as.map (·.name)).Nodup) (n : AName) :
    value (unsized as) n = if n = plainName "width" ∨ n = plainName "height" then none else value as n := by
  rw [← removes_eq hd, value_remove (hd.sublist (names_remove _)), value_remove hd]
  by_cases h1 : n = plainName "width" <;> by_cases h2 : n = plainName "height" <;> simp [h1, h2]

theorem set_append {as : List Attr} {a : Attr} (h : value as a.name = none) : set as a = as ++ [a] := by
  induction as with
  | nil => rfl
  | cons b as ih =>
    simp only [value] at h
    split at h
    · simp at h
    · rename_i hn
      simp only [set, beq_iff_eq, if_neg hn, ih h, List.cons_append]

theorem dims_eq {top : Bool} {n : EName} {as : List Attr} (hd : (as.map (·.name)).Nodup) (hn : Named n "svg") :
    dimensionsHook top n as = sizeless as := by
  unfold dimensionsHook sizeless
  rw [named_iff.2 hn, find_eq]
  cases hv : value as (plainName "viewBox") with
  | some v => simp only [Option.isSome_some, Bool.not_true, if_true, removes_eq hd, Bool.false_eq_true, if_false]
  | none =>
    simp only [Option.isSome_none, Bool.not_true, Bool.false_eq_true, if_false]
    have hs : ∀ w h : ℚ, set (remove (remove as "width") "height") ⟨plainName "viewBox", .box ⟨0, 0, w, h⟩⟩ =
        unsized as ++ [⟨plainName "viewBox", .box ⟨0, 0, w, h⟩⟩] := by
      intro w h
      rw [removes_eq hd]
      refine set_append ?_
      rw [value_unsized hd, hv]
      simp
    have hsome : ∀ w h : ℚ, (pixels as "width" = some w ∧ pixels as "height" = some h) →
        ∃ vw uw vh uh, value as (plainName "width") = some (.len (.abs vw uw)) ∧ value as (plainName "height") = some (.len (.abs vh uh)) ∧
          uw.px' vw = w ∧ uh.px' vh = h := by
      rintro w h ⟨h1, h2⟩
      obtain ⟨v, u, e, e'⟩ := pixels_iff.1 h1
      obtain ⟨v', u', e1, e1'⟩ := pixels_iff.1 h2
      exact ⟨v, u, v', u', e, e1, e', e1'⟩
    split
    · rename_i w h h1 h2
      obtain ⟨vw, uw, vh, uh, e1, e2, rfl, rfl⟩ := hsome w h ⟨h1, h2⟩
      rw [e1, e2, hs]
    · rename_i hno
      split
      · simp_all
      · rename_i vw uw vh uh _ e1 e2
        exact absurd (pixels_iff.2 ⟨vh, uh, e2, rfl⟩) (hno _ _ (pixels_iff.2 ⟨vw, uw, e1, rfl⟩))
      · rfl

theorem dims_else {top : Bool} {n : EName} {as : List Attr} (hn : ¬ Named n "svg") : dimensionsHook top n as = as := by
  have : n.is "svg" = false := by rwa [← Bool.not_eq_true, named_iff]
  simp [dimensionsHook, this]

/-- **C52 (what is removed)**: every `svg` element, wherever it is, loses `width` and `height` if it has a `viewBox` or if both
are absolute lengths, and then it has a view box. Nothing else in the document changes. -/
theorem dimensions_outline (doc : List (Node Attr)) (hd : Distinct doc) :
    outline (removeDimensions true doc) = (lines doc).filterMap fun l => l.head?.map fun x => (l.length, match x.bare with
      | .elem n as ks => .elem n (if Named n "svg" then sizeless as else as) ks
      | y => y) := by
  rw [show removeDimensions true doc = editAll dimensionsHook true doc from rfl, edit_outline]
  refine List.filterMap_congr fun l hl => ?_
  cases l with
  | nil => rfl
  | cons x l =>
    simp only [List.head?_cons, Option.map_some, Option.some.injEq, Prod.mk.injEq, true_and]
    cases x with
    | elem n as ks =>
      simp only [edit, Node.bare]
      split
      · rename_i hn
        rw [dims_eq (hd n as ks ⟨l, hl⟩) hn]
      · rename_i hn
        rw [dims_else hn]
    | text s => rfl
    | css s => rfl
    | comment s => rfl
    | pi t d => rfl

theorem others_unsized (as : List Attr) : others (unsized as) = others as := by
  simp only [others, unsized, List.filter_filter]
  refine List.filter_congr fun a _ => ?_
  by_cases h1 : a.name = plainName "width" <;> by_cases h2 : a.name = plainName "height" <;> simp [h1, h2]

theorem others_append (as bs : List Attr) : others (as ++ bs) = others as ++ others bs := by
  simp [others, List.filter_append]

theorem others_sizeless (as : List Attr) : others (sizeless as) = others as := by
  unfold sizeless
  split
  · exact others_unsized as
  · rw [others_append, others_unsized]
    simp [others]
  · rfl

theorem value_sizeless {as : List Attr} (hd : (as.map (·.name)).Nodup) {s : String} (h1 : s ≠ "width") (h2 : s ≠ "height") (h3 : s ≠ "viewBox") :
    value (sizeless as) (plainName s) = value as (plainName s) := by
  unfold sizeless
  have hu : value (unsized as) (plainName s) = value as (plainName s) := by
    rw [value_unsized hd, if_neg]
    rintro (h | h)
    · exact plain_ne h1 h
    · exact plain_ne h2 h
  split
  · exact hu
  · rw [value_append, hu]
    simp only [value, if_neg (plain_ne (Ne.symm h3))]
    cases value as (plainName s) <;> rfl
  · rfl

theorem shown_dims {n : EName} {as : List Attr} (hd : (as.map (·.name)).Nodup) (top : Bool) :
    shown n (dimensionsHook top n as) = shown n as := by
  by_cases hn : Named n "svg"
  · rw [dims_eq hd hn]
    simp only [shown, hn, true_or, if_true, others_sizeless]
  · rw [dims_else hn]

theorem extent_first (E : Env) (full : ℚ) (c a : Option Len) (h : E.extent full (first c a) = full) :
    E.extent full (first c none) = full := by
  cases c with
  | none => rfl
  | some l => exact h

theorem top_keeps (E : Env) (canvas : Pt) (n : EName) (as : List Attr) (hd : (as.map (·.name)).Nodup) (hn : Named n "svg")
    (hw : E.extent canvas.1 (first (E.css n (others as)).1 (length as "width")) = canvas.1)
    (hh : E.extent canvas.2 (first (E.css n (others as)).2 (length as "height")) = canvas.2)
    (hc : value as (plainName "viewBox") = none → E.css n (others as) = (none, none)) :
    E.content true n (sizeless as) (some ⟨id, canvas, []⟩) = E.content true n as (some ⟨id, canvas, []⟩) := by
  have hasp : aspect (sizeless as) = aspect as := by
    simp only [aspect, value_sizeless hd (s := "preserveAspectRatio") (by decide) (by decide) (by decide)]
  have hr : E.svgRect true n as ⟨id, canvas, []⟩ = ⟨0, 0, canvas.1, canvas.2⟩ := by
    simp only [Env.svgRect, hw, hh, if_true]
  simp only [Env.content, if_pos hn, Option.bind_some, others_sizeless, hasp, hr]
  have hlen : ∀ s, s = "width" ∨ s = "height" → length (unsized as) s = none := by
    intro s hs
    have : value (unsized as) (plainName s) = none := by
      rw [value_unsized hd, if_pos]
      rcases hs with rfl | rfl <;> simp
    simp only [length, this]
  have hur : E.svgRect true n (unsized as) ⟨id, canvas, []⟩ = ⟨0, 0, canvas.1, canvas.2⟩ := by
    simp only [Env.svgRect, others_unsized, hlen "width" (Or.inl rfl), hlen "height" (Or.inr rfl), extent_first E _ _ _ hw,
      extent_first E _ _ _ hh, if_true]
  unfold sizeless
  split
  · rename_i v hv
    have hvb : viewBox (unsized as) = viewBox as := by
      simp only [viewBox]
      rw [value_unsized hd, if_neg (by simp [plainName])]
    rw [hur, hvb]
  · rename_i vw uw vh uh hv e1 e2
    have hcss := hc hv
    rw [hcss] at hw hh
    have hvb0 : viewBox as = none := by simp only [viewBox, hv]
    have hvb : viewBox (unsized as ++ [⟨plainName "viewBox", .box ⟨0, 0, uw.px' vw, uh.px' vh⟩⟩]) =
        if 0 ≤ uw.px' vw ∧ 0 ≤ uh.px' vh then some ⟨0, 0, uw.px' vw, uh.px' vh⟩ else none := by
      have : value (unsized as ++ [⟨plainName "viewBox", .box ⟨0, 0, uw.px' vw, uh.px' vh⟩⟩]) (plainName "viewBox") =
          some (.box ⟨0, 0, uw.px' vw, uh.px' vh⟩) := by
        rw [value_append, value_unsized hd, if_neg (by simp [plainName]), hv]
        simp [value]
      simp only [viewBox, this]
    have hur' : E.svgRect true n (unsized as ++ [⟨plainName "viewBox", .box ⟨0, 0, uw.px' vw, uh.px' vh⟩⟩]) ⟨id, canvas, []⟩ =
        ⟨0, 0, canvas.1, canvas.2⟩ := by
      rw [← hur]
      have hl : ∀ s, s ≠ "viewBox" → length (unsized as ++ [⟨plainName "viewBox", .box ⟨0, 0, uw.px' vw, uh.px' vh⟩⟩]) s = length (unsized as) s := by
        intro s hs
        simp only [length, value_append, value, if_neg (plain_ne (Ne.symm hs))]
        cases value (unsized as) (plainName s) <;> rfl
      simp only [Env.svgRect, others_append, hl "width" (by decide), hl "height" (by decide), if_true]
      simp [others]
    rw [hur', hvb, hvb0]
    split
    · rename_i hp
      simp only [first, length_abs e1, length_abs e2, extent_abs E _ _ _ hp.1, extent_abs E _ _ _ hp.2] at hw hh
      rw [hw, hh]
      exact open_fit ⟨id, canvas, []⟩ _ ⟨0, 0, canvas.1, canvas.2⟩ _
    · rfl
  · simp only [hr]

/-- **C52 (dimensions, partial)**: if the document is shown on a canvas of its own size, and no `svg` element inside
another one has a width or height, then removing the dimensions does not change the picture. (An `svg` element without a
view box must not get a size from a stylesheet.) Without these conditions: `dimensions_scaled`, `nested_violated`,
`ignored_violated`. -/
theorem dimensions_partial (E : Env) (canvas : Pt) (on : Bool) (doc : List (Node Attr)) (hd : Distinct doc)
    (hsize : ∀ n as ks, .elem n as ks ∈ doc → Named n "svg" →
      E.extent canvas.1 (first (E.css n (others as)).1 (length as "width")) = canvas.1 ∧
      E.extent canvas.2 (first (E.css n (others as)).2 (length as "height")) = canvas.2)
    (hcss : ∀ n as ks, .elem n as ks ∈ doc → Named n "svg" → value as (plainName "viewBox") = none → E.css n (others as) = (none, none))
    (hnest : ∀ p ∈ doc, ∀ n as ks, Occurs p.kids (.elem n as ks) → Named n "svg" →
      value as (plainName "width") = none ∧ value as (plainName "height") = none) :
    E.picture canvas (removeDimensions on doc) = E.picture canvas doc := by
  cases on with
  | false => rfl
  | true =>
    refine drawAll_edit E dimensionsHook true _ doc (fun m as ks hm => ⟨?_, shown_dims (hd m as ks (mem_occurs hm)) true⟩)
      (fun p hp m as ks ho f => ⟨?_, shown_dims (hd m as ks (occurs_below hp ho)) false⟩)
    · by_cases hn : Named m "svg"
      · rw [dims_eq (hd m as ks (mem_occurs hm)) hn]
        exact top_keeps E canvas m as (hd m as ks (mem_occurs hm)) hn (hsize m as ks hm hn).1 (hsize m as ks hm hn).2 (hcss m as ks hm hn)
      · rw [dims_else hn]
    · by_cases hn : Named m "svg"
      · have hdd := hd m as ks (occurs_below hp ho)
        rw [dims_eq hdd hn]
        have h := hnest p hp m as ks ho hn
        have : sizeless as = as := by
          unfold sizeless
          rw [h.1, h.2]
          cases hv : value as (plainName "viewBox") with
          | none => rfl
          | some v =>
            simp only []
            rw [← removes_eq hdd, remove_none h.1, remove_none h.2]
        rw [this]
      · rw [dims_else hn]

/-- The frame of the content of the first element of a picture. -/
def content (l : List Entry) : Option Frame := l.head?.bind (·.within)

/-- **C52 (other canvases)**: a document without a view box, whose size was given by absolute lengths, is then shown on any canvas at
the largest size at which it fits, in the middle. Before it was shown in its own size. -/
theorem dimensions_scaled (E : Env) (n : EName) (as : List Attr) (ks : List (Node Attr)) (hd : (as.map (·.name)).Nodup) (hn : Named n "svg")
    (canvas : Pt) (hW : 0 < canvas.1) (hH : 0 < canvas.2)
    {vw vh : ℚ} {uw uh : AbsUnit} (hb : value as (plainName "viewBox") = none) (hp : value as (plainName "preserveAspectRatio") = none)
    (hw : value as (plainName "width") = some (.len (.abs vw uw))) (hh : value as (plainName "height") = some (.len (.abs vh uh)))
    (pw : 0 < uw.px' vw) (ph : 0 < uh.px' vh) (hc : E.css n (others as) = (none, none)) (ht : E.turn n (others as) = id) :
    (content (E.picture canvas [.elem n as ks])).map (fun f => (f.map, f.base)) = some (id, (uw.px' vw, uh.px' vh)) ∧
    (content (E.picture canvas (removeDimensions true [.elem n as ks]))).map (fun f => (f.map, f.base)) =
      some (fun p =>
        let s := min (canvas.1 / uw.px' vw) (canvas.2 / uh.px' vh)
        (s * p.1 + (canvas.1 - s * uw.px' vw) / 2, s * p.2 + (canvas.2 - s * uh.px' vh) / 2), (uw.px' vw, uh.px' vh)) := by
  have hs : removeDimensions true [.elem n as ks] = [.elem n (sizeless as) (editAll dimensionsHook false ks)] := by
    simp only [removeDimensions, editAll, edit, dims_eq hd hn, if_true]
  have hsz : sizeless as = unsized as ++ [⟨plainName "viewBox", .box ⟨0, 0, uw.px' vw, uh.px' vh⟩⟩] := by
    simp only [sizeless, hb, hw, hh]
  have hvb : viewBox (sizeless as) = some ⟨0, 0, uw.px' vw, uh.px' vh⟩ := by
    have : value (sizeless as) (plainName "viewBox") = some (.box ⟨0, 0, uw.px' vw, uh.px' vh⟩) := by
      rw [hsz, value_append, value_unsized hd, if_neg (by simp [plainName]), hb]
      simp [value]
    simp only [viewBox, this, pw.le, ph.le, and_self, if_true]
  have hlen : ∀ s, s = "width" ∨ s = "height" → length (sizeless as) s = none := by
    intro s hs'
    have : value (sizeless as) (plainName s) = none := by
      rw [hsz, value_append, value_unsized hd, if_pos (by rcases hs' with rfl | rfl <;> simp)]
      rcases hs' with rfl | rfl <;> simp [value, plainName]
    simp only [length, this]
  have hasp : aspect (sizeless as) = .initial := by
    simp only [aspect, value_sizeless hd (s := "preserveAspectRatio") (by decide) (by decide) (by decide), hp]
  have hvb0 : viewBox as = none := by simp only [viewBox, hb]
  constructor
  · simp only [content, Env.picture, Env.drawAll, Env.draw, List.cons_append, List.head?_cons, Option.bind_some, Env.content, if_pos hn,
      Env.svgRect, hc, first, length_abs hw, length_abs hh, extent_abs E _ _ _ pw.le, extent_abs E _ _ _ ph.le, hvb0, if_true, open',
      pw.ne', ph.ne', or_self, if_false, Option.map_some, ht, Option.some.injEq, Prod.mk.injEq, and_true]
    funext p
    simp
  · rw [hs]
    simp only [content, Env.picture, Env.drawAll, Env.draw, List.cons_append, List.head?_cons, Option.bind_some, Env.content, if_pos hn,
      Env.svgRect, others_sizeless, hc, first, hlen "width" (Or.inl rfl), hlen "height" (Or.inr rfl), Env.extent, hvb, if_true, open',
      pw.ne', ph.ne', hW.ne', hH.ne', or_self, if_false, Option.map_some, ht, hasp, Option.some.injEq, Prod.mk.injEq, and_true]
    funext p
    simp only [Aspect.fit, Aspect.factors, Aspect.initial, Side.shift, id]
    ext <;> simp <;> ring

/-- **C52 (opposites)**: on a document whose view boxes fit, removing the dimensions gives the same attributes before and after
removing the view boxes, up to their order. -/
theorem opposite (n : EName) (as : List Attr) (hd : (as.map (·.name)).Nodup) (hn : Named n "svg") (hf : Fits as) :
    ∃ bs cs, removeDimensions true (removeViewBox true [.elem n as []]) = [.elem n bs []] ∧
      removeDimensions true [.elem n as []] = [.elem n cs []] ∧ (∀ m, value bs m = value cs m) ∧ bs.length = cs.length := by
  have hrd : ((remove as "viewBox").map (·.name)).Nodup := hd.sublist (names_remove _)
  refine ⟨sizeless (remove as "viewBox"), sizeless as, ?_, ?_, ?_⟩
  · simp only [removeViewBox, removeDimensions, editAll, edit, hook_fits hf (Or.inl ⟨hn, rfl⟩), dims_eq hrd hn, if_true]
  · simp only [removeDimensions, editAll, edit, dims_eq hd hn, if_true]
  · obtain ⟨w, h, vw, uw, vh, uh, hb, hw, hh, rfl, rfl⟩ := hf
    have h1 : sizeless as = unsized as := by simp only [sizeless, hb]
    have h2 : sizeless (remove as "viewBox") = unsized (remove as "viewBox") ++ [⟨plainName "viewBox", .box ⟨0, 0, uw.px' vw, uh.px' vh⟩⟩] := by
      have e1 : value (remove as "viewBox") (plainName "viewBox") = none := by rw [value_remove hd, if_pos rfl]
      have e2 : value (remove as "viewBox") (plainName "width") = value as (plainName "width") := by
        rw [value_remove hd, if_neg (by simp [plainName])]
      have e3 : value (remove as "viewBox") (plainName "height") = value as (plainName "height") := by
        rw [value_remove hd, if_neg (by simp [plainName])]
      simp only [sizeless, e1, e2, e3, hw, hh]
    constructor
    · intro m
      rw [h1, h2, value_append, value_unsized hrd, value_unsized hd, value_remove hd]
      by_cases q1 : m = plainName "viewBox"
      · subst q1
        have q : ¬ (plainName "viewBox" = plainName "width" ∨ plainName "viewBox" = plainName "height") := by simp [plainName]
        simp [value, hb, q]
      · have : ¬ plainName "viewBox" = m := Ne.symm q1
        by_cases q2 : m = plainName "width" ∨ m = plainName "height"
        · simp [q1, q2, value, this]
        · simp only [q1, q2, if_false, value, this]
          cases value as m <;> rfl
    · rw [h1, h2, List.length_append, List.length_singleton, remove_eq hd]
      have : ∀ (l : List Attr), (l.map (·.name)).Nodup → value l (plainName "viewBox") ≠ none →
          (unsized (l.filter fun a => a.name ≠ plainName "viewBox")).length + 1 = (unsized l).length := by
        intro l
        induction l with
        | nil => simp [value]
        | cons a l ih =>
          intro hl hv
          simp only [List.map_cons, List.nodup_cons] at hl
          by_cases ha : a.name = plainName "viewBox"
          · have hall : l.filter (fun a => a.name ≠ plainName "viewBox") = l := by
              refine List.filter_eq_self.2 fun b hb => ?_
              have : b.name ≠ plainName "viewBox" := fun e => hl.1 (by rw [ha, ← e]; exact List.mem_map_of_mem hb)
              simp [this]
            rw [List.filter_cons_of_neg (by simp [ha]), hall]
            simp only [unsized]
            rw [List.filter_cons_of_pos (by simp [ha, plainName])]
            simp
          · have hv' : value l (plainName "viewBox") ≠ none := by simpa [value, ha] using hv
            have := ih hl.2 hv'
            rw [List.filter_cons_of_pos (by simp [ha])]
            simp only [unsized] at this ⊢
            by_cases hz : a.name = plainName "width" ∨ a.name = plainName "height"
            · rw [List.filter_cons_of_neg (by simp [hz]), List.filter_cons_of_neg (by simp [hz])]
              exact this
            · rw [List.filter_cons_of_pos (by simp [hz]), List.filter_cons_of_pos (by simp [hz])]
              simp only [List.length_cons]
              omega
      exact this as hd (by rw [hb]; simp)

end Verif.Viewport
