import Verif.Viewport.Lemmas

/-!
# C52: removing `viewBox`, or `width` and `height`
-/

namespace Verif.Viewport

open Verif.Tree Verif.Names Verif.Empty
open Verif.Collapse (AName plainName)

/-! ## What the jobs change -/

theorem hook_fits {top : Bool} {n : EName} {as : List Attr} (hf : Fits as)
    (hn : Named n "svg" ∧ top = true ∨ Named n "symbol" ∨ Named n "pattern") : viewBoxHook top n as = remove as "viewBox" := by
  obtain ⟨w, h, vw, uw, vh, uh, hb, hw, hh, rfl, rfl⟩ := hf
  have h1 := (pixels_iff (as := as) (s := "width")).2 ⟨vw, uw, hw, rfl⟩
  have h2 := (pixels_iff (as := as) (s := "height")).2 ⟨vh, uh, hh, rfl⟩
  have ha : among ["pattern", "svg", "symbol"] n = true := by
    simp only [among, List.any_cons, List.any_nil, Bool.or_false, Bool.or_eq_true, named_iff]
    tauto
  have hs : (n.is "svg" && !top) = false := by
    rcases hn with ⟨_, rfl⟩ | h | h
    · simp
    all_goals
      have : n.is "svg" = false := by
        rw [← Bool.not_eq_true, named_iff]
        intro q
        exact absurd (q.2.symm.trans h.2) (by decide)
      simp [this]
  simp only [viewBoxHook, ha, find_eq, hb, h1, h2, hs]
  simp

theorem hook_else {top : Bool} {n : EName} {as : List Attr}
    (h : ¬ (Fits as ∧ (Named n "svg" ∧ top = true ∨ Named n "symbol" ∨ Named n "pattern"))) : viewBoxHook top n as = as := by
  unfold viewBoxHook
  split
  · rfl
  · rename_i ha
    split
    · rename_i b w hh hb hw hh'
      split
      · rfl
      · rename_i hs
        split
        · rename_i hq
          refine absurd ⟨?_, ?_⟩ h
          · obtain ⟨v, u, e, e'⟩ := pixels_iff.1 hw
            obtain ⟨v', u', e1, e1'⟩ := pixels_iff.1 hh'
            rw [find_eq] at hb
            simp only [Bool.and_eq_true, beq_iff_eq] at hq
            obtain ⟨⟨⟨q1, q2⟩, q3⟩, q4⟩ := hq
            refine ⟨w, hh, v, u, v', u', ?_, e, e1, e', e1'⟩
            rw [hb]
            cases b
            simp_all
          · simp only [among, List.any_cons, List.any_nil, Bool.or_false, Bool.not_eq_true', Bool.not_eq_false, Bool.or_eq_true, named_iff] at ha
            simp only [Bool.and_eq_true, Bool.not_eq_true', not_and, Bool.not_eq_false, named_iff] at hs
            tauto
        · rfl
    · rfl

mutual
theorem lines_edit {B : Type} (g : Bool → EName → List B → List B) (top : Bool) (anc : List (Node B)) (n : Node B) (ha : top = anc.isEmpty) (anc' : List (Node B))
    (hl : anc'.length = anc.length) : ((edit g top n).lines anc').map (fun l => (l.length, l.head?.map Node.bare)) =
      (n.lines anc).map (fun l => (l.length, l.head?.map fun x => (edit g (l.length == 1) x).bare)) := by
  match n with
  | .elem m as ks =>
    have hk := linesAll_edit g false (.elem m as ks :: anc) ks rfl (.elem m (g top m as) (editAll g false ks) :: anc') (by simp [hl])
    have ht : (anc.length == 0) = top := by
      subst ha
      cases anc <;> simp
    simp only [edit, Node.lines, List.map_cons, hk, List.length_cons, hl, List.head?_cons, Option.map_some]
    have : (anc.length + 1 == 1) = top := by rw [← ht]; simp
    rw [this]
  | .text s => simp [edit, Node.lines, hl]
  | .css s => simp [edit, Node.lines, hl]
  | .comment s => simp [edit, Node.lines, hl]
  | .pi t d => simp [edit, Node.lines, hl]
theorem linesAll_edit {B : Type} (g : Bool → EName → List B → List B) (top : Bool) (anc : List (Node B)) (ns : List (Node B)) (ha : top = anc.isEmpty)
    (anc' : List (Node B)) (hl : anc'.length = anc.length) :
    (linesAll anc' (editAll g top ns)).map (fun l => (l.length, l.head?.map Node.bare)) =
      (linesAll anc ns).map (fun l => (l.length, l.head?.map fun x => (edit g (l.length == 1) x).bare)) := by
  match ns with
  | [] => rfl
  | n :: ns =>
    simp only [editAll, linesAll, List.map_append, lines_edit g top anc n ha anc' hl, linesAll_edit g top anc ns ha anc' hl]
end

/-- The document after a job, node by node: the node at depth 1 is one of the document. -/
theorem edit_outline {B : Type} (g : Bool → EName → List B → List B) (doc : List (Node B)) :
    outline (editAll g true doc) =
      (lines doc).filterMap fun l => l.head?.map fun x => (l.length, (edit g (l.length == 1) x).bare) := by
  have h := congrArg (List.filterMap fun p : Nat × Option (Node B) => p.2.map fun x => (p.1, x))
    (linesAll_edit g true [] doc rfl [] rfl)
  simp only [List.filterMap_map] at h
  rw [show outline (editAll g true doc) = (linesAll [] (editAll g true doc)).filterMap
    ((fun p : Nat × Option (Node B) => p.2.map fun x => (p.1, x)) ∘ fun l => (l.length, l.head?.map Node.bare)) from ?_, h]
  · refine List.filterMap_congr fun l _ => ?_
    cases l <;> rfl
  · refine List.filterMap_congr fun l _ => ?_
    cases l <;> rfl

open Classical in
/-- **C52 (what is removed)**: `viewBox` goes away from exactly those patterns and symbols, and those `svg` elements at the top of
the document, whose view box begins in the origin and has the width and height that the attributes `width` and `height` give in an
absolute unit. Nothing else in the document changes. -/
theorem view_box_outline (doc : List (Node Attr)) (hd : Distinct doc) :
    outline (removeViewBox true doc) = (lines doc).filterMap fun l => l.head?.map fun x => (l.length, match x.bare with
      | .elem n as ks =>
        if Fits as ∧ (Named n "svg" ∧ l.length = 1 ∨ Named n "symbol" ∨ Named n "pattern")
        then .elem n (as.filter fun a => a.name ≠ plainName "viewBox") ks else .elem n as ks
      | y => y) := by
  rw [show removeViewBox true doc = editAll viewBoxHook true doc from rfl, edit_outline]
  refine List.filterMap_congr fun l hl => ?_
  cases l with
  | nil => rfl
  | cons x l =>
    simp only [List.head?_cons, Option.map_some, Option.some.injEq, Prod.mk.injEq, true_and]
    cases x with
    | elem n as ks =>
      simp only [edit, Node.bare]
      have hnd := hd n as ks ⟨l, hl⟩
      have hrem : remove as "viewBox" = as.filter fun a => a.name ≠ plainName "viewBox" := by
        clear hl
        induction as with
        | nil => rfl
        | cons a as ih =>
          simp only [List.map_cons, List.nodup_cons] at hnd
          simp only [remove, beq_iff_eq]
          split
          · rename_i hn
            rw [List.filter_cons_of_neg (by simp [hn])]
            refine (List.filter_eq_self.2 fun b hb => ?_).symm
            have : b.name ≠ plainName "viewBox" := fun e => hnd.1 (by rw [hn, ← e]; exact List.mem_map_of_mem hb)
            simp [this]
          · rename_i hn
            rw [List.filter_cons_of_pos (by simp [hn]), ih hnd.2]
      split
      · rename_i hc
        rw [hook_fits hc.1 (by simpa using hc.2), hrem]
      · rename_i hc
        rw [hook_else (by simpa using hc)]
    | text s => rfl
    | css s => rfl
    | comment s => rfl
    | pi t d => rfl

/-- **C52 (switch)**: a job that is switched off leaves the document. -/
theorem off (doc : List (Node Attr)) : removeViewBox false doc = doc ∧ removeDimensions false doc = doc := ⟨rfl, rfl⟩

/-! ## The picture -/

theorem shown_viewBox (n : EName) (as : List Attr) (top : Bool) : shown n (viewBoxHook top n as) = shown n as := by
  by_cases h : Fits as ∧ (Named n "svg" ∧ top = true ∨ Named n "symbol" ∨ Named n "pattern")
  · rw [hook_fits h.1 h.2]
    simp only [shown]
    split
    · exact others_remove as "viewBox" (Or.inl rfl)
    · rename_i hn
      exact absurd (by rcases h.2 with h | h | h <;> simp [h]) hn
  · rw [hook_else h]

theorem length_remove {as : List Attr} (hd : (as.map (·.name)).Nodup) {s t : String} (h : t ≠ s) :
    length (remove as s) t = length as t := by
  simp only [length, value_remove hd, if_neg (plain_ne h)]

theorem aspect_remove {as : List Attr} (hd : (as.map (·.name)).Nodup) {s : String} (h : "preserveAspectRatio" ≠ s) :
    aspect (remove as s) = aspect as := by
  simp only [aspect, value_remove hd, if_neg (plain_ne h)]

theorem viewBox_removed {as : List Attr} (hd : (as.map (·.name)).Nodup) : viewBox (remove as "viewBox") = none := by
  simp only [viewBox, value_remove hd, if_pos]

theorem viewBox_fits {as : List Attr} {w h : ℚ} (hb : value as (plainName "viewBox") = some (.box ⟨0, 0, w, h⟩)) :
    viewBox as = if 0 ≤ w ∧ 0 ≤ h then some ⟨0, 0, w, h⟩ else none := by
  simp only [viewBox, hb]

theorem length_abs {as : List Attr} {s : String} {v : ℚ} {u : AbsUnit} (h : value as (plainName s) = some (.len (.abs v u))) :
    length as s = some (.abs v u) := by
  simp only [length, h]

theorem extent_abs (E : Env) (full v : ℚ) (u : AbsUnit) (h : 0 ≤ u.px' v) : E.extent full (some (.abs v u)) = u.px' v :=
  if_pos h

theorem svg_keeps (E : Env) (n : EName) (as : List Attr) (f : Option Frame) (hd : (as.map (·.name)).Nodup) (hn : Named n "svg")
    (hf : Fits as) (hc : E.css n (others as) = (none, none)) :
    E.content true n (remove as "viewBox") f = E.content true n as f := by
  simp only [Env.content, if_pos hn, others_remove as "viewBox" (Or.inl rfl), viewBox_removed hd, aspect_remove hd (s := "viewBox") (by decide)]
  congr 1
  funext f
  have hr : E.svgRect true n (remove as "viewBox") f = E.svgRect true n as f := by
    simp only [Env.svgRect, others_remove as "viewBox" (Or.inl rfl), length_remove hd (s := "viewBox") (t := "width") (by decide),
      length_remove hd (s := "viewBox") (t := "height") (by decide), if_true]
  rw [hr]
  obtain ⟨w, h, vw, uw, vh, uh, hb, hw, hh, rfl, rfl⟩ := hf
  rw [viewBox_fits hb]
  split
  · rename_i hp
    have hr' : E.svgRect true n as f = ⟨0, 0, uw.px' vw, uh.px' vh⟩ := by
      simp only [Env.svgRect, hc, first, length_abs hw, length_abs hh, extent_abs E _ _ _ hp.1, extent_abs E _ _ _ hp.2, if_true]
    rw [hr']
    exact (open_fit f (E.turn n (others as)) ⟨0, 0, uw.px' vw, uh.px' vh⟩ (aspect as)).symm
  · rfl

theorem symbol_rect (E : Env) (n : EName) (as : List Attr) (hd : (as.map (·.name)).Nodup) :
    E.symbolRect n (remove as "viewBox") = E.symbolRect n as := by
  simp only [Env.symbolRect, others_remove as "viewBox" (Or.inl rfl), length_remove hd (s := "viewBox") (t := "width") (by decide),
    length_remove hd (s := "viewBox") (t := "height") (by decide), length_remove hd (s := "viewBox") (t := "x") (by decide),
    length_remove hd (s := "viewBox") (t := "y") (by decide)]

theorem not_svg_of_symbol {n : EName} (h : Named n "symbol") : ¬ Named n "svg" := fun q => absurd (q.2.symm.trans h.2) (by decide)
theorem not_svg_of_pattern {n : EName} (h : Named n "pattern") : ¬ Named n "svg" := fun q => absurd (q.2.symm.trans h.2) (by decide)
theorem not_symbol_of_pattern {n : EName} (h : Named n "pattern") : ¬ Named n "symbol" := fun q => absurd (q.2.symm.trans h.2) (by decide)

theorem symbol_keeps (E : Env) (top : Bool) (n : EName) (as : List Attr) (f : Option Frame) (hd : (as.map (·.name)).Nodup) (hn : Named n "symbol")
    (hf : Fits as) (hc : E.css n (others as) = (none, none)) (hu : E.use.2 = (none, none)) :
    E.content top n (remove as "viewBox") f = E.content top n as f := by
  simp only [Env.content, if_neg (not_svg_of_symbol hn), if_pos hn, others_remove as "viewBox" (Or.inl rfl), viewBox_removed hd,
    aspect_remove hd (s := "viewBox") (by decide), symbol_rect E n as hd]
  obtain ⟨w, h, vw, uw, vh, uh, hb, hw, hh, rfl, rfl⟩ := hf
  rw [viewBox_fits hb]
  split
  · rename_i hp
    have h1 : (E.symbolRect n as).w = uw.px' vw := by
      simp only [Env.symbolRect, hc, hu, first, length_abs hw, extent_abs E _ _ _ hp.1]
    have h2 : (E.symbolRect n as).h = uh.px' vh := by
      simp only [Env.symbolRect, hc, hu, first, length_abs hh, extent_abs E _ _ _ hp.2]
    rw [← h1, ← h2]
    exact (open_fit E.use.1 (E.turn n (others as)) (E.symbolRect n as) (aspect as)).symm
  · rfl

/-- What a pattern needs so that its view box is not needed: its tile is given in the space of what is painted and begins in the
origin, its content is in the same space, and there is no other view box. -/
def Settled (E : Env) (as : List Attr) : Prop :=
  value as (plainName "patternUnits") = some (.raw (lit "userSpaceOnUse")) ∧
  value as (plainName "patternContentUnits") ∈ [none, some (.raw (lit "userSpaceOnUse"))] ∧
  (∀ s ∈ ["x", "y"], value as (plainName s) ∈ [none, some (.len (.abs 0 .px))]) ∧
  ∀ s ∈ ["viewBox", "patternContentUnits", "x", "y"], value E.paint.2.2 (plainName s) = none

theorem value_append (as bs : List Attr) (n : AName) :
    value (as ++ bs) n = match value as n with
      | some v => some v
      | none => value bs n := by
  induction as with
  | nil => rfl
  | cons a as ih =>
    simp only [List.cons_append, value]
    split
    · rfl
    · exact ih

theorem value_resolved (E : Env) {as : List Attr} (hd : (as.map (·.name)).Nodup) {s : String} (h : s ≠ "viewBox") :
    value (E.resolved (remove as "viewBox")) (plainName s) = value (E.resolved as) (plainName s) := by
  simp only [Env.resolved, value_append, value_remove hd, if_neg (plain_ne h)]

theorem relative_resolved (E : Env) {as : List Attr} (hd : (as.map (·.name)).Nodup) {s : String} (h : s ≠ "viewBox") (i : Bool) :
    relative (E.resolved (remove as "viewBox")) s i = relative (E.resolved as) s i := by
  unfold relative
  rw [value_resolved E hd h]

theorem length_resolved (E : Env) {as : List Attr} (hd : (as.map (·.name)).Nodup) {s : String} (h : s ≠ "viewBox") :
    length (E.resolved (remove as "viewBox")) s = length (E.resolved as) s := by
  unfold length
  rw [value_resolved E hd h]

theorem tile_remove (E : Env) (as : List Attr) (hd : (as.map (·.name)).Nodup) : E.tile (remove as "viewBox") = E.tile as := by
  simp only [Env.tile, relative_resolved E hd (s := "patternUnits") (by decide), length_resolved E hd (s := "x") (by decide),
    length_resolved E hd (s := "y") (by decide), length_resolved E hd (s := "width") (by decide),
    length_resolved E hd (s := "height") (by decide)]

theorem pattern_keeps (E : Env) (top : Bool) (n : EName) (as : List Attr) (f : Option Frame) (hd : (as.map (·.name)).Nodup) (hn : Named n "pattern")
    (hf : Fits as) (hs : Settled E as) :
    E.content top n (remove as "viewBox") f = E.content top n as f := by
  simp only [Env.content, if_neg (not_svg_of_pattern hn), if_neg (not_symbol_of_pattern hn), if_pos hn]
  obtain ⟨w, h, vw, uw, vh, uh, hb, hw, hh, rfl, rfl⟩ := hf
  obtain ⟨s1, s2, s3, s4⟩ := hs
  have hvb : viewBox (E.resolved (remove as "viewBox")) = none := by
    simp only [viewBox, Env.resolved, value_append, value_remove hd, if_pos, s4 "viewBox" (by simp)]
  have hvb' : viewBox (E.resolved as) = if 0 ≤ uw.px' vw ∧ 0 ≤ uh.px' vh then some ⟨0, 0, uw.px' vw, uh.px' vh⟩ else none := by
    simp only [viewBox, Env.resolved, value_append, hb]
  have hpc : relative (E.resolved as) "patternContentUnits" false = false := by
    simp only [relative, Env.resolved, value_append]
    simp only [List.mem_cons, List.not_mem_nil, or_false] at s2
    rcases s2 with s2 | s2 <;> rw [s2]
    · rw [s4 "patternContentUnits" (by simp)]
    · exact (by decide : (if lit "userSpaceOnUse" = lit "objectBoundingBox" then true
        else if lit "userSpaceOnUse" = lit "userSpaceOnUse" then false else false) = false)
  have hpc' : relative (E.resolved (remove as "viewBox")) "patternContentUnits" false = false := by
    exact (relative_resolved E hd (s := "patternContentUnits") (by decide) false).trans hpc
  have hpu : relative (E.resolved as) "patternUnits" true = false := by
    simp only [relative, Env.resolved, value_append, s1]
    exact (by decide : (if lit "userSpaceOnUse" = lit "objectBoundingBox" then true
        else if lit "userSpaceOnUse" = lit "userSpaceOnUse" then false else true) = false)
  have hlen : ∀ s ∈ ["x", "y"], length (E.resolved as) s = none ∨ length (E.resolved as) s = some (.abs 0 .px) := by
    intro s hs'
    have h1 := s3 s hs'
    have h2 := s4 s (by simp only [List.mem_cons, List.not_mem_nil, or_false] at hs' ⊢; tauto)
    simp only [length, Env.resolved, value_append]
    simp only [List.mem_cons, List.not_mem_nil, or_false] at h1
    rcases h1 with h1 | h1 <;> rw [h1]
    · rw [h2]; simp
    · simp
  have hwid : length (E.resolved as) "width" = some (.abs vw uw) := by
    simp only [length, Env.resolved, value_append, hw]
  have hhei : length (E.resolved as) "height" = some (.abs vh uh) := by
    simp only [length, Env.resolved, value_append, hh]
  have ht : E.tile as = ⟨0, 0, uw.px' vw, uh.px' vh⟩ := by
    simp only [Env.tile, hpu, hwid, hhei, Env.used]
    rcases hlen "x" (by simp) with hx | hx <;> rcases hlen "y" (by simp) with hy | hy <;>
      simp [hx, hy, AbsUnit.px', AbsUnit.perInch]
  simp only [Env.patternFrame, tile_remove E as hd, hvb, hvb', hpc', others_remove as "viewBox" (Or.inl rfl), ht]
  by_cases hp : uw.px' vw ≤ 0 ∨ uh.px' vh ≤ 0
  · simp only [if_pos hp]
  · push Not at hp
    have h1 : ¬ (uw.px' vw ≤ 0 ∨ uh.px' vh ≤ 0) := by push Not; exact hp
    simp only [if_neg h1, hp.1.le, hp.2.le, and_self, if_true]
    have := open_fit E.paint.1 (E.turn n (others as)) ⟨0, 0, uw.px' vw, uh.px' vh⟩ (aspect (E.resolved as))
    simp only [this]
    simp [open', hp.1.ne', hp.2.ne']

/-- **C52 (view box, partial)**: removing view boxes does not change the picture on any canvas, if no stylesheet or style gives a
size to the elements that lose their view box, no `use` gives one to a symbol, and patterns are settled. Without
these conditions the picture changes: `symbol_violated`, `pattern_violated`, `offset_violated`, `template_violated`,
`style_violated`. -/
theorem view_box_partial (E : Env) (canvas : Pt) (on : Bool) (doc : List (Node Attr)) (hd : Distinct doc)
    (hroot : ∀ n as ks, .elem n as ks ∈ doc → Named n "svg" → Fits as → E.css n (others as) = (none, none))
    (hsym : ∀ n as ks, Occurs doc (.elem n as ks) → Named n "symbol" → Fits as →
      E.css n (others as) = (none, none) ∧ E.use.2 = (none, none))
    (hpat : ∀ n as ks, Occurs doc (.elem n as ks) → Named n "pattern" → Fits as → Settled E as) :
    E.picture canvas (removeViewBox on doc) = E.picture canvas doc := by
  cases on with
  | false => rfl
  | true =>
    have hkeep : ∀ top n as ks, Occurs doc (.elem n as ks) → (top = true → .elem n as ks ∈ doc) → ∀ f, Keeps E viewBoxHook top n as f := by
      intro top n as ks ho ht f
      refine ⟨?_, shown_viewBox n as top⟩
      by_cases h : Fits as ∧ (Named n "svg" ∧ top = true ∨ Named n "symbol" ∨ Named n "pattern")
      · rw [hook_fits h.1 h.2]
        have hn := hd n as ks ho
        rcases h.2 with ⟨h2, rfl⟩ | h2 | h2
        · exact svg_keeps E n as f hn h2 h.1 (hroot n as ks (ht rfl) h2 h.1)
        · exact symbol_keeps E top n as f hn h2 h.1 (hsym n as ks ho h2 h.1).1 (hsym n as ks ho h2 h.1).2
        · exact pattern_keeps E top n as f hn h2 h.1 (hpat n as ks ho h2 h.1)
      · rw [hook_else h]
    exact drawAll_edit E viewBoxHook true _ doc (fun m as ks hm => hkeep true m as ks (mem_occurs hm) (fun _ => hm) _)
      (fun p hp m as ks ho f => hkeep false m as ks (occurs_below hp ho) (by simp) f)

/-- **C52 (symbols)**: the content of a symbol that loses its view box is drawn as before exactly if the size of its instance is the size
of the view box. -/
theorem symbol_iff (E : Env) (canvas : Pt) (n : EName) (as : List Attr) (hd : (as.map (·.name)).Nodup) (hn : Named n "symbol")
    {w h vw vh : ℚ} {uw uh : AbsUnit} (hb : value as (plainName "viewBox") = some (.box ⟨0, 0, w, h⟩))
    (hw : value as (plainName "width") = some (.len (.abs vw uw))) (hh : value as (plainName "height") = some (.len (.abs vh uh)))
    (ew : uw.px' vw = w) (eh : uh.px' vh = h) (pw : 0 < w) (ph : 0 < h)
    (iw : 0 < (E.symbolRect n as).w) (ih : 0 < (E.symbolRect n as).h) :
    E.picture canvas (removeViewBox true [.elem n as []]) = E.picture canvas [.elem n as []] ↔
      (E.symbolRect n as).w = w ∧ (E.symbolRect n as).h = h := by
  have hf : Fits as := ⟨w, h, vw, uw, vh, uh, hb, hw, hh, ew, eh⟩
  have he : removeViewBox true [.elem n as []] = [.elem n (remove as "viewBox") []] := by
    simp only [removeViewBox, editAll, edit, hook_fits hf (Or.inr (Or.inl hn)), if_true]
  have hsh : shown n (remove as "viewBox") = shown n as := by
    rw [← shown_viewBox n as true, hook_fits hf (Or.inr (Or.inl hn))]
  rw [he]
  simp only [Env.picture, Env.drawAll, Env.draw, List.append_nil, hsh, List.cons.injEq, Entry.mk.injEq, true_and, and_true,
    Env.content, if_neg (not_svg_of_symbol hn), if_pos hn, others_remove as "viewBox" (Or.inl rfl), viewBox_removed hd,
    aspect_remove hd (s := "viewBox") (by decide), symbol_rect E n as hd]
  rw [viewBox_fits hb, if_pos ⟨pw.le, ph.le⟩, eq_comm, open_iff E.use.1 _ (E.symbolRect n as) (aspect as) pw ph iw ih]
  constructor <;> rintro ⟨h1, h2⟩ <;> exact ⟨h1.symm, h2.symm⟩

end Verif.Viewport
