import Verif.Canvas.Lemmas

/-! # Removing paths outside of the canvas keeps what is filled inside of it -/

namespace Verif.Canvas

open Verif.Segment Verif.Gjk Verif.Tree

variable {V : Type}

/-- **C64 (a path).** A path that goes has nothing to paint inside of the canvas: for every subpath, a line runs between all that filling it paints and
the canvas. -/
theorem go_apart {tol : Rat} {b : Box} {c : List Cmd} (hc : MergePaths.Good c) (h : fate tol b c = some .go) :
    ∀ u ∈ subpaths c, u.ops ≠ [] → Apart (inside b) (MergePaths.area u) ∧ MergePaths.area u ∩ inside b = ∅ := by
  intro u hu hne
  unfold fate at h
  split at h
  · cases h
  · split at h
    · cases h
    · next segs hsegs =>
      split at h
      · cases h
      · cases h
      · next hi =>
        obtain ⟨segs', e, hcov⟩ := MergePaths.segments_cover tol (good_closed hc)
        rw [hsegs] at e
        cases e
        have hu' : ∃ v ∈ subpaths (closed c), MergePaths.area v = MergePaths.area u ∧ v.ops ≠ [] := by
          unfold closed
          split
          · have : (u.start, u.ops) ∈ ((subpaths c).filter fun u => !u.ops.isEmpty).map fun u => (u.start, u.ops) := by
              refine List.mem_map_of_mem (f := fun u : Sub => (u.start, u.ops)) (List.mem_filter.mpr ⟨hu, ?_⟩)
              cases h : u.ops
              · exact absurd h hne
              · rfl
            rw [← subpaths_close, List.mem_map] at this
            obtain ⟨v, hv, e⟩ := this
            obtain ⟨e1, e2⟩ := Prod.ext_iff.mp e
            simp only at e1 e2
            refine ⟨v, (List.mem_filter.mp hv).1, ?_, e2 ▸ hne⟩
            rw [area_pair v, area_pair u, e1, e2]
          · exact ⟨u, hu, rfl, hne⟩
        obtain ⟨v, hv, ea, hvn⟩ := hu'
        obtain ⟨s, hs, hsd, hsa⟩ := hcov v hv hvn
        have hj : ∀ s ∈ [frame b] ++ segs.map MergePaths.realSeg, Gjk.Joined s.start s.data := by
          intro s hs
          rcases List.mem_append.mp hs with hs | hs
          · obtain rfl : s = frame b := by simpa using hs
            exact ⟨trivial, trivial, trivial, trivial⟩
          · obtain ⟨s', -, rfl⟩ := List.mem_map.mp hs
            exact MergePaths.realList_joined _ _
        obtain ⟨⟨n, hn, k1⟩, k2, -⟩ := intersects_no_real hj hi (frame b) (by simp) (MergePaths.realSeg s) (List.mem_map_of_mem hs) (by simp [frame])
          (MergePaths.realList_ne hsd)
        rw [← ea]
        refine ⟨⟨n, hn, fun x hx y hy => k1 x (inside_sub b hx) y (hsa hy)⟩, ?_⟩
        rw [Set.inter_comm]
        exact Set.disjoint_iff_inter_eq_empty.mp (k2.mono (inside_interior b) hsa)

/-- **C64 (a path).** What stays of a path paints the same. -/
theorem stay_seen {tol : Rat} {b : Box} {c c' : List Cmd} (h : fate tol b c = some (.stayAs c')) : seen b c' = seen b c := by
  unfold fate at h
  split at h
  · cases h
  · split at h
    · cases h
    · split at h
      · cases h
      · cases h
        exact seen_closed b c
      · cases h

/-- **C64 (a path).** It does not panic for path data as the parser leaves them. -/
theorem fate_total (tol : Rat) (b : Box) {c : List Cmd} (h : MergePaths.Valid c) : ∃ f, fate tol b c = some f := by
  unfold fate
  split
  · exact ⟨_, rfl⟩
  · have hv : ∃ segs, fromSvg tol (closed c) = some segs := by
      unfold closed
      split
      · next hl =>
        rcases h with rfl | ⟨p, cs, rfl | rfl⟩
        · cases hl
        · exact ⟨_, rfl⟩
        · exact ⟨_, rfl⟩
      · rcases h with rfl | ⟨p, cs, rfl | rfl⟩ <;> exact ⟨_, rfl⟩
    obtain ⟨segs, e⟩ := hv
    rw [e]
    obtain ⟨r, hr⟩ := intersects_total ArcR.nest [frame b] (segs.map MergePaths.realSeg) (by
      intro s hs
      have : Gjk.Joined s.start s.data := by
        rcases List.mem_append.mp hs with hs | hs
        · obtain rfl : s = frame b := by simpa using hs
          exact ⟨trivial, trivial, trivial, trivial⟩
        · obtain ⟨s', -, rfl⟩ := List.mem_map.mp hs
          exact MergePaths.realList_joined _ _
      exact covered_ne (joined_covers this))
    simp only [hr]
    cases r <;> exact ⟨_, rfl⟩

/-! ## Documents -/

/-- All path data below are good. -/
def Below (P : List Cmd → Prop) (anc ns : List (Node (Attr V))) : Prop :=
  ∀ n as ks l, (Node.elem n as ks :: l) ∈ linesAll anc ns → n.is "path" = true → ∀ c, dataOf as = some c → P c

open Classical in
theorem look_areas (b : Box) {n : EName} {as as' : List (Attr V)} {ks ks' l k : List (Node (Attr V))} {c c' : List Cmd} (hc : dataOf as = some c)
    (hc' : dataOf as' = some c') (hs : seen b c' = seen b c) (hr : rest as' = rest as) (hl : l.map Node.bare = k.map Node.bare) :
    look b (.elem n as' ks' :: l) = look b (.elem n as ks :: k) := by
  simp only [look]
  apply if_congr _ _ rfl
  · simp only [any_bare hl, hc, hc', Option.some.injEq, exists_eq_left', hs]
  · rw [hl, hr, hc, hc', Option.map_some, Option.map_some, hs]

theorem look_none (b : Box) {n : EName} {as : List (Attr V)} {ks l : List (Node (Attr V))} {c : List Cmd} (hc : dataOf as = some c)
    (hs : ∀ s ∈ seen b c, s = ∅) : look b (.elem n as ks :: l) = none := by
  simp only [look]
  rw [if_neg]
  rintro ⟨-, -, c', e, s, h, hne⟩
  rw [hc] at e
  cases e
  exact hne.ne_empty (hs s h)

theorem fateOf_path {tol : Rat} {b : Box} {n : EName} {as : List (Attr V)} {f : Fate} (h : fateOf tol (some b) n as = some f) :
    f = .stay ∨ n.is "path" = true ∧ ∃ c, dataOf as = some c ∧ fate tol b c = some f := by
  unfold fateOf at h
  split at h
  · next hn =>
    cases hd : dataOf as with
    | none => rw [hd] at h; cases h; exact .inl rfl
    | some c => rw [hd] at h; exact .inr ⟨hn, c, rfl, h⟩
  · cases h; exact .inl rfl

mutual
theorem visit_shown {tol : Rat} {b : Box} : ∀ (n : Node (Attr V)) {out l k : List (Node (Attr V))}, k.map Node.bare = l.map Node.bare →
    Below MergePaths.Good l [n] → visit tol (some b) n = some out → (linesAll k out).filterMap (look b) = (n.lines l).filterMap (look b)
  | .elem n as ks, out, l, k, hl, hp, h => by
    have hsame : ∀ m : Node (Attr V), (linesAll k [m]).filterMap (look b) = (m.lines l).filterMap (look b) := by
      intro m
      simp only [linesAll, List.append_nil]
      exact lines_congr b m hl
    unfold visit at h
    split at h
    · cases h
      exact hsame _
    · split at h
      · next f ks' hf hks =>
        cases h
        have hp' : Below MergePaths.Good (.elem n as ks :: l) ks := by
          intro n' as' ks' l' hm
          refine hp n' as' ks' l' ?_
          simp only [linesAll, Node.lines, List.append_nil, List.mem_cons]
          exact .inr hm
        have hkids : ∀ as', (n.is "path" = true ∨ as' = as) → (linesAll (.elem n as' ks' :: k) ks').filterMap (look b) =
            (linesAll (.elem n as ks :: l) ks).filterMap (look b) := by
          rintro as' (hn | rfl)
          · rw [linesAll_hidden b _ (by simp [isPath, hn]), linesAll_hidden b _ (by simp [isPath, hn])]
          · exact visitAll_shown ks (by simp [hl, Node.bare]) hp' hks
        rcases fateOf_path hf with rfl | ⟨hn, c, hc, hfate⟩
        · simp only [Fate.apply, linesAll, Node.lines, List.append_nil, List.filterMap_cons]
          rw [hkids as (.inr rfl), look_congr b (m := .elem n as ks) (k := l) (by simp [Node.bare]) hl]
        · cases f with
          | stay =>
            simp only [Fate.apply, linesAll, Node.lines, List.append_nil, List.filterMap_cons]
            rw [hkids as (.inr rfl), look_congr b (m := .elem n as ks) (k := l) (by simp [Node.bare]) hl]
          | stayAs c' =>
            simp only [Fate.apply, linesAll, Node.lines, List.append_nil, List.filterMap_cons]
            rw [hkids _ (.inl hn), look_areas b hc (dataOf_setData c' hc) (stay_seen hfate) (rest_setData c' as) hl]
          | go =>
            simp only [Fate.apply, linesAll, Node.lines, List.filterMap_nil, List.filterMap_cons]
            have hg : MergePaths.Good c := hp n as ks l (by simp [linesAll, Node.lines]) hn c hc
            rw [look_none b hc, linesAll_hidden b _ (by simp [isPath, hn])]
            intro s hs
            obtain ⟨u, hu, rfl⟩ := List.mem_map.mp hs
            rw [List.mem_filter] at hu
            exact (go_apart hg hfate u hu.1 (by rintro e; rw [e] at hu; simp at hu)).2
      · cases h
  | .text s, out, l, k, hl, hp, h => by cases h; simpa [linesAll] using lines_congr b (.text s) hl
  | .css s, out, l, k, hl, hp, h => by cases h; simpa [linesAll] using lines_congr b (.css s) hl
  | .comment s, out, l, k, hl, hp, h => by cases h; simpa [linesAll] using lines_congr b (.comment s) hl
  | .pi t d, out, l, k, hl, hp, h => by cases h; simpa [linesAll] using lines_congr b (.pi t d) hl
theorem visitAll_shown {tol : Rat} {b : Box} : ∀ (ns : List (Node (Attr V))) {out l k : List (Node (Attr V))}, k.map Node.bare = l.map Node.bare →
    Below MergePaths.Good l ns → visitAll tol (some b) ns = some out → (linesAll k out).filterMap (look b) = (linesAll l ns).filterMap (look b)
  | [], out, l, k, _, _, h => by cases h; rfl
  | n :: ns, out, l, k, hl, hp, h => by
    unfold visitAll at h
    split at h
    · next a b' ha hb =>
      cases h
      have h1 := visit_shown n hl (fun n' as ks l' hm => hp n' as ks l' (by
        simp only [linesAll, List.append_nil] at hm ⊢; exact List.mem_append_left _ hm)) ha
      have h2 := visitAll_shown ns hl (fun n' as ks l' hm => hp n' as ks l' (by
        simp only [linesAll] at hm ⊢; exact List.mem_append_right _ hm)) hb
      simp only [linesAll, List.filterMap_append, ← h1, ← h2]
      rw [← List.filterMap_append, linesAll_append]
    · cases h
end

theorem visitRoots_shown {tol : Rat} {b : Box} : ∀ (ns : List (Node (Attr V))) {vb : Option Box} {out : List (Node (Attr V))},
    (∀ n as ks, Node.elem n as ks ∈ ns → n.is "svg" = true ∧ gather as = some b) → Below MergePaths.Good [] ns → visitRoots tol vb ns = some out →
      (linesAll [] out).filterMap (look b) = (linesAll [] ns).filterMap (look b)
  | [], _, _, _, _, h => by cases h; rfl
  | n :: ns, vb, out, hr, hp, h => by
    unfold visitRoots at h
    split at h
    · next a b' ha hb =>
      cases h
      have hp' : Below MergePaths.Good [] [n] := fun n' as ks l' hm => hp n' as ks l' (by
        simp only [linesAll, List.append_nil] at hm ⊢; exact List.mem_append_left _ hm)
      have h1 : (linesAll [] a).filterMap (look b) = (n.lines []).filterMap (look b) := by
        cases n with
        | elem n as ks =>
          obtain ⟨hn, hg⟩ := hr n as ks List.mem_cons_self
          simp only [enter, hn, if_true, hg] at ha
          exact visit_shown _ rfl hp' ha
        | _ => cases ha; simp only [linesAll, List.append_nil]
      have h2 := visitRoots_shown ns (fun n as ks hm => hr n as ks (List.mem_cons_of_mem _ hm)) (fun n' as ks l' hm => hp n' as ks l' (by
        simp only [linesAll] at hm ⊢; exact List.mem_append_right _ hm)) hb
      simp only [linesAll, List.filterMap_append, ← h1, ← h2]
      rw [← List.filterMap_append, linesAll_append]
    · cases h

theorem gather_sized {as : List (Attr V)} {b : Box} (h : Sized as b) : gather as = some b := by
  rcases h with ⟨h1, h2⟩ | ⟨h1, w, t, ⟨h2, h3⟩, ⟨h4, h5⟩, rfl⟩
  · have : viewBoxOf as = some b := by
      unfold viewBoxOf
      cases e : as.findSome? fun a => match a with | .viewBox b => some b | _ => none with
      | none =>
        have := List.findSome?_eq_none_iff.1 e _ h1
        simp at this
      | some c =>
        obtain ⟨a, ha, hc⟩ := List.exists_of_findSome?_eq_some e
        cases a with
        | viewBox d => cases hc; rw [h2 _ ha]
        | _ => cases hc
    simp [gather, this]
  · have k1 : viewBoxOf as = none := by
      refine List.findSome?_eq_none_iff.2 fun a ha => ?_
      cases a with
      | viewBox d => exact absurd ha (h1 d)
      | _ => rfl
    have k2 : widthOf as = some (some w) := by
      unfold widthOf
      cases e : as.findSome? fun a => match a with | .width b => some b | _ => none with
      | none =>
        have := List.findSome?_eq_none_iff.1 e _ h2
        simp at this
      | some c =>
        obtain ⟨a, ha, hc⟩ := List.exists_of_findSome?_eq_some e
        cases a with
        | width d => cases hc; rw [h3 _ ha]
        | _ => cases hc
    have k3 : heightOf as = some (some t) := by
      unfold heightOf
      cases e : as.findSome? fun a => match a with | .height b => some b | _ => none with
      | none =>
        have := List.findSome?_eq_none_iff.1 e _ h4
        simp at this
      | some c =>
        obtain ⟨a, ha, hc⟩ := List.exists_of_findSome?_eq_some e
        cases a with
        | height d => cases hc; rw [h5 _ ha]
        | _ => cases hc
    simp [gather, k1, k2, k3]

theorem gather_unsized {as : List (Attr V)} (h : Unsized as) : gather as = none := by
  obtain ⟨h1, h2⟩ := h
  have k1 : viewBoxOf as = none := by
    refine List.findSome?_eq_none_iff.2 fun a ha => ?_
    cases a with
    | viewBox d => exact absurd ha (h1 d)
    | _ => rfl
  unfold gather
  rw [k1]
  cases ew : widthOf as with
  | none => rfl
  | some w =>
    cases eh : heightOf as with
    | none => simp
    | some t =>
      obtain ⟨a, ha, hw⟩ := List.exists_of_findSome?_eq_some ew
      obtain ⟨a', ha', ht⟩ := List.exists_of_findSome?_eq_some eh
      cases a with
      | width p =>
        cases a' with
        | height q =>
          simp only [Option.some.injEq] at hw ht
          subst hw ht
          cases p with
          | none => rfl
          | some p =>
            cases q with
            | none => rfl
            | some q => exact h2.elim (fun h => absurd ha (h p)) (fun h => absurd ha' (h q))
        | _ => cases ht
      | _ => cases hw

/-- **C64 (the same picture, partial).** The paths whose filling may be seen inside of the canvas are the same, in the same order, with the same
ancestors and attributes. Missing: strokes, markers, elements with another coordinate system, and what is seen outside of the view box. -/
theorem run_shown_partial {on : Bool} {tol : Rat} {b : Box} {doc out : List (Node (Attr V))}
    (hr : ∀ n as ks, Node.elem n as ks ∈ doc → n.is "svg" = true ∧ Sized as b) (hp : Proper doc) (h : run on tol doc = some out) :
    shown b out = shown b doc := by
  unfold run at h
  split at h
  · exact visitRoots_shown doc (fun n as ks hm => ⟨(hr n as ks hm).1, gather_sized (hr n as ks hm).2⟩) (fun n as ks l hm => hp n as ks ⟨l, hm⟩) h
  · cases h; rfl

/-! ## What stays as it is -/

/-- An element has a `transform` attribute. -/
def transformed : Node (Attr V) → Bool
  | .elem _ as _ => as.any fun a => match a with | .transform _ => true | _ => false
  | _ => false

/-- A node that the job must leave alone: it is not inside of a path, and it is no path, or it or something around it has a `transform` attribute. -/
def still : List (Node (Attr V)) → Option (List (Node (Attr V)))
  | [] => none
  | n :: anc => if anc.any isPath then none else if !isPath n || (n :: anc).any transformed then some ((n :: anc).map Node.bare) else none

theorem bare_transformed {n m : Node (Attr V)} (h : n.bare = m.bare) : transformed n = transformed m := by
  cases n <;> cases m <;> simp only [Node.bare, Node.elem.injEq, reduceCtorEq] at h <;> simp [transformed, h]

theorem any_transformed : ∀ {l m : List (Node (Attr V))}, l.map Node.bare = m.map Node.bare → l.any transformed = m.any transformed
  | [], [], _ => rfl
  | [], _ :: _, h => by cases h
  | _ :: _, [], h => by cases h
  | n :: l, m :: k, h => by
    simp only [List.map_cons, List.cons.injEq] at h
    simp only [List.any_cons, bare_transformed h.1, any_transformed h.2]

theorem still_congr {n m : Node (Attr V)} {l k : List (Node (Attr V))} (h : n.bare = m.bare) (hl : l.map Node.bare = k.map Node.bare) :
    still (n :: l) = still (m :: k) := by
  simp only [still, any_bare hl, bare_isPath h, List.any_cons, bare_transformed h, any_transformed hl, List.map_cons, h, hl]

mutual
theorem still_lines : ∀ (n : Node (Attr V)) {l k : List (Node (Attr V))}, l.map Node.bare = k.map Node.bare →
    (n.lines l).filterMap still = (n.lines k).filterMap still
  | .elem n as ks, l, k, h => by
    simp only [Node.lines, List.filterMap_cons, still_congr (rfl : (Node.elem n as ks).bare = _) h]
    rw [still_linesAll ks (l := .elem n as ks :: l) (k := .elem n as ks :: k) (by simp [h])]
  | .text s, l, k, h => by simp only [Node.lines, List.filterMap_cons, still_congr (rfl : (Node.text s).bare = _) h]
  | .css s, l, k, h => by simp only [Node.lines, List.filterMap_cons, still_congr (rfl : (Node.css s).bare = _) h]
  | .comment s, l, k, h => by simp only [Node.lines, List.filterMap_cons, still_congr (rfl : (Node.comment s).bare = _) h]
  | .pi t d, l, k, h => by simp only [Node.lines, List.filterMap_cons, still_congr (rfl : (Node.pi t d).bare = _) h]
theorem still_linesAll : ∀ (ns : List (Node (Attr V))) {l k : List (Node (Attr V))}, l.map Node.bare = k.map Node.bare →
    (linesAll l ns).filterMap still = (linesAll k ns).filterMap still
  | [], _, _, _ => rfl
  | n :: ns, l, k, h => by simp only [linesAll, List.filterMap_append, still_lines n h, still_linesAll ns h]
end

theorem still_in {n : Node (Attr V)} {l : List (Node (Attr V))} (h : l.any isPath = true) : still (n :: l) = none := by
  simp only [still, h, if_true]

mutual
theorem still_none : ∀ (n : Node (Attr V)) {l : List (Node (Attr V))}, l.any isPath = true → (n.lines l).filterMap still = []
  | .elem n as ks, l, h => by
    simp only [Node.lines, List.filterMap_cons, still_in h]
    exact still_noneAll ks (by simp [h])
  | .text s, l, h => by simp only [Node.lines, List.filterMap_cons, still_in h, List.filterMap_nil]
  | .css s, l, h => by simp only [Node.lines, List.filterMap_cons, still_in h, List.filterMap_nil]
  | .comment s, l, h => by simp only [Node.lines, List.filterMap_cons, still_in h, List.filterMap_nil]
  | .pi t d, l, h => by simp only [Node.lines, List.filterMap_cons, still_in h, List.filterMap_nil]
theorem still_noneAll : ∀ (ns : List (Node (Attr V))) {l : List (Node (Attr V))}, l.any isPath = true → (linesAll l ns).filterMap still = []
  | [], _, _ => rfl
  | n :: ns, l, h => by simp only [linesAll, List.filterMap_append, still_none n h, still_noneAll ns h, List.append_nil]
end

theorem fateOf_other {tol : Rat} {vb : Option Box} {n : EName} {as : List (Attr V)} {f : Fate} (hn : n.is "path" = false) (h : fateOf tol vb n as = some f) :
    f = .stay := by
  unfold fateOf at h
  rw [if_neg (by simp [hn])] at h
  cases h
  rfl

theorem isTransform_eq (as : List (Attr V)) : (as.any fun a => match a with | .transform _ => true | _ => false) = as.any Attr.isTransform := by
  refine congrArg as.any (funext fun a => ?_)
  cases a <;> rfl

theorem setData_transform (c : List Cmd) : ∀ as : List (Attr V), (setData c as).any Attr.isTransform = as.any Attr.isTransform
  | [] => rfl
  | a :: as => by
    cases a with
    | d => rfl
    | _ => simp only [setData, List.any_cons, setData_transform c as]

mutual
theorem visit_still {tol : Rat} {vb : Option Box} : ∀ (n : Node (Attr V)) {out l k : List (Node (Attr V))}, k.map Node.bare = l.map Node.bare →
    l.any transformed = false → visit tol vb n = some out → (linesAll k out).filterMap still = (n.lines l).filterMap still
  | .elem n as ks, out, l, k, hl, ht, h => by
    unfold visit at h
    split at h
    · cases h
      simp only [linesAll, List.append_nil]
      exact still_lines _ hl
    · next hnt =>
      split at h
      · next f ks' hf hks =>
        cases h
        cases hn : n.is "path" with
        | false =>
          cases fateOf_other hn hf
          simp only [Fate.apply, linesAll, Node.lines, List.append_nil, List.filterMap_cons]
          rw [still_congr (m := .elem n as ks) (k := l) (by simp [Node.bare]) hl,
            visitAll_still ks (k := .elem n as ks' :: k) (l := .elem n as ks :: l) (by simp [hl, Node.bare]) (by
              rw [List.any_cons, ht]; simp only [transformed, isTransform_eq]; simpa using hnt) hks]
        | true =>
          have h0 : ((Node.elem n as ks).lines l).filterMap still = [] := by
            simp only [Node.lines, List.filterMap_cons, still_noneAll ks (l := .elem n as ks :: l) (by simp [isPath, hn])]
            have : (Node.elem n as ks :: l).any transformed = false := by
              rw [List.any_cons, ht]; simp only [transformed, isTransform_eq]; simpa using hnt
            simp only [still, this, isPath, hn]
            split <;> simp_all
          rw [h0]
          have hk : k.any transformed = false := by rw [any_transformed hl, ht]
          have go : ∀ as', as'.any Attr.isTransform = false → (linesAll k [Node.elem n as' ks']).filterMap still = [] := by
            intro as' h'
            simp only [linesAll, Node.lines, List.append_nil, List.filterMap_cons, still_noneAll ks' (l := .elem n as' ks' :: k) (by simp [isPath, hn])]
            have : (Node.elem n as' ks' :: k).any transformed = false := by
              rw [List.any_cons, hk]; simp only [transformed, isTransform_eq]; simpa using h'
            simp only [still, this, isPath, hn]
            split <;> simp_all
          cases f with
          | stay => exact go as (by simpa using hnt)
          | stayAs c => exact go _ (by rw [setData_transform]; simpa using hnt)
          | go => rfl
      · cases h
  | .text s, out, l, k, hl, ht, h => by cases h; simpa [linesAll] using still_lines (.text s) hl
  | .css s, out, l, k, hl, ht, h => by cases h; simpa [linesAll] using still_lines (.css s) hl
  | .comment s, out, l, k, hl, ht, h => by cases h; simpa [linesAll] using still_lines (.comment s) hl
  | .pi t d, out, l, k, hl, ht, h => by cases h; simpa [linesAll] using still_lines (.pi t d) hl
theorem visitAll_still {tol : Rat} {vb : Option Box} : ∀ (ns : List (Node (Attr V))) {out l k : List (Node (Attr V))}, k.map Node.bare = l.map Node.bare →
    l.any transformed = false → visitAll tol vb ns = some out → (linesAll k out).filterMap still = (linesAll l ns).filterMap still
  | [], out, l, k, _, _, h => by cases h; rfl
  | n :: ns, out, l, k, hl, ht, h => by
    unfold visitAll at h
    split at h
    · next a b' ha hb =>
      cases h
      simp only [linesAll, List.filterMap_append, ← visit_still n hl ht ha, ← visitAll_still ns hl ht hb]
      rw [← List.filterMap_append, linesAll_append]
    · cases h
end

theorem visitRoots_still {tol : Rat} : ∀ (ns : List (Node (Attr V))) {vb : Option Box} {out : List (Node (Attr V))}, visitRoots tol vb ns = some out →
    (linesAll [] out).filterMap still = (linesAll [] ns).filterMap still
  | [], _, _, h => by cases h; rfl
  | n :: ns, vb, out, h => by
    unfold visitRoots at h
    split at h
    · next a b' ha hb =>
      cases h
      simp only [linesAll, List.filterMap_append, ← visit_still n (l := []) (k := []) rfl rfl ha, ← visitRoots_still ns hb]
      rw [← List.filterMap_append, linesAll_append]
    · cases h

/-- **C64 (all else stays).** Every node that is no path stays where it is with its attributes, and so does every path that has, or is inside of an element
with, a `transform` attribute. -/
theorem run_still {on : Bool} {tol : Rat} {doc out : List (Node (Attr V))} (h : run on tol doc = some out) :
    (lines out).filterMap still = (lines doc).filterMap still := by
  unfold run at h
  split at h
  · exact visitRoots_still doc h
  · cases h; rfl

mutual
theorem visit_none (tol : Rat) : ∀ n : Node (Attr V), visit tol none n = some [n]
  | .elem n as ks => by
    have hf : fateOf tol none n as = some .stay := by
      unfold fateOf
      split <;> rfl
    simp only [visit, hf, visitAll_none tol ks, Fate.apply, ite_self]
  | .text _ => rfl
  | .css _ => rfl
  | .comment _ => rfl
  | .pi _ _ => rfl
theorem visitAll_none (tol : Rat) : ∀ ns : List (Node (Attr V)), visitAll tol none ns = some ns
  | [] => rfl
  | n :: ns => by simp only [visitAll, visit_none tol n, visitAll_none tol ns, List.cons_append, List.nil_append]
end

/-- **C64 (no canvas).** A document whose size is not known stays as it is. -/
theorem run_unknown (on : Bool) (tol : Rat) {doc : List (Node (Attr V))} (h : ∀ n as ks, Node.elem n as ks ∈ doc → n.is "svg" = true → Unsized as) :
    run on tol doc = some doc := by
  have : ∀ ns : List (Node (Attr V)), (∀ n as ks, Node.elem n as ks ∈ ns → n.is "svg" = true → gather as = none) → visitRoots tol none ns = some ns := by
    intro ns
    induction ns with
    | nil => intro _; rfl
    | cons n ns ih =>
      intro h
      have he : enter none n = none := by
        cases n with
        | elem n as ks =>
          simp only [enter]
          split
          · next hn => exact h n as ks List.mem_cons_self hn
          · rfl
        | _ => rfl
      simp only [visitRoots, he, visit_none, ih (fun n as ks hm => h n as ks (List.mem_cons_of_mem _ hm)), List.cons_append, List.nil_append]
  unfold run
  split
  · exact this doc fun n as ks hm hn => gather_unsized (h n as ks hm hn)
  · rfl

/-! ## No panic -/

mutual
theorem visit_total (tol : Rat) (vb : Option Box) : ∀ (n : Node (Attr V)) {l : List (Node (Attr V))}, Below MergePaths.Valid l [n] → ∃ out, visit tol vb n = some out
  | .elem n as ks, l, hp => by
    unfold visit
    split
    · exact ⟨_, rfl⟩
    · obtain ⟨ks', hks⟩ := visitAll_total tol vb ks (l := .elem n as ks :: l) (fun n' as' ks' l' hm => hp n' as' ks' l' (by
        simp only [linesAll, Node.lines, List.append_nil, List.mem_cons]; exact .inr hm))
      have hf : ∃ f, fateOf tol vb n as = some f := by
        unfold fateOf
        split
        · next hn =>
          split
          · next b c hc => exact fate_total tol b (hp n as ks l (by simp [linesAll, Node.lines]) hn c hc)
          · exact ⟨_, rfl⟩
        · exact ⟨_, rfl⟩
      obtain ⟨f, hf⟩ := hf
      rw [hf, hks]
      exact ⟨_, rfl⟩
  | .text _, _, _ => ⟨_, rfl⟩
  | .css _, _, _ => ⟨_, rfl⟩
  | .comment _, _, _ => ⟨_, rfl⟩
  | .pi _ _, _, _ => ⟨_, rfl⟩
theorem visitAll_total (tol : Rat) (vb : Option Box) : ∀ (ns : List (Node (Attr V))) {l : List (Node (Attr V))}, Below MergePaths.Valid l ns →
    ∃ out, visitAll tol vb ns = some out
  | [], _, _ => ⟨_, rfl⟩
  | n :: ns, l, hp => by
    obtain ⟨a, ha⟩ := visit_total tol vb n (l := l) (fun n' as ks l' hm => hp n' as ks l' (by
      simp only [linesAll, List.append_nil] at hm ⊢; exact List.mem_append_left _ hm))
    obtain ⟨b, hb⟩ := visitAll_total tol vb ns (l := l) (fun n' as ks l' hm => hp n' as ks l' (by
      simp only [linesAll] at hm ⊢; exact List.mem_append_right _ hm))
    unfold visitAll
    rw [ha, hb]
    exact ⟨_, rfl⟩
end

/-- **C64 (no panic).** For every document whose path data are as the parser leaves them, there is a result. -/
theorem run_total (on : Bool) (tol : Rat) {doc : List (Node (Attr V))}
    (hp : ∀ n as ks, Occurs doc (.elem n as ks) → n.is "path" = true → ∀ c, dataOf as = some c → MergePaths.Valid c) : ∃ out, run on tol doc = some out := by
  have : ∀ (ns : List (Node (Attr V))) (vb : Option Box), Below MergePaths.Valid [] ns → ∃ out, visitRoots tol vb ns = some out := by
    intro ns
    induction ns with
    | nil => intro _ _; exact ⟨_, rfl⟩
    | cons n ns ih =>
      intro vb hp
      obtain ⟨a, ha⟩ := visit_total tol (enter vb n) n (l := []) (fun n' as ks l' hm => hp n' as ks l' (by
        simp only [linesAll, List.append_nil] at hm ⊢; exact List.mem_append_left _ hm))
      obtain ⟨b, hb⟩ := ih (enter vb n) (fun n' as ks l' hm => hp n' as ks l' (by
        simp only [linesAll] at hm ⊢; exact List.mem_append_right _ hm))
      exact ⟨a ++ b, by simp only [visitRoots, ha, hb]⟩
  unfold run
  split
  · exact this doc none fun n as ks l hm => hp n as ks ⟨l, hm⟩
  · exact ⟨_, rfl⟩

end Verif.Canvas
