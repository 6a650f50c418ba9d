import Verif.Canvas.Spec

/-! # Lemmas about what is seen -/

namespace Verif.Canvas

open Verif.Segment Verif.Gjk Verif.Tree

variable {V : Type}

/-! ## The canvas -/

theorem isOpen_inside (b : Box) : IsOpen (inside b) := by
  have h1 : Continuous fun x : Gjk.Pt ℝ => x.1 := continuous_fst
  have h2 : Continuous fun x : Gjk.Pt ℝ => x.2 := continuous_snd
  exact ((isOpen_lt continuous_const h1).inter ((isOpen_lt h1 continuous_const).inter
    ((isOpen_lt continuous_const h2).inter (isOpen_lt h2 continuous_const))))

theorem inside_sub (b : Box) : inside b ⊆ (frame b).paints := by
  rintro x ⟨x1, x2, y1, y2⟩
  have hw : (0 : ℝ) < b.width := by linarith
  have hh : (0 : ℝ) < b.height := by linarith
  have hl : (((b.minX : ℝ), x.2) : Gjk.Pt ℝ) ∈ (frame b).outline ArcR.On fun a => a.pointAt (a.start + a.sweep) := by
    refine .inr ⟨1 - (x.2 - b.minY) / b.height, ?_, ?_, ?_, ?_⟩
    · rw [sub_nonneg, div_le_one hh]; linarith
    · have : 0 ≤ (x.2 - b.minY) / (b.height : ℝ) := div_nonneg (by linarith) hh.le
      linarith
    · simp only [frame, stopOf, Data.stop]; ring
    · simp only [frame, stopOf, Data.stop]; push_cast; field_simp; ring
  have hr : (((b.minX : ℝ) + b.width, x.2) : Gjk.Pt ℝ) ∈ (frame b).outline ArcR.On fun a => a.pointAt (a.start + a.sweep) := by
    refine .inl (.inr (.inl ⟨(x.2 - b.minY) / b.height, div_nonneg (by linarith) hh.le, ?_, ?_, ?_⟩))
    · rw [div_le_one hh]; linarith
    · simp only [Data.stop]; push_cast; ring
    · simp only [Data.stop]; push_cast; field_simp; ring
  have hs : x ∈ segment ℝ (((b.minX : ℝ), x.2) : Gjk.Pt ℝ) ((b.minX : ℝ) + b.width, x.2) := by
    refine ⟨1 - (x.1 - b.minX) / b.width, (x.1 - b.minX) / b.width, ?_, div_nonneg (by linarith) hw.le, by ring, ?_⟩
    · rw [sub_nonneg, div_le_one hw]; linarith
    · refine Prod.ext ?_ ?_
      · simp only [Prod.fst_add, Prod.smul_fst, smul_eq_mul]; field_simp; ring
      · simp only [Prod.snd_add, Prod.smul_snd, smul_eq_mul]; ring
  exact (convex_convexHull ℝ _).segment_subset (subset_convexHull ℝ _ hl) (subset_convexHull ℝ _ hr) hs

theorem inside_interior (b : Box) : inside b ⊆ interior (frame b).paints := interior_maximal (inside_sub b) (isOpen_inside b)

/-! ## Closing -/

theorem draw_close : ∀ (cs : List Cmd) (s : Pen) (ops : List Op),
    ((draw (cs ++ [.closePath]) s ops).filter fun u => !u.ops.isEmpty).map (fun u => (u.start, u.ops)) =
      ((draw cs s ops).filter fun u => !u.ops.isEmpty).map fun u => (u.start, u.ops)
  | [], s, ops => by
    cases ops <;> simp [draw, act]
  | c :: cs, s, ops => by
    simp only [List.cons_append, draw]
    cases act c s with
    | move p =>
      simp only [List.filter_cons]
      split <;> simp only [List.map_cons, draw_close cs]
    | close =>
      simp only [List.filter_cons]
      split <;> simp only [List.map_cons, draw_close cs]
    | draw o cu q => exact draw_close cs _ _

/-- Closing the last subpath keeps all pieces. -/
theorem subpaths_close (c : List Cmd) : ((subpaths (c ++ [.closePath])).filter fun u => !u.ops.isEmpty).map (fun u => (u.start, u.ops)) =
    ((subpaths c).filter fun u => !u.ops.isEmpty).map fun u => (u.start, u.ops) := by
  cases c with
  | nil => rfl
  | cons c cs =>
    simp only [List.cons_append, subpaths]
    cases act c ⟨⟨0, 0⟩, ⟨0, 0⟩, none, none⟩ with
    | move p => exact draw_close cs _ _
    | close => rfl
    | draw => rfl

theorem area_pair (u : Sub) : MergePaths.area u = MergePaths.area ⟨u.start, u.ops, false⟩ := rfl

theorem seen_eq (b : Box) (c : List Cmd) : seen b c = (((subpaths c).filter fun u => !u.ops.isEmpty).map fun u => (u.start, u.ops)).map
    fun p => MergePaths.area ⟨p.1, p.2, false⟩ ∩ inside b := by
  rw [seen, List.map_map]
  rfl

theorem seen_closed (b : Box) (c : List Cmd) : seen b (closed c) = seen b c := by
  unfold closed
  split
  · rw [seen_eq, seen_eq, subpaths_close]
  · rfl

theorem smooth_close : ∀ {cs : List Cmd} {b : Bend}, SmoothOk b cs → SmoothOk b (cs ++ [.closePath])
  | [], _, _ => ⟨fun e => absurd e (by simp [Cmd.continues, Cmd.plain]), fun e => absurd e (by simp [Cmd.continues, Cmd.plain]), trivial⟩
  | _ :: _, _, h => ⟨h.1, h.2.1, smooth_close h.2.2⟩

theorem ops_close {c : List Cmd} {u : Sub} (hu : u ∈ subpaths (c ++ [.closePath])) (hne : u.ops ≠ []) : ∃ v ∈ subpaths c, v.ops = u.ops := by
  have : (u.start, u.ops) ∈ ((subpaths (c ++ [.closePath])).filter fun u => !u.ops.isEmpty).map fun u => (u.start, u.ops) := by
    refine List.mem_map_of_mem (f := fun u : Sub => (u.start, u.ops)) (List.mem_filter.mpr ⟨hu, ?_⟩)
    cases h : u.ops
    · exact absurd h hne
    · rfl
  rw [subpaths_close, List.mem_map] at this
  obtain ⟨v, hv, e⟩ := this
  exact ⟨v, (List.mem_filter.mp hv).1, (Prod.ext_iff.mp e).2⟩

theorem good_closed {c : List Cmd} (h : MergePaths.Good c) : MergePaths.Good (closed c) := by
  unfold closed
  split
  · next hl =>
    obtain ⟨h1, h2, h3⟩ := h
    refine ⟨?_, smooth_close h2, ?_⟩
    · rcases h1 with rfl | ⟨p, cs, rfl | rfl⟩
      · cases hl
      · exact .inr ⟨p, _, .inl rfl⟩
      · exact .inr ⟨p, _, .inr rfl⟩
    · intro u hu o ho
      obtain ⟨v, hv, e⟩ := ops_close hu (fun h => by rw [h] at ho; cases ho)
      exact h3 v hv o (e ▸ ho)
  · exact h

/-! ## Attributes -/

theorem dataOf_setData (c : List Cmd) : ∀ {as : List (Attr V)} {c' : List Cmd}, dataOf as = some c' → dataOf (setData c as) = some c
  | [], _, h => by cases h
  | a :: as, c', h => by
    cases a with
    | d => rfl
    | _ => exact dataOf_setData c (as := as) h

theorem rest_setData (c : List Cmd) : ∀ as : List (Attr V), rest (setData c as) = rest as
  | [] => rfl
  | a :: as => by
    cases a with
    | d => rfl
    | _ =>
      simp only [setData, rest, List.filter_cons, if_true, List.cons.injEq, true_and]
      exact rest_setData c as

/-! ## Lines -/

theorem bare_isPath {n m : Node (Attr V)} (h : n.bare = m.bare) : isPath n = isPath m := by
  cases n <;> cases m <;> simp only [Node.bare, Node.elem.injEq, reduceCtorEq] at h <;> simp [isPath, h]

theorem any_bare : ∀ {l m : List (Node (Attr V))}, l.map Node.bare = m.map Node.bare → l.any isPath = m.any isPath
  | [], [], _ => rfl
  | [], _ :: _, h => by cases h
  | _ :: _, [], h => by cases h
  | n :: l, m :: k, h => by
    simp only [List.map_cons, List.cons.injEq] at h
    simp only [List.any_cons, bare_isPath h.1, any_bare h.2]

open Classical in
theorem look_congr (b : Box) {n m : Node (Attr V)} {l k : List (Node (Attr V))} (h : n.bare = m.bare) (hl : l.map Node.bare = k.map Node.bare) :
    look b (n :: l) = look b (m :: k) := by
  cases n <;> cases m <;> simp only [Node.bare, Node.elem.injEq, reduceCtorEq] at h
  · obtain ⟨rfl, rfl, -⟩ := h
    simp only [look]
    apply if_congr (by rw [any_bare hl]) (by rw [hl]) rfl
  all_goals rfl

theorem linesAll_append (l : List (Node (Attr V))) : ∀ ns ms : List (Node (Attr V)), linesAll l (ns ++ ms) = linesAll l ns ++ linesAll l ms
  | [], _ => rfl
  | n :: ns, ms => by simp only [List.cons_append, linesAll, linesAll_append l ns, List.append_assoc]

mutual
theorem lines_congr (b : Box) : ∀ (n : Node (Attr V)) {l k : List (Node (Attr V))}, l.map Node.bare = k.map Node.bare →
    (n.lines l).filterMap (look b) = (n.lines k).filterMap (look b)
  | .elem n as ks, l, k, h => by
    simp only [Node.lines, List.filterMap_cons, look_congr b (rfl : (Node.elem n as ks).bare = _) h]
    rw [linesAll_congr b ks (l := .elem n as ks :: l) (k := .elem n as ks :: k) (by simp [h])]
  | .text s, l, k, h => by simp only [Node.lines, List.filterMap_cons, look_congr b (rfl : (Node.text s).bare = _) h]
  | .css s, l, k, h => by simp only [Node.lines, List.filterMap_cons, look_congr b (rfl : (Node.css s).bare = _) h]
  | .comment s, l, k, h => by simp only [Node.lines, List.filterMap_cons, look_congr b (rfl : (Node.comment s).bare = _) h]
  | .pi t d, l, k, h => by simp only [Node.lines, List.filterMap_cons, look_congr b (rfl : (Node.pi t d).bare = _) h]
theorem linesAll_congr (b : Box) : ∀ (ns : List (Node (Attr V))) {l k : List (Node (Attr V))}, l.map Node.bare = k.map Node.bare →
    (linesAll l ns).filterMap (look b) = (linesAll k ns).filterMap (look b)
  | [], _, _, _ => rfl
  | n :: ns, l, k, h => by simp only [linesAll, List.filterMap_append, lines_congr b n h, linesAll_congr b ns h]
end

theorem look_hidden (b : Box) {n : Node (Attr V)} {l : List (Node (Attr V))} (h : l.any isPath = true) : look b (n :: l) = none := by
  cases n <;> simp [look, h]

mutual
theorem lines_hidden (b : Box) : ∀ (n : Node (Attr V)) {l : List (Node (Attr V))}, l.any isPath = true → (n.lines l).filterMap (look b) = []
  | .elem n as ks, l, h => by
    simp only [Node.lines, List.filterMap_cons, look_hidden b h]
    exact linesAll_hidden b ks (by simp [h])
  | .text s, l, h => by simp only [Node.lines, List.filterMap_cons, look_hidden b h, List.filterMap_nil]
  | .css s, l, h => by simp only [Node.lines, List.filterMap_cons, look_hidden b h, List.filterMap_nil]
  | .comment s, l, h => by simp only [Node.lines, List.filterMap_cons, look_hidden b h, List.filterMap_nil]
  | .pi t d, l, h => by simp only [Node.lines, List.filterMap_cons, look_hidden b h, List.filterMap_nil]
theorem linesAll_hidden (b : Box) : ∀ (ns : List (Node (Attr V))) {l : List (Node (Attr V))}, l.any isPath = true → (linesAll l ns).filterMap (look b) = []
  | [], _, _ => rfl
  | n :: ns, l, h => by simp only [linesAll, List.filterMap_append, lines_hidden b n h, linesAll_hidden b ns h, List.append_nil]
end

end Verif.Canvas
