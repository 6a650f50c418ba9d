import Verif.Canvas.Beyond

/-! # Where the picture changes -/

namespace Verif.Canvas

open Verif.Segment Verif.Gjk Verif.Tree
open Verif.Names (lit)

/-- An element of SVG. -/
def svgName (s : String) : EName := ⟨.std .svg, lit s⟩

/-- A square canvas. -/
def canvas : Box := ⟨0, 0, 100, 100⟩

/-- A document with the canvas. -/
def document (as : List (Attr String)) (ks : List (Node (Attr String))) : List (Node (Attr String)) := [.elem (svgName "svg") (.viewBox canvas :: as) ks]

/-- A path. -/
def path (as : List (Attr String)) (c : List Cmd) : Node (Attr String) := .elem (svgName "path") (as ++ [.d c]) []

/-- A line. -/
def line (p q : Segment.Pt) : List Cmd := [.moveTo p, .lineTo q]

/-- A square. -/
def square (x y : Rat) : List Cmd := [.moveTo ⟨x, y⟩, .horizontalTo (x + 10), .verticalTo (y + 10), .horizontalTo x, .closePath]

theorem sub_line (p q : Segment.Pt) : subpaths (line p q) = [⟨p, [.line p q], false⟩] := rfl

theorem sub_square (x y : Rat) : (subpaths (square x y)).filter (fun u => !u.ops.isEmpty) =
    [⟨⟨x, y⟩, [.line ⟨x, y⟩ ⟨x + 10, y⟩, .line ⟨x + 10, y⟩ ⟨x + 10, y + 10⟩, .line ⟨x + 10, y + 10⟩ ⟨x, y + 10⟩], true⟩] := rfl

theorem good_line (p q : Segment.Pt) : MergePaths.Good (line p q) := by
  refine ⟨.inr ⟨p, _, .inl rfl⟩, by simp [line, SmoothOk, Cmd.continues, Cmd.bend, Cmd.plain], ?_⟩
  intro u hu o ho
  rw [sub_line] at hu
  obtain rfl := List.mem_singleton.mp hu
  obtain rfl := List.mem_singleton.mp ho
  trivial

theorem square_ops {x y : Rat} {u : Sub} (hu : u ∈ subpaths (square x y)) {o : Op} (ho : o ∈ u.ops) : ∃ p q, o = .line p q := by
  have : u ∈ (subpaths (square x y)).filter (fun u => !u.ops.isEmpty) := by
    rw [List.mem_filter]
    refine ⟨hu, ?_⟩
    cases h : u.ops
    · rw [h] at ho; cases ho
    · rfl
  rw [sub_square] at this
  obtain rfl := List.mem_singleton.mp this
  simp only [List.mem_cons, List.not_mem_nil, or_false] at ho
  rcases ho with rfl | rfl | rfl <;> exact ⟨_, _, rfl⟩

theorem good_square (x y : Rat) : MergePaths.Good (square x y) := by
  refine ⟨.inr ⟨_, _, .inl rfl⟩, by simp [square, SmoothOk, Cmd.continues, Cmd.bend, Cmd.plain], ?_⟩
  intro u hu o ho
  obtain ⟨p, q, rfl⟩ := square_ops hu ho
  trivial

/-- A line above the canvas goes. -/
theorem line_go (tol : Rat) {p q : Segment.Pt} (hp : p.y < 0) (hq : q.y ≤ 0) : fate tol canvas (line p q) = some .go := by
  refine beyond_go tol (by decide) (by decide) (good_line p q) ?_ ?_ (.inr (.inr (.inr ?_)))
  · simp [line, movesIn, MergePaths.explicit, canvas, hp]
  · intro u hu o ho
    rw [sub_line] at hu
    obtain rfl := List.mem_singleton.mp hu
    obtain rfl := List.mem_singleton.mp ho
    trivial
  · intro r hr
    simp only [corners, sub_line, points, List.filter, List.isEmpty, Bool.not_false, List.flatMap_cons, List.flatMap_nil, List.append_nil, List.mem_cons,
      List.not_mem_nil, or_false] at hr
    rcases hr with rfl | rfl | rfl
    · exact hp.le
    · exact hp.le
    · exact hq

/-- A square to the right of the canvas goes. -/
theorem square_go (tol : Rat) {x y : Rat} (hx : 100 < x) : fate tol canvas (square x y) = some .go := by
  refine beyond_go tol (by decide) (by decide) (good_square x y) ?_ ?_ (.inl ?_)
  · simp [square, movesIn, MergePaths.explicit, canvas, hx]
  · intro u hu o ho
    obtain ⟨p, q, rfl⟩ := square_ops hu ho
    trivial
  · intro r hr
    simp only [corners, sub_square, points, List.flatMap_cons, List.flatMap_nil, List.append_nil, List.mem_cons, List.mem_append,
      List.not_mem_nil, or_false] at hr
    have : (canvas.minX + canvas.width : ℚ) = 100 := by decide +kernel
    rw [this]
    rcases hr with rfl | (rfl | rfl) | (rfl | rfl) | rfl | rfl <;> simp only <;> linarith

theorem is_path : (svgName "path").is "path" = true := by decide +kernel
theorem is_svg : (svgName "svg").is "svg" = true := by decide +kernel
theorem svg_path : (svgName "svg").is "path" = false := by decide +kernel

theorem dataOf_path (as : List (Attr String)) (c : List Cmd) (h : ∀ c, Attr.d c ∉ as) : dataOf (as ++ [.d c]) = some c := by
  induction as with
  | nil => rfl
  | cons a as ih =>
    have := ih (fun c hc => h c (List.mem_cons_of_mem _ hc))
    cases a with
    | d c' => exact absurd List.mem_cons_self (h c')
    | _ => simpa [dataOf] using this

/-- A path without `transform` that goes leaves nothing. -/
theorem visit_path {tol : Rat} {as : List (Attr String)} {c : List Cmd} (h : ∀ a ∈ as, ∃ n v, a = .other n v) {f : Fate} (hf : fate tol canvas c = some f) :
    visit tol (some canvas) (path as c) = some (f.apply (svgName "path") (as ++ [.d c]) []) := by
  have h1 : (as ++ [Attr.d c]).any Attr.isTransform = false := by
    rw [List.any_eq_false]
    intro a ha
    rcases List.mem_append.mp ha with ha | ha
    · obtain ⟨n, v, rfl⟩ := h a ha
      simp [Attr.isTransform]
    · obtain rfl := List.mem_singleton.mp ha
      simp [Attr.isTransform]
  have h2 : dataOf (as ++ [Attr.d c]) = some c := dataOf_path as c (fun c' hc => by obtain ⟨_, _, e⟩ := h _ hc; cases e)
  simp only [path, visit, h1, Bool.false_eq_true, if_false, fateOf, is_path, if_true, h2, hf, visitAll]

theorem run_document {tol : Rat} {as : List (Attr String)} (h : as.any Attr.isTransform = false) {ks out : List (Node (Attr String))}
    (hk : visitAll tol (some canvas) ks = some out) : run true tol (document as ks) = some (document as out) := by
  have h1 : (Attr.viewBox canvas :: as).any Attr.isTransform = false := by simpa [Attr.isTransform] using h
  have h2 : gather (Attr.viewBox canvas :: as) = some canvas := rfl
  simp only [run, if_true, document, visitRoots, enter, is_svg, h2, visit, h1, Bool.false_eq_true, if_false, fateOf, svg_path, hk, Fate.apply,
    List.append_nil]

/-! ## Strokes -/

/-- A point is painted by the stroke of a line, without its caps: it is beside a point of the line, at most half of the width away. -/
def Stroked (w : ℝ) (p q : Segment.Pt) (x : Gjk.Pt ℝ) : Prop :=
  ∃ y, MergePaths.OnLine p q y ∧ (x.1 - y.1) * (q.x - p.x) + (x.2 - y.2) * (q.y - p.y) = 0 ∧ (x.1 - y.1) ^ 2 + (x.2 - y.2) ^ 2 ≤ (w / 2) ^ 2

/-- **C64 (strokes, violated).** A line above the canvas is removed, though its stroke reaches into the canvas. -/
theorem stroke_violated (tol : Rat) : ∃ (p q : Segment.Pt), run true tol (document [] [path [.other "stroke" "red", .other "stroke-width" "4"] (line p q)]) =
    some (document [] []) ∧ ∃ x ∈ inside canvas, Stroked 4 p q x := by
  refine ⟨⟨10, -1⟩, ⟨90, -1⟩, run_document rfl ?_, (50, 1 / 2), ?_, (50, -1), ⟨1 / 2, ?_⟩, ?_⟩
  · simp only [visitAll]
    rw [visit_path (by simp) (line_go tol (by decide) (by decide))]
    rfl
  · refine ⟨?_, ?_, ?_, ?_⟩ <;> norm_num [canvas]
  · norm_num
  · norm_num

/-! ## More than the view box is seen -/

/-- SVG 7.8, `xMidYMid meet`: where a point of the user space is in a viewport of the given size. -/
noncomputable def place (vw vh : ℝ) (b : Box) (x : Gjk.Pt ℝ) : Gjk.Pt ℝ :=
  let k := min (vw / b.width) (vh / b.height)
  (k * (x.1 - b.minX) + (vw - k * b.width) / 2, k * (x.2 - b.minY) + (vh - k * b.height) / 2)

/-- **C64 (viewport, violated).** If the viewport is wider than the view box, what is to the right of the view box is seen, but is removed. -/
theorem viewport_violated (tol : Rat) : ∃ c, run true tol (document [.width (some 200), .height (some 100)] [path [] c]) =
    some (document [.width (some 200), .height (some 100)] []) ∧ ∃ u ∈ subpaths c, ∃ x ∈ MergePaths.area u,
      0 < (place 200 100 canvas x).1 ∧ (place 200 100 canvas x).1 < 200 ∧ 0 < (place 200 100 canvas x).2 ∧ (place 200 100 canvas x).2 < 100 := by
  refine ⟨square 110 10, run_document rfl ?_, ⟨⟨110, 10⟩, _, true⟩, List.mem_cons_self, (115, 10), ?_, ?_⟩
  · simp only [visitAll]
    rw [visit_path (by simp) (square_go tol (by norm_num))]
    rfl
  · refine subset_convexHull ℝ _ (.inl ⟨_, List.mem_cons_self, 1 / 2, ?_⟩)
    norm_num
  · norm_num [place, canvas]

/-! ## Paths that are used elsewhere -/

/-- **C64 (references, violated).** A path that is defined outside of the canvas is removed, though a `use` element paints it inside. -/
theorem use_violated (tol : Rat) : ∃ (c : List Cmd) (dx : Rat),
    (let use : Node (Attr String) := .elem (svgName "use") [.other "href" "#a", .other "x" (toString dx)] []
     run true tol (document [] [.elem (svgName "defs") [] [path [.other "id" "a"] c], use]) = some (document [] [.elem (svgName "defs") [] [], use])) ∧
    ∃ u ∈ subpaths c, ∃ x ∈ MergePaths.area u, ((x.1 + dx, x.2) : Gjk.Pt ℝ) ∈ inside canvas := by
  refine ⟨square 110 10, -100, run_document rfl ?_, ⟨⟨110, 10⟩, _, true⟩, List.mem_cons_self, (115, 10), ?_, ?_⟩
  · have h1 : (svgName "defs").is "path" = false := by decide +kernel
    have h2 : (svgName "use").is "path" = false := by decide +kernel
    have h3 := visit_path (as := [.other "id" "a"]) (by simp) (square_go tol (x := 110) (y := 10) (by norm_num))
    simp [visitAll, h3, visit, fateOf, h1, h2, Attr.isTransform, Fate.apply]
  · refine subset_convexHull ℝ _ (.inl ⟨_, List.mem_cons_self, 1 / 2, ?_⟩)
    norm_num
  · refine ⟨?_, ?_, ?_, ?_⟩ <;> norm_num [canvas]

/-! ## Paths that stay -/

/-- **C64 (a path that is seen stays).** If a subpath paints something inside of the canvas, the path stays. -/
theorem seen_stays {tol : Rat} {b : Box} {c : List Cmd} (hg : MergePaths.Good c) {u : Sub} (hu : u ∈ subpaths c) (hne : u.ops ≠ [])
    (hs : (MergePaths.area u ∩ inside b).Nonempty) : fate tol b c = some .stay ∨ fate tol b c = some (.stayAs (closed c)) := by
  obtain ⟨f, hf⟩ := fate_total tol b hg.1
  cases f with
  | stay => exact .inl hf
  | stayAs c' =>
    right
    rw [hf]
    unfold fate at hf
    split at hf
    · cases hf
    · split at hf
      · cases hf
      · split at hf <;> cases hf
        rfl
  | go => exact absurd (go_apart hg hf u hu hne).2 hs.ne_empty

/-- **C64 (ends of lines, violated).** A line that begins outside of the canvas becomes a closed subpath, which has no caps at its ends. -/
theorem close_violated (tol : Rat) : ∃ c c' : List Cmd, run true tol (document [] [path [.other "stroke-linecap" "round"] c]) =
    some (document [] [path [.other "stroke-linecap" "round"] c']) ∧ (∀ u ∈ MergePaths.drawn c, u.closed = false) ∧
    ∀ u ∈ MergePaths.drawn c', u.closed = true := by
  refine ⟨line ⟨-10, 50⟩ ⟨50, 50⟩, closed (line ⟨-10, 50⟩ ⟨50, 50⟩), run_document rfl ?_, ?_, ?_⟩
  · have hf : fate tol canvas (line ⟨-10, 50⟩ ⟨50, 50⟩) = some (.stayAs (closed (line ⟨-10, 50⟩ ⟨50, 50⟩))) := by
      rcases seen_stays (tol := tol) (b := canvas) (good_line ⟨-10, 50⟩ ⟨50, 50⟩) (u := ⟨⟨-10, 50⟩, _, false⟩) List.mem_cons_self (by simp)
        ⟨(20, 50), subset_convexHull ℝ _ (.inl ⟨_, List.mem_cons_self, 1 / 2, by norm_num⟩), by
          refine ⟨?_, ?_, ?_, ?_⟩ <;> norm_num [canvas]⟩ with h | h
      · exfalso
        unfold fate at h
        rw [if_neg (by decide +kernel)] at h
        split at h
        · cases h
        · split at h <;> cases h
      · exact h
    simp only [visitAll]
    rw [visit_path (by simp) hf]
    rfl
  · decide +kernel
  · decide +kernel

/-! ## Examples -/

/-- A square that is partly inside of the canvas stays, one beside it goes. -/
example (tol : Rat) : ∃ out, run true tol (document [] [path [] (square 50 50), path [] (square 150 50)]) = some (document [] [out]) ∧
    shown canvas (document [] [out]) = shown canvas (document [] [path [] (square 50 50), path [] (square 150 50)]) := by
  have h1 : fate tol canvas (square 50 50) = some .stay := by
    simp only [fate]
    rw [if_pos (by decide +kernel)]
  have hr : run true tol (document [] [path [] (square 50 50), path [] (square 150 50)]) = some (document [] [path [] (square 50 50)]) := by
    refine run_document rfl ?_
    simp only [visitAll]
    rw [visit_path (by simp) h1, visit_path (by simp) (square_go tol (by norm_num))]
    rfl
  refine ⟨_, hr, run_shown_partial ?_ ?_ hr⟩
  · intro n as ks h
    simp only [document, List.mem_singleton, Node.elem.injEq] at h
    obtain ⟨rfl, rfl, -⟩ := h
    exact ⟨is_svg, .inl (by simp)⟩
  · rintro n as ks ⟨l, hl⟩ hn c hc
    simp only [lines, document, path, linesAll, Node.lines, List.append_nil, List.cons_append, List.nil_append, List.mem_cons, List.cons.injEq,
      Node.elem.injEq, List.not_mem_nil, or_false] at hl
    rcases hl with ⟨⟨rfl, rfl, -⟩, -⟩ | ⟨⟨rfl, rfl, -⟩, -⟩ | ⟨⟨rfl, rfl, -⟩, -⟩
    · rw [svg_path] at hn; cases hn
    · cases hc; exact good_square _ _
    · cases hc; exact good_square _ _

/-- The path of the violation with a `transform` attribute stays. -/
example (tol : Rat) : run true tol (document [] [path [.transform "translate(-100 0)"] (square 110 10)]) =
    some (document [] [path [.transform "translate(-100 0)"] (square 110 10)]) := by
  refine run_document rfl ?_
  simp [visitAll, visit, path, Attr.isTransform]

/-- Without a size nothing happens. -/
example (tol : Rat) : run true tol [.elem (svgName "svg") [.width (some 10), .height none] [path [] (square 110 10)]] =
    some [.elem (svgName "svg") [.width (some 10), .height none] [path [] (square 110 10)]] :=
  run_unknown true tol (by
    intro n as ks h _
    simp only [List.mem_singleton, Node.elem.injEq] at h
    obtain ⟨-, rfl, -⟩ := h
    exact ⟨by simp, .inr (by simp)⟩)

/-- The size is the canvas if there is no view box. -/
example : gather [.width (some 10), .height (some 20), .other (V := String) "id" "a"] = some ⟨0, 0, 10, 20⟩ := rfl

end Verif.Canvas
