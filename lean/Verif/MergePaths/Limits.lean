import Verif.MergePaths.Props

/-!
# C50: where merging changes the picture
-/

namespace Verif.MergePaths

open Verif.Segment

/-- A line from (0, y) to (x, y). -/
def line (x y : Rat) : List Cmd := [.moveTo ⟨0, y⟩, .lineTo ⟨x, y⟩]

/-- A path with one line. -/
def lineEl (node : Nat) (x y : Rat) (as : List (Attr String)) : El String := ⟨node, true, true, .d (line x y) :: as⟩

/-- A style without anything the job looks for. -/
def plainStyle : Style := ⟨false, false, none, none, none⟩

theorem sameAttrs_self (c d : List Cmd) (as : List (Attr String)) (hn : (as.map Attr.name).Nodup)
    (hd : "d" ∉ as.map Attr.name) : sameAttrs (.d c :: as) (.d d :: as) = true :=
  (sameAttrs_iff (p := .d c :: as) (c := .d d :: as) (List.nodup_cons.2 ⟨hd, hn⟩) (List.nodup_cons.2 ⟨hd, hn⟩) rfl
    rfl).2 (List.Perm.refl _)

/-- Two lines with the same attributes and styles that are not forbidden are merged if the test says they do not
intersect. -/
theorem merge_two (x y x' y' : Rat) (as : List (Attr String)) (hn : (as.map Attr.name).Nodup)
    (hd : "d" ∉ as.map Attr.name) (hid : hasNamed "id" as = false)
    (intersects : List Cmd → List Cmd → Bool) (hi : intersects (line x y) (line x' y') = false)
    (style : El String → Except String Style) (s : Style) (hs : style (lineEl 1 x' y' as) = .ok s)
    (hb : s.blocks = false) :
    mergePaths false intersects style [lineEl 0 x y as, lineEl 1 x' y' as] =
      .ok [⟨1, true, true, .d (line x y ++ line x' y') :: as⟩] := by
  have h1 : hasNamed "id" (lineEl 0 x y as).attrs = false := by
    simpa [hasNamed, lineEl] using hid
  have h2 : dataOf (lineEl 1 x' y' as).attrs = some (line x' y') := rfl
  have h4 : sameAttrs (lineEl 0 x y as).attrs (setData (absolute (line x' y')) (lineEl 1 x' y' as).attrs) = true :=
    sameAttrs_self _ _ _ hn hd
  have h5 : decide' false intersects none (lineEl 0 x y as) (absolute (line x' y')) =
      .merge (line x y ++ line x' y') := by
    have e : absolute (line x' y') = line x' y' := rfl
    have e' : popMove (line x y) = line x y := rfl
    have e'' : collected none (lineEl 0 x y as) = some (line x y) := rfl
    simp [decide', e, e', e'', hi]
  show loop false intersects style (lineEl 0 x y as) none [lineEl 1 x' y' as] = _
  rw [loop, if_neg (by simp [h1]; simp [lineEl]), if_neg (by simp [lineEl])]
  simp only [hs, h2]
  rw [if_neg (by simp [hb]), if_neg (by simp [h4]), h5]
  rfl

/-- What is shown of the children of a `switch` if none has a test: the first. -/
def chosen (es : List (El String)) : List (El String) := es.take 1

/-- **C50 (violated: the choices of a `switch` are merged).** Only the first of two paths is shown; the paths are merged
nevertheless, and both are shown then. The job does not look at the parent. -/
theorem switch_violated (intersects : List Cmd → List Cmd → Bool) (hi : intersects (line 1 0) (line 1 5) = false) :
    ∃ out, mergePaths false intersects (fun _ => .ok plainStyle) [lineEl 0 1 0 [], lineEl 1 1 5 []] = .ok out ∧
      strokes (chosen [lineEl 0 1 0 [], lineEl 1 1 5 []]) = [([], ⟨⟨0, 0⟩, [.line ⟨0, 0⟩ ⟨1, 0⟩], false⟩)] ∧
      strokes (chosen out) =
        [([], ⟨⟨0, 0⟩, [.line ⟨0, 0⟩ ⟨1, 0⟩], false⟩), ([], ⟨⟨0, 5⟩, [.line ⟨0, 5⟩ ⟨1, 5⟩], false⟩)] :=
  ⟨_, merge_two 1 0 1 5 [] (by simp) (by simp) rfl intersects hi _ plainStyle rfl rfl, by decide, by decide⟩

/-- **C50 (violated: references that may hold are not noticed).** With a gradient as the fill, in a rule that applies
only sometimes (under a media query, or for `:hover`), two paths are merged, and the gradient is spread over both. -/
theorem dynamic_violated (intersects : List Cmd → List Cmd → Bool) (hi : intersects (line 1 0) (line 1 5) = false) :
    mergePaths false intersects (fun _ => .ok { plainStyle with fill := some (.url "#gradient", .dynamic) })
      [lineEl 0 1 0 [], lineEl 1 1 5 []] = .ok [⟨1, true, true, [.d (line 1 0 ++ line 1 5)]⟩] :=
  merge_two 1 0 1 5 [] (by simp) (by simp) rfl intersects hi _ { plainStyle with fill := some (.url "#gradient", .dynamic) }
    rfl (by decide)

/-- **C50 (violated: references to another document are not noticed).** -/
theorem remote_violated (intersects : List Cmd → List Cmd → Bool) (hi : intersects (line 1 0) (line 1 5) = false) :
    mergePaths false intersects (fun _ => .ok { plainStyle with fill := some (.url "paints.svg#gradient", .static) })
      [lineEl 0 1 0 [], lineEl 1 1 5 []] = .ok [⟨1, true, true, [.d (line 1 0 ++ line 1 5)]⟩] :=
  merge_two 1 0 1 5 [] (by simp) (by simp) rfl intersects hi _
    { plainStyle with fill := some (.url "paints.svg#gradient", .static) } rfl (by decide +kernel)

/-- The fills of the elements that draw something: the computed fill of the node. -/
def fills (style : El String → Except String Style) (es : List (El String)) : List (Option (Ref × Mode) × Sub) :=
  es.flatMap fun e => e.subs.map fun s => (match style e with | .ok st => (st.fill, s) | .error _ => (none, s))

/-- Styles as two rules give them: one for `:first-child`, one for the others. The numbers are colours. -/
def bySibling (e : El String) : Except String Style :=
  .ok { plainStyle with fill := some (.plain e.node, .static) }

/-- **C50 (violated: the styles of the two paths are not compared).** Paths with the same attributes may have different
styles, as rules can depend on the place among the children. They are merged, and what the first drew gets the fill of
the second. -/
theorem computed_violated (intersects : List Cmd → List Cmd → Bool) (hi : intersects (line 1 0) (line 1 5) = false) :
    ∃ out, mergePaths false intersects bySibling [lineEl 0 1 0 [], lineEl 1 1 5 []] = .ok out ∧
      (fills bySibling [lineEl 0 1 0 [], lineEl 1 1 5 []]).map Prod.fst =
        [some (.plain 0, .static), some (.plain 1, .static)] ∧
      (fills bySibling out).map Prod.fst = [some (.plain 1, .static), some (.plain 1, .static)] :=
  ⟨_, merge_two 1 0 1 5 [] (by simp) (by simp) rfl intersects hi _ { plainStyle with fill := some (.plain 1, .static) }
    rfl (by decide), by decide, by decide⟩

/-- The length of horizontal lines. -/
def opLength : Op → Rat
  | .line p q => (q.x - p.x).abs
  | _ => 0

def subLength (s : Sub) : Rat := (s.ops.map opLength).sum

/-- With the attribute `pathLength`, a unit of dashes is this long (SVG 2, 9.6.1), for paths of horizontal lines. -/
def dashUnit (author : Rat) (e : El String) : Rat := (e.subs.map subLength).sum / author

/-- **C50 (violated: `pathLength` is for the whole path).** Two lines of length 10 and 30, each with a `pathLength` of
10, have dashes with units of 1 and of 3; merged, both have dashes with a unit of 4. -/
theorem length_violated (intersects : List Cmd → List Cmd → Bool) (hi : intersects (line 10 0) (line 30 5) = false) :
    ∃ out, mergePaths false intersects (fun _ => .ok plainStyle)
        [lineEl 0 10 0 [.other "pathLength" "10"], lineEl 1 30 5 [.other "pathLength" "10"]] = .ok [out] ∧
      dashUnit 10 (lineEl 0 10 0 [.other "pathLength" "10"]) = 1 ∧
      dashUnit 10 (lineEl 1 30 5 [.other "pathLength" "10"]) = 3 ∧ dashUnit 10 out = 4 :=
  ⟨_, merge_two 10 0 30 5 [.other "pathLength" "10"] (by simp) (by simp [Attr.name]) (by decide) intersects hi _
    plainStyle rfl rfl, by decide +kernel, by decide +kernel, by decide +kernel⟩

/-- A horizontal line as wide as `w` covers the point. -/
def covers (w : Rat) (p : Pt) : Op → Bool
  | .line a b => decide (a.x ≤ p.x ∧ p.x ≤ b.x ∧ (p.y - a.y).abs ≤ w / 2)
  | _ => false

/-- How many elements paint the point: each one paints it once. -/
def layers (w : Rat) (p : Pt) (es : List (El String)) : Nat :=
  es.countP fun e => e.subs.any fun s => s.ops.any (covers w p)

/-- **C50 (violated: wide lines overlap).** Two lines at a distance of 1 do not intersect. With a `stroke-width` of 4
and a `stroke-opacity` the points between them are painted twice before, and once after. -/
theorem wide_violated (intersects : List Cmd → List Cmd → Bool) (hi : intersects (line 10 0) (line 10 1) = false) :
    ∃ out, mergePaths false intersects (fun _ => .ok plainStyle)
        [lineEl 0 10 0 [.other "stroke-width" "4", .other "stroke-opacity" ".5"],
          lineEl 1 10 1 [.other "stroke-width" "4", .other "stroke-opacity" ".5"]] = .ok out ∧
      layers 4 ⟨5, 1 / 2⟩ [lineEl 0 10 0 [.other "stroke-width" "4", .other "stroke-opacity" ".5"],
          lineEl 1 10 1 [.other "stroke-width" "4", .other "stroke-opacity" ".5"]] = 2 ∧
      layers 4 ⟨5, 1 / 2⟩ out = 1 :=
  ⟨_, merge_two 10 0 10 1 [.other "stroke-width" "4", .other "stroke-opacity" ".5"] (by simp [Attr.name])
    (by simp [Attr.name]) (by decide) intersects hi _ plainStyle rfl rfl, by decide +kernel, by decide +kernel⟩

/-! ## Examples -/

example : mergePaths false (fun _ _ => false) (fun _ => .ok plainStyle) [lineEl 0 1 0 [], lineEl 1 1 5 []] =
    .ok [⟨1, true, true, [.d (line 1 0 ++ line 1 5)]⟩] := by decide +kernel

/-- A relative move is made absolute, the implied line after it explicit. -/
example : absolute [.moveBy ⟨1, 1⟩, .implicit (.lineBy ⟨2, 2⟩)] = [.moveTo ⟨1, 1⟩, .lineBy ⟨2, 2⟩] := by decide

example : drawn [.moveTo ⟨0, 0⟩, .lineTo ⟨1, 0⟩, .moveTo ⟨5, 5⟩] =
    [⟨⟨0, 0⟩, [.line ⟨0, 0⟩ ⟨1, 0⟩], false⟩] := by decide

/-- The third path differs. -/
example : (mergePaths false (fun _ _ => false) (fun _ => .ok plainStyle)
    [lineEl 0 1 0 [.other "fill" "red"], lineEl 1 1 5 [.other "fill" "red"], lineEl 2 1 9 [.other "fill" "blue"]]).map
      (·.map El.node) = .ok [1, 2] := by decide +kernel

/-- Merging is forced. -/
example : (mergePaths true (fun _ _ => true) (fun _ => .ok plainStyle) [lineEl 0 1 0 [], lineEl 1 1 0 []]).map
    (·.map El.node) = .ok [1] := by decide +kernel

example : (mergePaths false (fun _ _ => true) (fun _ => .ok plainStyle) [lineEl 0 1 0 [], lineEl 1 1 0 []]).map
    (·.map El.node) = .ok [0, 1] := by decide +kernel

/-- A path with an `id` is not merged into the next. -/
example : (mergePaths false (fun _ _ => false) (fun _ => .ok plainStyle)
    [lineEl 0 1 0 [.other "id" "a"], lineEl 1 1 5 [.other "id" "a"]]).map (·.map El.node) = .ok [0, 1] := by
  decide +kernel

example : (lineEl 0 1 0 [.other "fill" "red"]).Proper := by
  constructor
  · decide
  · intro c m
    simp only [lineEl, List.mem_cons, Attr.d.injEq, List.not_mem_nil, or_false] at m
    rcases m with rfl | m
    · exact .inr ⟨_, _, .inl rfl⟩
    · exact nomatch m

end Verif.MergePaths
