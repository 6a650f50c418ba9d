import Verif.Simplify.Straight

/-!
# C25: which passes are run, and all of them on polygons

`crates/oxvg_path/src/optimize.rs` 8-96, `crates/oxvg_optimiser/src/utils/style_info.rs` and
`crates/oxvg_optimiser/src/jobs/convert_path_data.rs` 45-160.
-/

namespace Verif.Simplify

open Verif.Segment (Pt bezier3 sq_nonneg dist2_nonneg Pt.add_def Pt.sub_def)

/-! ## Model -/

/-- oxvg_ast/src/style.rs 92-99, `Mode`. -/
inductive Mode where
  | static
  | dynamic
deriving DecidableEq

/-- oxvg_collections/src/attribute/inheritable.rs, `Inheritable`. -/
inductive Inh (V : Type) where
  | defined (v : V)
  | inherited
deriving DecidableEq

/-- oxvg_ast/src/style.rs 71-79, `ComputedStyle`. -/
inductive Style (V : Type) where
  | known (v : Inh V) (m : Mode)
  | unparsed
  | absent
deriving DecidableEq

/-- `SVGPaint`; colours and references are not told apart. -/
inductive Paint where
  | nothing
  | some
deriving DecidableEq

/-- `StrokeLinecap`. -/
inductive Cap where
  | butt
  | round
  | square
deriving DecidableEq

/-- `StrokeLinejoin`; those that are not `round` are not told apart. -/
inductive Join where
  | miter
  | round
deriving DecidableEq

/-- `FillRule`. -/
inductive Rule where
  | nonzero
  | evenodd
deriving DecidableEq

/-- `Marker`; urls are not told apart. -/
inductive Marker where
  | nothing
  | url
deriving DecidableEq

/-- What `gather_optimize_options` looks at. -/
structure Styles where
  stroke : Style Paint
  cap : Style Cap
  join : Style Join
  rule : Style Rule
  marker : Style Marker
  first : Style Marker
  mid : Style Marker
  last : Style Marker

/-- style_info.rs 22-26. -/
def maybeStroke : Style Paint → Bool
  | .absent => false
  | .unparsed => true
  | .known v m => m == .dynamic || !(v == .defined .nothing)

/-- style_info.rs 27-31. -/
def maybeCap : Style Cap → Bool
  | .absent => false
  | .unparsed => true
  | .known v m => m == .static && !(v == .defined .butt)

/-- style_info.rs 32-37. -/
def safeToClose (s : Styles) : Bool :=
  !maybeStroke s.stroke || (s.cap == .known (.defined .round) .static && s.join == .known (.defined .round) .static)

/-- style_info.rs 49-57. -/
def maybeNonzero : Style Rule → Bool
  | .absent => true
  | .unparsed => true
  | .known v m => m == .dynamic || v == .defined .nonzero || v == .inherited

/-- style_info.rs 58-66. -/
def maybeEvenodd : Style Rule → Bool
  | .absent => false
  | .unparsed => true
  | .known v m => m == .dynamic || v == .defined .evenodd || v == .inherited

/-- style_info.rs 68-78, 80-90, 92-102, 104-114. -/
def maybeMarker : Style Marker → Bool
  | .absent => false
  | .unparsed => true
  | .known v m => m == .dynamic || v == .inherited || v == .defined .url

/-- optimize.rs 8-96, `Options`. -/
abbrev Options := BitVec 16

namespace Options

/-- optimize.rs 24. -/
def close : Options := 1
/-- optimize.rs 32. -/
def unite : Options := 2
/-- optimize.rs 42. -/
def join : Options := 4
/-- optimize.rs 50. -/
def empty : Options := 8
/-- optimize.rs 58. -/
def noop : Options := 16
/-- optimize.rs 69. -/
def closeLine : Options := 32
/-- optimize.rs 73. -/
def straight : Options := 64
/-- optimize.rs 77. -/
def arcs : Options := 128
/-- optimize.rs 81. -/
def smart : Options := 256
/-- optimize.rs 84. -/
def unsafeStroke : Options := close ||| unite ||| closeLine
/-- optimize.rs 86. -/
def unsafeMarker : Options := unite ||| empty
/-- optimize.rs 88. -/
def unsafeMarkerStart : Options := unsafeMarker
/-- optimize.rs 90. -/
def unsafeMarkerMid : Options := unsafeMarker ||| close ||| join ||| closeLine
/-- optimize.rs 92. -/
def unsafeMarkerEnd : Options := unsafeMarker ||| close ||| closeLine
/-- optimize.rs 94. -/
def unsafeStrokeLinecap : Options := noop

/-- bitflags `all`: the union of all flags. -/
def all : Options :=
  close ||| unite ||| join ||| empty ||| noop ||| closeLine ||| straight ||| arcs ||| smart

/-- bitflags `contains`. -/
def has (o b : Options) : Bool := o &&& b == b

/-- bitflags `set`. -/
def set (o b : Options) (v : Bool) : Options := if v then o ||| b else o &&& ~~~b

/-- `options &= !mask | Options::from_bits_retain(keep as u16 * u16::MAX)` (style_info.rs 119-138); `!` leaves only
flags that exist. -/
def keepIf (o mask : Options) (keep : Bool) : Options := o &&& ((~~~mask &&& all) ||| if keep then 0xFFFF else 0)

end Options

/-- style_info.rs 14-145, `gather_optimize_options`, without the fill rule. -/
def gather (s : Styles) : Options :=
  let stroke := maybeStroke s.stroke
  let marker := maybeMarker s.marker
  let first := marker || maybeMarker s.first
  let mid := marker || maybeMarker s.mid
  let last := marker || maybeMarker s.last
  let o := Options.keepIf .all .unsafeStroke (!stroke)
  let o := Options.set o .close (safeToClose s)
  let o := Options.keepIf o .unsafeStrokeLinecap (!(stroke && maybeCap s.cap))
  let o := Options.keepIf o .unsafeMarker (!(first || mid || last))
  let o := Options.keepIf o .unsafeMarkerStart (!first)
  let o := Options.keepIf o .unsafeMarkerMid (!mid)
  let o := Options.keepIf o .unsafeMarkerEnd (!last)
  let o := Options.keepIf o .unite (s.rule == .absent || (maybeEvenodd s.rule ^^ maybeNonzero s.rule))
  Options.set o .closeLine (!stroke && !mid && !last)

/-- convert_path_data.rs 45-98, `ConvertPathData`, without the tolerance. -/
structure Job where
  closeSegments : Bool := false
  uniteSegments : Bool := false
  joinNodes : Bool := true
  removeEmptySegments : Bool := true
  removeZeroSegments : Bool := true
  removeCloseLine : Bool := false
  straightCurves : Bool := true
  arcCurves : Bool := true
  smartArcRounding : Bool := true

/-- convert_path_data.rs 143-160, `From<&ConvertPathData> for Options`. -/
def Job.options (j : Job) : Options :=
  let o := Options.set 0 .close j.closeSegments
  let o := Options.set o .unite j.uniteSegments
  let o := Options.set o .join j.joinNodes
  let o := Options.set o .empty j.removeEmptySegments
  let o := Options.set o .noop j.removeZeroSegments
  let o := Options.set o .closeLine j.removeCloseLine
  let o := Options.set o .straight j.straightCurves
  let o := Options.set o .arcs j.arcCurves
  Options.set o .smart j.smartArcRounding

/-- The `options.contains(…)` of optimize.rs 130 and simplify.rs 14-41. -/
def passes (o : Options) : Passes :=
  { close := o.has .close, join := o.has .join, empty := o.has .empty, noop := o.has .noop,
    closeLine := o.has .closeLine, straight := o.has .straight, arcs := o.has .arcs }

/-- convert_path_data.rs 125-126: the passes that the job runs on an element. -/
def Job.passes (j : Job) (s : Styles) : Passes := Simplify.passes (gather s &&& j.options)

/-! ## Specification -/

/-- `w` may be what a property turns out to be when the document is shown: what is set, what it is initially, or, if that
cannot be known, anything. -/
def May {V : Type} (initial : V) : Style V → V → Prop
  | .known (.defined v) .static, w => w = v
  | .absent, w => w = initial
  | _, _ => True

/-- What is drawn with. -/
structure Actual where
  stroke : Paint
  cap : Cap
  join : Join
  rule : Rule
  first : Marker
  mid : Marker
  last : Marker

/-- `a` may be what an element with these styles is drawn with. `marker` stands for all three others, if it is set. -/
def Possible (s : Styles) (a : Actual) : Prop :=
  May .nothing s.stroke a.stroke ∧ May .butt s.cap a.cap ∧ May .miter s.join a.join ∧ May .nonzero s.rule a.rule ∧
    ∃ m, May .nothing s.marker m ∧ (a.first = .url → m = .url ∨ May .nothing s.first .url) ∧
      (a.mid = .url → m = .url ∨ May .nothing s.mid .url) ∧ (a.last = .url → m = .url ∨ May .nothing s.last .url)

/-! ## Theorems -/

theorem May.exists {V : Type} (i : V) (s : Style V) : ∃ w, May i s w := by
  match s with
  | .known (.defined v) .static => exact ⟨v, rfl⟩
  | .known (.defined v) .dynamic => exact ⟨v, trivial⟩
  | .known .inherited m => exact ⟨i, by cases m <;> trivial⟩
  | .unparsed => exact ⟨i, trivial⟩
  | .absent => exact ⟨i, rfl⟩

theorem stroke_iff (s : Style Paint) : maybeStroke s = true ↔ May .nothing s .some := by
  rcases s with ⟨_ | _, _ | _⟩ | _ | _ <;> simp [maybeStroke, May]
  rename_i v; cases v <;> decide

theorem marker_iff (s : Style Marker) : maybeMarker s = true ↔ May .nothing s .url := by
  rcases s with ⟨_ | _, _ | _⟩ | _ | _ <;> simp [maybeMarker, May]
  rename_i v; cases v <;> decide

theorem cap_round_iff (s : Style Cap) : s = .known (.defined .round) .static ↔ ∀ w, May .butt s w → w = .round := by
  constructor
  · rintro rfl w h; exact h
  · intro h
    rcases s with ⟨v | _, _ | _⟩ | _ | _
    · cases v <;> simp_all [May]
    all_goals exact absurd (h .butt (by trivial)) (by decide)

theorem join_round_iff (s : Style Join) : s = .known (.defined .round) .static ↔ ∀ w, May .miter s w → w = .round := by
  constructor
  · rintro rfl w h; exact h
  · intro h
    rcases s with ⟨v | _, _ | _⟩ | _ | _
    · cases v <;> simp_all [May]
    all_goals exact absurd (h .miter (by trivial)) (by decide)

theorem rule_iff (s : Style Rule) : (s == .absent || (maybeEvenodd s ^^ maybeNonzero s)) = true ↔
    ∀ v w, May .nonzero s v → May .nonzero s w → v = w := by
  rcases s with ⟨v | _, _ | _⟩ | _ | _
  · cases v <;> simp [maybeEvenodd, maybeNonzero, May]
  all_goals
    simp [maybeEvenodd, maybeNonzero, May]
  all_goals exact ⟨.nonzero, .evenodd, by decide⟩

/-- The bits of the result, by what may be there. -/
theorem gather_bits (s : Styles) :
    let stroke := maybeStroke s.stroke
    let first := maybeMarker s.marker || maybeMarker s.first
    let mid := maybeMarker s.marker || maybeMarker s.mid
    let last := maybeMarker s.marker || maybeMarker s.last
    (gather s).has .close = (safeToClose s && !mid && !last) ∧
    (gather s).has .unite = (!stroke && !first && !mid && !last &&
      (s.rule == .absent || (maybeEvenodd s.rule ^^ maybeNonzero s.rule))) ∧
    (gather s).has .join = !mid ∧ (gather s).has .empty = (!first && !mid && !last) ∧
    (gather s).has .noop = !(stroke && maybeCap s.cap) ∧ (gather s).has .closeLine = (!stroke && !mid && !last) ∧
    (gather s).has .straight = true ∧ (gather s).has .arcs = true ∧ (gather s).has .smart = true := by
  simp only [gather]
  generalize maybeStroke s.stroke = a
  generalize maybeMarker s.marker = b
  generalize maybeMarker s.first = c
  generalize maybeMarker s.mid = d
  generalize maybeMarker s.last = e
  generalize safeToClose s = f
  generalize maybeCap s.cap = h
  generalize (s.rule == .absent || (maybeEvenodd s.rule ^^ maybeNonzero s.rule)) = i
  revert a b c d e f h i
  decide +kernel

/-- An element drawn with this may be there, if each of its parts may. -/
theorem possible_mk {s : Styles} {p : Paint} {c : Cap} {j : Join} {r : Rule} {x y z : Marker}
    (h1 : May .nothing s.stroke p) (h2 : May .butt s.cap c) (h3 : May .miter s.join j) (h4 : May .nonzero s.rule r)
    (hx : x = .url → (maybeMarker s.marker || maybeMarker s.first) = true)
    (hy : y = .url → (maybeMarker s.marker || maybeMarker s.mid) = true)
    (hz : z = .url → (maybeMarker s.marker || maybeMarker s.last) = true) : Possible s ⟨p, c, j, r, x, y, z⟩ := by
  refine ⟨h1, h2, h3, h4, ?_⟩
  simp only [Bool.or_eq_true, marker_iff] at hx hy hz
  by_cases hm : May .nothing s.marker .url
  · exact ⟨.url, hm, fun _ => .inl rfl, fun _ => .inl rfl, fun _ => .inl rfl⟩
  · obtain ⟨m, h⟩ := May.exists .nothing s.marker
    exact ⟨m, h, fun e => .inr ((hx e).resolve_left hm), fun e => .inr ((hy e).resolve_left hm),
      fun e => .inr ((hz e).resolve_left hm)⟩

theorem first_iff (s : Styles) : (maybeMarker s.marker || maybeMarker s.first) = false ↔
    ∀ a, Possible s a → a.first = .nothing := by
  constructor
  · rintro h a ⟨-, -, -, -, m, h1, h2, -, -⟩
    cases e : a.first with
    | nothing => rfl
    | url =>
      rw [Bool.or_eq_false_iff, ← Bool.not_eq_true, ← Bool.not_eq_true, marker_iff, marker_iff] at h
      rcases h2 e with rfl | h2
      · exact absurd h1 h.1
      · exact absurd h2 h.2
  · intro h
    rw [← Bool.not_eq_true]
    intro hm
    obtain ⟨p, hp⟩ := May.exists .nothing s.stroke
    obtain ⟨c, hc⟩ := May.exists .butt s.cap
    obtain ⟨j, hj⟩ := May.exists .miter s.join
    obtain ⟨r, hr⟩ := May.exists .nonzero s.rule
    exact absurd (h ⟨p, c, j, r, .url, .nothing, .nothing⟩
      (possible_mk hp hc hj hr (fun _ => hm) (by simp) (by simp))) (by simp)

theorem mid_iff (s : Styles) : (maybeMarker s.marker || maybeMarker s.mid) = false ↔
    ∀ a, Possible s a → a.mid = .nothing := by
  constructor
  · rintro h a ⟨-, -, -, -, m, h1, -, h2, -⟩
    cases e : a.mid with
    | nothing => rfl
    | url =>
      rw [Bool.or_eq_false_iff, ← Bool.not_eq_true, ← Bool.not_eq_true, marker_iff, marker_iff] at h
      rcases h2 e with rfl | h2
      · exact absurd h1 h.1
      · exact absurd h2 h.2
  · intro h
    rw [← Bool.not_eq_true]
    intro hm
    obtain ⟨p, hp⟩ := May.exists .nothing s.stroke
    obtain ⟨c, hc⟩ := May.exists .butt s.cap
    obtain ⟨j, hj⟩ := May.exists .miter s.join
    obtain ⟨r, hr⟩ := May.exists .nonzero s.rule
    exact absurd (h ⟨p, c, j, r, .nothing, .url, .nothing⟩
      (possible_mk hp hc hj hr (by simp) (fun _ => hm) (by simp))) (by simp)

theorem last_iff (s : Styles) : (maybeMarker s.marker || maybeMarker s.last) = false ↔
    ∀ a, Possible s a → a.last = .nothing := by
  constructor
  · rintro h a ⟨-, -, -, -, m, h1, -, -, h2⟩
    cases e : a.last with
    | nothing => rfl
    | url =>
      rw [Bool.or_eq_false_iff, ← Bool.not_eq_true, ← Bool.not_eq_true, marker_iff, marker_iff] at h
      rcases h2 e with rfl | h2
      · exact absurd h1 h.1
      · exact absurd h2 h.2
  · intro h
    rw [← Bool.not_eq_true]
    intro hm
    obtain ⟨p, hp⟩ := May.exists .nothing s.stroke
    obtain ⟨c, hc⟩ := May.exists .butt s.cap
    obtain ⟨j, hj⟩ := May.exists .miter s.join
    obtain ⟨r, hr⟩ := May.exists .nonzero s.rule
    exact absurd (h ⟨p, c, j, r, .nothing, .nothing, .url⟩
      (possible_mk hp hc hj hr (by simp) (by simp) (fun _ => hm))) (by simp)

theorem nostroke_iff (s : Styles) : maybeStroke s.stroke = false ↔ ∀ a, Possible s a → a.stroke = .nothing := by
  rw [← Bool.not_eq_true, stroke_iff]
  constructor
  · rintro h a ⟨h1, -⟩
    cases e : a.stroke with
    | nothing => rfl
    | some => exact absurd (e ▸ h1) h
  · intro h hm
    obtain ⟨c, hc⟩ := May.exists .butt s.cap
    obtain ⟨j, hj⟩ := May.exists .miter s.join
    obtain ⟨r, hr⟩ := May.exists .nonzero s.rule
    exact absurd (h ⟨.some, c, j, r, .nothing, .nothing, .nothing⟩
      (possible_mk hm hc hj hr (by simp) (by simp) (by simp))) (by simp)

/-- **C25 (options).** Closing lines are left out exactly if nothing is stroked and no markers are drawn on the way or at
the end, whatever the styles turn out to be. -/
theorem closeLine_iff (s : Styles) : (gather s).has .closeLine = true ↔
    ∀ a, Possible s a → a.stroke = .nothing ∧ a.mid = .nothing ∧ a.last = .nothing := by
  rw [(gather_bits s).2.2.2.2.2.1]
  simp only [Bool.and_eq_true, Bool.not_eq_true', nostroke_iff, mid_iff, last_iff]
  grind

/-- **C25 (options).** Nodes are joined exactly if no markers are drawn on the way. -/
theorem join_iff (s : Styles) : (gather s).has .join = true ↔ ∀ a, Possible s a → a.mid = .nothing := by
  rw [(gather_bits s).2.2.1, Bool.not_eq_true', mid_iff]

/-- **C25 (options).** Empty segments are removed exactly if no markers are drawn. (That they are also drawn as dots, if
they are closed and lines have round or square ends, is not looked at.) -/
theorem empty_iff (s : Styles) : (gather s).has .empty = true ↔
    ∀ a, Possible s a → a.first = .nothing ∧ a.mid = .nothing ∧ a.last = .nothing := by
  rw [(gather_bits s).2.2.2.1]
  simp only [Bool.and_eq_true, Bool.not_eq_true', first_iff, mid_iff, last_iff]
  grind

/-- **C25 (options).** Segments may be united exactly if nothing is stroked, no markers are drawn and the fill rule is
certain. -/
theorem unite_iff (s : Styles) : (gather s).has .unite = true ↔
    (∀ a, Possible s a → a.stroke = .nothing ∧ a.first = .nothing ∧ a.mid = .nothing ∧ a.last = .nothing) ∧
    ∀ a b, Possible s a → Possible s b → a.rule = b.rule := by
  rw [(gather_bits s).2.1]
  simp only [Bool.and_eq_true, Bool.not_eq_true', nostroke_iff, first_iff, mid_iff, last_iff, rule_iff]
  constructor
  · rintro ⟨⟨⟨⟨h1, h2⟩, h3⟩, h4⟩, h5⟩
    exact ⟨fun a h => ⟨h1 a h, h2 a h, h3 a h, h4 a h⟩, fun a b ha hb => h5 _ _ ha.2.2.2.1 hb.2.2.2.1⟩
  · rintro ⟨h1, h2⟩
    refine ⟨⟨⟨⟨fun a h => (h1 a h).1, fun a h => (h1 a h).2.1⟩, fun a h => (h1 a h).2.2.1⟩,
      fun a h => (h1 a h).2.2.2⟩, fun v w hv hw => ?_⟩
    obtain ⟨p, hp⟩ := May.exists .nothing s.stroke
    obtain ⟨c, hc⟩ := May.exists .butt s.cap
    obtain ⟨j, hj⟩ := May.exists .miter s.join
    exact h2 ⟨p, c, j, v, .nothing, .nothing, .nothing⟩ ⟨p, c, j, w, .nothing, .nothing, .nothing⟩
      (possible_mk hp hc hj hv (by simp) (by simp) (by simp)) (possible_mk hp hc hj hw (by simp) (by simp) (by simp))

/-- **C25 (options).** Segments are closed exactly if no markers are drawn on the way or at the end, and nothing is
stroked or lines have round ends and corners. -/
theorem close_iff (s : Styles) : (gather s).has .close = true ↔
    ∀ a, Possible s a → (a.stroke = .nothing ∨ a.cap = .round ∧ a.join = .round) ∧ a.mid = .nothing ∧
      a.last = .nothing := by
  rw [(gather_bits s).1]
  simp only [Bool.and_eq_true, Bool.not_eq_true', mid_iff, last_iff, safeToClose, Bool.or_eq_true, nostroke_iff,
    beq_iff_eq, cap_round_iff, join_round_iff]
  constructor
  · rintro ⟨⟨h1 | h1, h2⟩, h3⟩ a ha
    · exact ⟨.inl (h1 a ha), h2 a ha, h3 a ha⟩
    · exact ⟨.inr ⟨h1.1 _ ha.2.1, h1.2 _ ha.2.2.1⟩, h2 a ha, h3 a ha⟩
  · intro h
    refine ⟨⟨?_, fun a ha => (h a ha).2.1⟩, fun a ha => (h a ha).2.2⟩
    by_cases hs : ∀ a, Possible s a → a.stroke = .nothing
    · exact .inl hs
    · right
      rw [← nostroke_iff, Bool.not_eq_false, stroke_iff] at hs
      obtain ⟨r, hr⟩ := May.exists .nonzero s.rule
      obtain ⟨c, hc⟩ := May.exists .butt s.cap
      obtain ⟨j, hj⟩ := May.exists .miter s.join
      constructor
      · intro w hw
        have := (h ⟨.some, w, j, r, .nothing, .nothing, .nothing⟩
          (possible_mk hs hw hj hr (by simp) (by simp) (by simp))).1
        simpa using (this.resolve_left (by simp)).1
      · intro w hw
        have := (h ⟨.some, c, w, r, .nothing, .nothing, .nothing⟩
          (possible_mk hs hc hw hr (by simp) (by simp) (by simp))).1
        simpa using (this.resolve_left (by simp)).2

/-- **C25 (options), but for ends of lines that scripts or media decide on.** Commands without extent are removed exactly
if nothing is stroked or lines have no ends that stick out. Missing is the case excluded, which the code gets wrong
(`dynamic_cap_violated`). -/
theorem noop_partial (s : Styles) (hc : ∀ v, s.cap ≠ .known v .dynamic) : (gather s).has .noop = true ↔
    ∀ a, Possible s a → a.stroke = .nothing ∨ a.cap = .butt := by
  rw [(gather_bits s).2.2.2.2.1, Bool.not_eq_true', Bool.and_eq_false_iff]
  have cap : maybeCap s.cap = false ↔ ∀ w, May .butt s.cap w → w = .butt := by
    rcases s with ⟨_, ⟨v | _, _ | _⟩ | _ | _⟩
    · cases v <;> simp [maybeCap, May]
    · exact absurd rfl (hc _)
    · simp only [maybeCap, May]; simp; exact ⟨.round, by simp⟩
    · exact absurd rfl (hc _)
    · simp only [maybeCap, May]; simp; exact ⟨.round, by simp⟩
    · simp [maybeCap, May]
  rw [cap, nostroke_iff]
  constructor
  · rintro (h | h) a ha
    · exact .inl (h a ha)
    · exact .inr (h _ ha.2.1)
  · intro h
    by_cases hs : ∀ a, Possible s a → a.stroke = .nothing
    · exact .inl hs
    · right
      intro w hw
      rw [← nostroke_iff, Bool.not_eq_false, stroke_iff] at hs
      obtain ⟨r, hr⟩ := May.exists .nonzero s.rule
      obtain ⟨j, hj⟩ := May.exists .miter s.join
      have := h ⟨.some, w, j, r, .nothing, .nothing, .nothing⟩
        (possible_mk hs hw hj hr (by simp) (by simp) (by simp))
      simpa using this

/-- **C25 fails (options).** With a stroke, and ends of lines that depend on a media query, commands without extent are
removed though they may be drawn as dots. -/
theorem dynamic_cap_violated (v : Inh Cap) : ∃ s : Styles, s.cap = .known v .dynamic ∧ (gather s).has .noop = true ∧
    ∃ a, Possible s a ∧ a.stroke = .some ∧ a.cap = .round := by
  refine ⟨⟨.known (.defined .some) .static, .known v .dynamic, .absent, .absent, .absent, .absent, .absent, .absent⟩,
    rfl, ?_, ⟨.some, .round, .miter, .nonzero, .nothing, .nothing, .nothing⟩, ?_, rfl, rfl⟩
  · rw [(gather_bits _).2.2.2.2.1]; rfl
  · exact possible_mk rfl (by cases v <;> trivial) rfl rfl (by simp) (by simp) (by simp)

theorem has_and (o k b : Options) : Options.has (o &&& k) b = (Options.has o b && Options.has k b) := by
  rw [Bool.eq_iff_iff]
  simp only [Options.has, Bool.and_eq_true, beq_iff_eq]
  constructor
  · intro h
    constructor
    · rw [← h]; ext i; simp; exact fun h _ _ => h
    · rw [← h]; ext i; simp; exact fun _ h _ => h
  · rintro ⟨h1, h2⟩
    rw [BitVec.and_assoc, h2, h1]

theorem job_bits (j : Job) :
    j.options.has .close = j.closeSegments ∧ j.options.has .join = j.joinNodes ∧
    j.options.has .empty = j.removeEmptySegments ∧ j.options.has .noop = j.removeZeroSegments ∧
    j.options.has .closeLine = j.removeCloseLine ∧ j.options.has .straight = j.straightCurves ∧
    j.options.has .arcs = j.arcCurves := by
  rcases j with ⟨a, b, c, d, e, f, h, i, k⟩
  simp only [Job.options]
  revert a b c d e f h i k
  decide +kernel

/-- **C25 (options).** The job runs a pass exactly if it is asked for and the styles allow it. -/
theorem job_passes (j : Job) (s : Styles) :
    j.passes s = { close := j.closeSegments && (gather s).has .close, join := j.joinNodes && (gather s).has .join,
                   empty := j.removeEmptySegments && (gather s).has .empty,
                   noop := j.removeZeroSegments && (gather s).has .noop,
                   closeLine := j.removeCloseLine && (gather s).has .closeLine,
                   straight := j.straightCurves, arcs := j.arcCurves } := by
  obtain ⟨b1, b2, b3, b4, b5, b6, b7⟩ := job_bits j
  obtain ⟨-, -, -, -, -, -, g6, g7, -⟩ := gather_bits s
  simp only [Job.passes, passes, has_and, b1, b2, b3, b4, b5, b6, b7, g6, g7, Bool.true_and, Bool.and_comm]

/-- Only to close. -/
def closing : Job where
  closeSegments := true
  joinNodes := false
  removeEmptySegments := false
  removeZeroSegments := false
  straightCurves := false
  arcCurves := false

/-- **C25 fails (options).** With `closeSegments` alone, a corner that is stroked with round ends and corners becomes a
triangle: closing it is taken for safe. -/
theorem close_stroke_violated {A : Type} (g : Geo A) (arc : Arc A → Rat → Pt) :
    ∃ s : Styles, (∀ a, Possible s a → a.stroke = .some) ∧
      optimize g (closing.passes s) [⟨⟨0, 0⟩, [.lineTo ⟨2, 0⟩, .lineTo ⟨2, 2⟩], false⟩] =
        [⟨⟨0, 0⟩, [.lineTo ⟨2, 0⟩, .lineTo ⟨2, 2⟩, .lineTo ⟨0, 0⟩], true⟩] ∧
      Stroke arc ⟨⟨0, 0⟩, [.lineTo ⟨2, 0⟩, .lineTo ⟨2, 2⟩, .lineTo ⟨0, 0⟩], true⟩ ⟨1, 1⟩ ∧
      ¬ Stroke arc ⟨⟨0, 0⟩, [.lineTo ⟨2, 0⟩, .lineTo ⟨2, 2⟩], false⟩ ⟨1, 1⟩ := by
  refine ⟨⟨.known (.defined .some) .static, .known (.defined .round) .static, .known (.defined .round) .static,
    .absent, .absent, .absent, .absent, .absent⟩, fun a h => h.1, ?_, ?_, ?_⟩
  · rw [job_passes, (gather_bits _).1]
    rfl
  · refine .inl (.inr (.inr (.inr (.inr (.inr (.inl ⟨1 / 2, by decide +kernel, by decide +kernel, ?_⟩))))))
    simp only [Data.pointAt, Data.stop, lineAt]; decide +kernel
  · rintro (h | h)
    · simp only [Trace, On, Data.pointAt, Data.stop, lineAt, Pt.mk.injEq] at h
      grind
    · exact absurd h.1 (by simp)

/-! ## All passes together, on polygons -/

variable {A : Type} {g : Geo A} {arc : Arc A → Rat → Pt}

/-- A segment of lines between points of a grid. -/
def Grid (u : Rat) (s : Segment A) : Prop :=
  OnGrid u s.start ∧ ∀ d ∈ s.data, ∃ q, d = .lineTo q ∧ OnGrid u q

/-- What can be seen of segments that are stroked: the points of those that are more than a point. -/
def Seen (arc : Arc A → Rat → Pt) (l : List (Segment A)) (x : Pt) : Prop :=
  ∃ s ∈ l, Stroke arc s x ∧ ∃ y, Stroke arc s y ∧ y ≠ x

/-- Different points of a grid are not near. -/
theorem grid_near {u : Rat} (hu : 0 < u) (ht : 0 ≤ g.tol) (h : g.tol ≤ u) {p q : Pt} (hp : OnGrid u p)
    (hq : OnGrid u q) (hd : q.dist2 p < g.tol2) : q = p := by
  obtain ⟨i, j, rfl⟩ := hp
  obtain ⟨k, l, rfl⟩ := hq
  have hlt : (((k - i) * (k - i) + (l - j) * (l - j) : Int) : Rat) * (u * u) < 1 * (u * u) := by
    have h1 := mul_self_le ht h
    have e : Pt.dist2 ⟨k * u, l * u⟩ ⟨i * u, j * u⟩ =
        (((k - i) * (k - i) + (l - j) * (l - j) : Int) : Rat) * (u * u) := by
      simp only [Pt.dist2, Rat.intCast_add, Rat.intCast_mul, Rat.intCast_sub]; grind
    rw [e] at hd
    simp only [Geo.tol2] at hd
    grind
  have hlt : (((k - i) * (k - i) + (l - j) * (l - j) : Int) : Rat) < ((1 : Int) : Rat) := by
    have hpos : 0 < u * u := Rat.mul_pos hu hu
    apply Rat.not_le.1
    intro hle
    have := Rat.mul_le_mul_of_nonneg_right hle (Rat.le_of_lt hpos)
    rw [show ((1 : Int) : Rat) = 1 by rfl] at this
    exact absurd hlt (Rat.not_lt.2 this)
  have hlt : (k - i) * (k - i) + (l - j) * (l - j) < 1 := Rat.intCast_lt_intCast.1 hlt
  have sq (a : Int) : 0 ≤ a * a := by
    rcases Int.le_total 0 a with h | h
    · exact Int.mul_nonneg h h
    · exact Int.mul_nonneg_of_nonpos_of_nonpos h h
  have h1 := sq (k - i)
  have h2 := sq (l - j)
  have h3 : (k - i) * (k - i) = 0 := by omega
  have h4 : (l - j) * (l - j) = 0 := by omega
  have h5 : k - i = 0 := (Int.mul_eq_zero.1 h3).elim id id
  have h6 : l - j = 0 := (Int.mul_eq_zero.1 h4).elim id id
  rw [show k = i by omega, show l = j by omega]

theorem noop_grid {u : Rat} (hu : 0 < u) (ht : 0 ≤ g.tol) (h : g.tol ≤ u) (ds : List (Data A)) (p : Pt)
    (hp : OnGrid u p) (hd : ∀ d ∈ ds, ∃ q, d = .lineTo q ∧ OnGrid u q) :
    (∀ x, Trace arc p (removeNoopData g p ds) x ↔ Trace arc p ds x) ∧
      last p (removeNoopData g p ds) = last p ds ∧ ∀ d ∈ removeNoopData g p ds, d ∈ ds := by
  induction ds generalizing p with
  | nil => exact ⟨fun _ => Iff.rfl, rfl, fun _ h => h⟩
  | cons d ds ih =>
    obtain ⟨q, rfl, hq⟩ := hd d (.head _)
    obtain ⟨i1, i2, i3⟩ := ih q hq fun d h => hd d (.tail _ h)
    unfold removeNoopData
    split
    · rename_i hz
      have e : q = p := grid_near hu ht h hp hq (of_decide_eq_true hz)
      subst e
      simp only [Data.stop]
      refine ⟨fun x => ?_, i2, fun d h => .tail _ (i3 d h)⟩
      rw [i1]
      simp only [Trace, Data.stop, On, Data.pointAt, lineAt_self]
      constructor
      · exact fun h => .inr (.inr h)
      · rintro (rfl | ⟨_, _, _, rfl⟩ | h)
        · exact trace_start _ _
        · exact trace_start _ _
        · exact h
    · refine ⟨fun x => ?_, i2, fun d h => ?_⟩
      · simp only [Trace, Data.stop, i1]
      · rcases List.mem_cons.1 h with rfl | h
        · exact .head _
        · exact .tail _ (i3 d h)

theorem popIf_sub {B : Type} (f : B → Bool) (l : List B) : ∀ d ∈ popIf f l, d ∈ l := by
  rcases popIf_eq f l with h | ⟨m, z, h1, -, h3⟩
  · rw [h]; exact fun _ h => h
  · rw [h3, h1]; intro d hd; simp [hd]

theorem pop_grid {u : Rat} (hu : 0 < u) (ht : 0 ≤ g.tol) (h : g.tol ≤ u) {s : Segment A} (hs : Grid u s) :
    Grid u (popClosing g s) ∧ ∀ x, Stroke arc (popClosing g s) x ↔ Stroke arc s x := by
  unfold popClosing
  split
  · rename_i hc
    refine ⟨⟨hs.1, fun d hd => hs.2 d (popIf_sub _ _ d hd)⟩, ?_⟩
    rcases popIf_eq (endsAt g s.start) s.data with e | ⟨m, z, h1, h2, h3⟩
    · rw [e]; exact fun _ => Iff.rfl
    · obtain ⟨q, rfl, hq⟩ := hs.2 z (by rw [h1]; simp)
      have e : q = s.start := grid_near hu ht h hs.1 hq (of_decide_eq_true h2)
      have key := drop_last (arc := arc) (p := s.start) (q := q) (m := m) (e := 0)
        (by rw [e, Verif.Segment.dist2_self]; exact sq_nonneg 0)
      intro x
      have := key.eq x
      rw [h3]
      simp only [Stroke, Closing, hc, true_and, h1, last_append, last, Data.stop]
      exact this.symm
  · exact ⟨hs, fun _ => Iff.rfl⟩

/-- Segments are paired with segments on the grid of which the same points are stroked. -/
inductive Same (arc : Arc A → Rat → Pt) (u : Rat) : List (Segment A) → List (Segment A) → Prop
  | nil : Same arc u [] []
  | cons {s l s' l'} : Grid u s' → (∀ x, Stroke arc s' x ↔ Stroke arc s x) → Same arc u l l' →
      Same arc u (s :: l) (s' :: l')

theorem Same.map {u : Rat} {f : Segment A → Segment A} : ∀ {l : List (Segment A)},
    (∀ s ∈ l, Grid u (f s) ∧ ∀ x, Stroke arc (f s) x ↔ Stroke arc s x) → Same arc u l (l.map f)
  | [], _ => .nil
  | s :: _, h => .cons (h s (.head _)).1 (h s (.head _)).2 (.map fun s hs => h s (.tail _ hs))

theorem Same.trans {u : Rat} {l m n : List (Segment A)} (h : Same arc u l m) (h' : Same arc u m n) :
    Same arc u l n := by
  induction h generalizing n with
  | nil => exact h'
  | cons h1 h2 _ ih =>
    cases h' with
    | cons k1 k2 k3 => exact .cons k1 (fun x => (k2 x).trans (h2 x)) (ih k3)

theorem Same.grid {u : Rat} {l m : List (Segment A)} (h : Same arc u l m) : ∀ s ∈ m, Grid u s := by
  induction h with
  | nil => intro s h; cases h
  | cons h1 _ _ ih =>
    intro s hs
    rcases List.mem_cons.1 hs with rfl | hs
    · exact h1
    · exact ih s hs

theorem Same.append {u : Rat} {l l' m m' : List (Segment A)} (h : Same arc u l l') (h' : Same arc u m m') :
    Same arc u (l ++ m) (l' ++ m') := by
  induction h with
  | nil => exact h'
  | cons h1 h2 _ ih => exact .cons h1 h2 ih

theorem Same.refl {u : Rat} {l : List (Segment A)} (h : ∀ s ∈ l, Grid u s) : Same arc u l l := by
  have := Same.map (arc := arc) (u := u) (f := id) (l := l) fun s hs => ⟨h s hs, fun _ => Iff.rfl⟩
  simpa using this

theorem Same.seen {u : Rat} {l m : List (Segment A)} (h : Same arc u l m) (x : Pt) : Seen arc m x ↔ Seen arc l x := by
  induction h with
  | nil => exact Iff.rfl
  | cons _ h2 _ ih =>
    simp only [Seen, List.mem_cons, exists_eq_or_imp] at *
    rw [ih]
    simp only [h2]

theorem removeNoop_grid {u : Rat} (hu : 0 < u) (ht : 0 ≤ g.tol) (h : g.tol ≤ u) {l : List (Segment A)}
    (hl : ∀ s ∈ l, Grid u s) : Same arc u l (removeNoop g l) := by
  have step (s : Segment A) (hs : Grid u s) : Grid u { s with data := removeNoopData g s.start s.data } ∧
      ∀ x, Stroke arc { s with data := removeNoopData g s.start s.data } x ↔ Stroke arc s x := by
    obtain ⟨h1, h2, h3⟩ := noop_grid (arc := arc) hu ht h s.data s.start hs.1 hs.2
    refine ⟨⟨hs.1, fun d hd => hs.2 d (h3 d hd)⟩, fun x => ?_⟩
    simp only [Stroke, h1, Closing, h2]
  rcases l.eq_nil_or_concat with rfl | ⟨m, z, rfl⟩
  · exact .nil
  · simp only [removeNoop, List.concat_eq_append, List.map_append, List.map_cons, List.map_nil,
      List.getLast?_concat, List.dropLast_concat]
    simp only [List.concat_eq_append, List.mem_append, List.mem_singleton] at hl
    refine .append (.map fun s hs => step s (hl s (.inl hs))) ?_
    obtain ⟨k1, k2⟩ := step z (hl z (.inr rfl))
    obtain ⟨j1, j2⟩ := pop_grid (arc := arc) hu ht h k1
    exact .cons j1 (fun x => (j2 x).trans (k2 x)) .nil

theorem joinData_sub (p : Pt) (d : Data A) (ds : List (Data A)) (hd : ∀ e ∈ d :: ds, ∃ q, e = .lineTo q) :
    ∀ e ∈ joinFrom g p d ds, e ∈ d :: ds := by
  induction ds generalizing p d with
  | nil => exact fun _ h => h
  | cons e ds ih =>
    obtain ⟨q, rfl⟩ := hd d (.head _)
    obtain ⟨r, rfl⟩ := hd e (.tail _ (.head _))
    have hr : ∀ e ∈ .lineTo r :: ds, ∃ q, e = .lineTo q := fun e h => hd e (.tail _ h)
    simp only [joinFrom, joinPair]
    by_cases hc : isContinuous g p q r = true
    · simp only [if_pos hc]
      exact fun e h => .tail _ (ih _ _ hr e h)
    · simp only [if_neg hc]
      intro e h
      rcases List.mem_cons.1 h with rfl | h
      · exact .head _
      · exact .tail _ (ih _ _ hr e h)

theorem joinNodes_same {u : Rat} (h : g.tol ≤ u * u) {l : List (Segment A)} (hl : ∀ s ∈ l, Grid u s) :
    Same arc u l (joinNodes g l) := by
  refine .map fun s hs => ⟨⟨(hl s hs).1, fun d hd => (hl s hs).2 d ?_⟩, joinNodes_grid h (hl s hs).1 (hl s hs).2⟩
  cases e : s.data with
  | nil => simp only [e, joinData] at hd; cases hd
  | cons d' ds =>
    simp only [e, joinData] at hd
    refine joinData_sub _ d' ds (fun x hx => ?_) d hd
    obtain ⟨q, hq, _⟩ := (hl s hs).2 x (by rw [e]; exact hx)
    exact ⟨q, hq⟩

theorem straight_grid {u : Rat} {l : List (Segment A)} (hl : ∀ s ∈ l, Grid u s) (c : Chain) :
    straightCurves g c l = l := by
  have key (ds : List (Data A)) (first : Bool) (c : Chain) (p : Pt) (h : ∀ d ∈ ds, ∃ q, d = .lineTo q) :
      (straightData g first c p ds).1 = ds := by
    induction ds generalizing first c p with
    | nil => rfl
    | cons d ds ih =>
      obtain ⟨q, rfl⟩ := h d (.head _)
      simp only [straightData, straightStep]
      rw [ih _ _ _ fun d hd => h d (.tail _ hd)]
  induction l generalizing c with
  | nil => rfl
  | cons s l ih =>
    simp only [straightCurves]
    rw [ih (fun s hs => hl s (.tail _ hs)), key]
    intro d hd
    obtain ⟨q, hq, _⟩ := (hl s (.head _)).2 d hd
    exact ⟨q, hq⟩

theorem removeEmpty_seen {u : Rat} {l : List (Segment A)} (x : Pt) (_ : ∀ s ∈ l, Grid u s) :
    Seen arc (removeEmpty l) x ↔ Seen arc l x := by
  simp only [Seen, removeEmpty_spec]
  constructor
  · rintro ⟨s, ⟨hs, -⟩, h⟩; exact ⟨s, hs, h⟩
  · rintro ⟨s, hs, h1, y, h2, hne⟩
    refine ⟨s, ⟨hs, fun he => ?_⟩, h1, y, h2, hne⟩
    have only : ∀ y, Stroke arc s y → y = s.start := by
      intro y hy
      simp only [Stroke, he, Trace, Closing, last, lineAt_self] at hy
      rcases hy with h | ⟨_, _, _, _, h⟩ <;> exact h
    exact hne ((only y h2).trans (only x h1).symm)

/-- **C25, for polygons.** Whatever passes the job runs without being asked to (curves to arcs aside, which has nothing to
do here), of polygons and polylines between points of a grid that is not finer than the tolerance and its root exactly
the same can be seen of the stroke. -/
theorem optimize_grid {u : Rat} (hu : 0 < u) (ht : 0 ≤ g.tol) (h : g.tol ≤ u) (h' : g.tol ≤ u * u)
    (ha : ∀ l : List (Segment A), (∀ s ∈ l, Grid u s) → g.arcCurves l = l)
    (st : Styles) {l : List (Segment A)} (hl : ∀ s ∈ l, Grid u s) (x : Pt) :
    Seen arc (optimize g (({} : Job).passes st) l) x ↔ Seen arc l x := by
  rw [job_passes]
  simp only [Bool.false_and, Bool.true_and, optimize, simplify]
  generalize (gather st).has .join = a
  generalize (gather st).has .empty = b
  generalize (gather st).has .noop = c
  simp only [onlyIf, if_true, if_false, Bool.false_eq_true, straight_grid hl, ha l hl]
  have s1 : Same arc u l (if c = true then removeNoop g l else l) := by
    split
    · exact removeNoop_grid hu ht h hl
    · exact .refl hl
  generalize (if c = true then removeNoop g l else l) = m at *
  have s2 : Same arc u m (if a = true then joinNodes g m else m) := by
    split
    · exact joinNodes_same h' s1.grid
    · exact .refl s1.grid
  generalize (if a = true then joinNodes g m else m) = n at *
  rw [← s1.seen, ← s2.seen]
  split
  · exact removeEmpty_seen x s2.grid
  · exact Iff.rfl

/-! ## Examples -/

/-- Lines are joined by the default tolerance, and nothing else happens to a square with a point too many. -/
def exampleGeo : Geo Unit where
  tol := 1 / 1000
  small := fun _ => false
  straight := fun _ => false
  connected := fun _ _ => false
  joinArcs := fun _ _ _ => .one ()
  ratio := fun _ _ _ _ _ _ _ => 1 / 2
  arcCurves := id

/-- No styles at all. -/
def plain : Styles := ⟨.absent, .absent, .absent, .absent, .absent, .absent, .absent, .absent⟩

/-- A square with a point more than it needs, one twice, and an empty segment after it. -/
def square : List (Segment Unit) :=
  [⟨⟨0, 0⟩, [.lineTo ⟨1, 0⟩, .lineTo ⟨2, 0⟩, .lineTo ⟨2, 0⟩, .lineTo ⟨2, 2⟩, .lineTo ⟨0, 2⟩, .lineTo ⟨0, 0⟩], true⟩,
   ⟨⟨5, 5⟩, [], true⟩]

example : optimize exampleGeo (({} : Job).passes plain) square =
    [⟨⟨0, 0⟩, [.lineTo ⟨2, 0⟩, .lineTo ⟨2, 2⟩, .lineTo ⟨0, 2⟩, .lineTo ⟨0, 0⟩], true⟩] := by decide +kernel

example : ∀ s ∈ square, Grid 1 s := by
  have p (i j : Int) : OnGrid 1 ⟨i, j⟩ := ⟨i, j, by simp only [Rat.mul_one]⟩
  intro s hs
  simp only [square, List.mem_cons, List.not_mem_nil, or_false] at hs
  rcases hs with rfl | rfl
  · refine ⟨p 0 0, fun d hd => ?_⟩
    simp only [List.mem_cons, List.not_mem_nil, or_false] at hd
    rcases hd with rfl | rfl | rfl | rfl | rfl | rfl
    · exact ⟨_, rfl, p 1 0⟩
    · exact ⟨_, rfl, p 2 0⟩
    · exact ⟨_, rfl, p 2 0⟩
    · exact ⟨_, rfl, p 2 2⟩
    · exact ⟨_, rfl, p 0 2⟩
    · exact ⟨_, rfl, p 0 0⟩
  · exact ⟨p 5 5, fun d hd => absurd hd (by simp)⟩

/-- The closing line goes if that is asked for. -/
example : optimize exampleGeo (({ removeCloseLine := true } : Job).passes plain) square =
    [⟨⟨0, 0⟩, [.lineTo ⟨2, 0⟩, .lineTo ⟨2, 2⟩, .lineTo ⟨0, 2⟩], true⟩] := by decide +kernel

/-- With a stroke it does not. -/
example : (({ removeCloseLine := true } : Job).passes { plain with stroke := .known (.defined .some) .static }) =
    ⟨false, true, true, true, false, true, true⟩ := by decide +kernel

/-- With markers hardly anything is left. -/
example : (({} : Job).passes { plain with marker := .unparsed }) =
    ⟨false, false, false, true, false, true, true⟩ := by decide +kernel

/-- A curve that is nearly a line, and tame. -/
example : isStraight exampleGeo ⟨0, 0⟩ ⟨1, 1 / 2000⟩ ⟨2, 0⟩ ⟨3, 0⟩ = true ∧
    Tame exampleGeo.tol ⟨0, 0⟩ ⟨1, 1 / 2000⟩ ⟨2, 0⟩ ⟨3, 0⟩ := by
  refine ⟨by decide +kernel, ?_⟩
  unfold Tame
  rw [if_neg (by decide +kernel)]
  decide +kernel

/-- Two halves of a curve are joined. -/
example : joinData exampleGeo ⟨0, 0⟩ [.curveTo ⟨0, 1⟩ ⟨1, 3 / 2⟩ ⟨2, 3 / 2⟩, .curveTo ⟨3, 3 / 2⟩ ⟨4, 1⟩ ⟨4, 0⟩] =
    [.curveTo ⟨0, 2⟩ ⟨4, 2⟩ ⟨4, 0⟩] := by decide +kernel

/-- The corner of a large square is cut off. -/
example : joinData exampleGeo ⟨0, 0⟩ (.lineTo ⟨1, 0⟩ :: climb Unit 1 (1 / 2000) 100 0) =
    [.lineTo ⟨1, 1 / 20⟩] := by decide +kernel

end Verif.Simplify
