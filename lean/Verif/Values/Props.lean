import Verif.Values.Lemmas

/-!
# C49: rounding the numbers of attributes
-/

namespace Verif.Values

open Verif.Transform

noncomputable section

theorem run_ok {c : Config} {list : Bool} {doc out : List Elem} (h : run c list doc = .ok out) :
    out = doc.map (element c list) := by
  unfold run at h
  split at h
  · exact nomatch h
  · exact (Except.ok.inj h).symm

/-- **C49 (the jobs fail for a precision above 5, and for nothing else).** -/
theorem fails_iff (c : Config) (doc : List Elem) :
    ((∃ e, cleanupNumericValues c doc = .error e) ↔ 5 < c.floatPrecision) ∧
    ((∃ e, cleanupListOfValues c doc = .error e) ↔ 5 < c.floatPrecision) := by
  constructor <;>
  · simp only [cleanupNumericValues, cleanupListOfValues, run]
    split <;> simp_all

theorem same_element (c : Config) (list : Bool) (e : Elem) :
    List.Forall₂ (sameAttr (half c.floatPrecision) c.convertToPx) e (element c list e) := by
  induction e with
  | nil => exact .nil
  | cons a e ih =>
    exact .cons ⟨rfl, (near_round c.floatPrecision c.convertToPx list a.2).1,
      (near_round c.floatPrecision c.convertToPx list a.2).2⟩ ih

theorem same_run (c : Config) (list : Bool) (doc : List Elem) :
    sameDoc (half c.floatPrecision) c.convertToPx doc (doc.map (element c list)) := by
  induction doc with
  | nil => exact .nil
  | cons e doc ih => exact .cons (same_element c list e) ih

/-- **C49 (rounding moves no number by more than half a unit of the last decimal kept).** Elements, attributes, the
kinds of the values, the number of items of lists are the same before and after either job. A plain number changes by at
most half a unit of the last decimal, a percentage by as much of what is written, a length by as much in its own unit
or, if lengths are converted, in pixels. -/
theorem numbers_near (c : Config) (doc out : List Elem)
    (h : cleanupNumericValues c doc = .ok out ∨ cleanupListOfValues c doc = .ok out) :
    sameDoc (1 / 2 / 10 ^ c.floatPrecision) c.convertToPx doc out := by
  rcases h with h | h <;>
  · rw [run_ok h]
    exact same_run ..

theorem element_same (c : Config) (list : Bool) (e : Elem) : element c list (element c list e) = element c list e := by
  simp [element, Function.comp_def, round_same]

theorem element_swap (c : Config) (e : Elem) :
    element c true (element c false e) = element c false (element c true e) := by
  simp [element, Function.comp_def, round_swap]

/-- **C49 (a second run changes nothing).** -/
theorem second_run (c : Config) (doc out : List Elem) :
    (cleanupNumericValues c doc = .ok out → cleanupNumericValues c out = .ok out) ∧
    (cleanupListOfValues c doc = .ok out → cleanupListOfValues c out = .ok out) := by
  constructor <;> intro h
  all_goals
    have e := run_ok h
    have hp : ¬ 5 < c.floatPrecision := by
      intro hp
      simp only [cleanupNumericValues, cleanupListOfValues, run] at h
      rw [if_pos hp] at h
      exact nomatch h
    simp only [cleanupNumericValues, cleanupListOfValues, run]
    rw [if_neg hp, e]
    simp [element_same]

/-- **C49 (the order of the two jobs does not matter, if they have the same options).** -/
theorem either_order (c : Config) (doc : List Elem) :
    (cleanupNumericValues c doc >>= cleanupListOfValues c) = (cleanupListOfValues c doc >>= cleanupNumericValues c) := by
  by_cases hp : 5 < c.floatPrecision <;>
  simp [cleanupNumericValues, cleanupListOfValues, run, hp, bind, Except.bind, element_swap]

/-- **C49 (single values are rounded by both jobs).** A number, percentage or length that is the whole of an attribute,
or one of up to four numbers of it, has the decimals asked for afterwards, and no absolute unit but pixels. -/
theorem single_tidy (c : Config) (list : Bool) (doc out : List Elem) (h : run c list doc = .ok out)
    (i j : ℕ) (e : Elem) (a : Attr) (he : doc[i]? = some e) (ha : e[j]? = some a) (s : Single a.2) :
    ∃ e' a', out[i]? = some e' ∧ e'[j]? = some a' ∧ a'.1 = a.1 ∧
      ∀ n ∈ numbers a'.2, tidy c.floatPrecision c.convertToPx n := by
  rw [run_ok h]
  refine ⟨element c list e, (a.1, round c.floatPrecision c.convertToPx list a.2), by simp [he], ?_, rfl, ?_⟩
  · simp [element, ha]
  · rw [round_eq _ _ _ _ (single_points s), value_single _ _ _ s]
    exact tidy_one _ _ s

theorem wraps_points {v w : Content} (h : Wraps v w) (s : ∀ cs, w ≠ .points cs) : ∀ cs, v ≠ .points cs := by
  cases h
  · exact s
  · exact fun cs e => nomatch e

theorem wraps_numbers {p : ℕ} {px : Bool} {v w : Content} (h : Wraps v w) :
    numbers (valueTo p px false v) = numbers (valueTo p px false w) := by
  induction h with
  | base => rfl
  | step v w _ ih => simpa [valueTo, numbers] using ih

/-- **C49 (a presentation attribute is rounded by `cleanupNumericValues`).** -/
theorem presentation_tidy (c : Config) (doc out : List Elem) (h : cleanupNumericValues c doc = .ok out)
    (i j : ℕ) (e : Elem) (a : Attr) (he : doc[i]? = some e) (ha : e[j]? = some a) (v : Content)
    (w : Wraps a.2 v) (s : Single v) :
    ∃ e' a', out[i]? = some e' ∧ e'[j]? = some a' ∧ a'.1 = a.1 ∧
      ∀ n ∈ numbers a'.2, tidy c.floatPrecision c.convertToPx n := by
  rw [run_ok h]
  refine ⟨element c false e, (a.1, round c.floatPrecision c.convertToPx false a.2), by simp [he], ?_, rfl, ?_⟩
  · simp [element, ha]
  · rw [round_eq _ _ _ _ (wraps_points w (single_points s)), wraps_numbers w, value_single _ _ _ s]
    exact tidy_one _ _ s

/-- **C49 (a list is rounded by `cleanupListOfValues`).** The items of a list, the points of a polygon. -/
theorem list_tidy (c : Config) (doc out : List Elem) (h : cleanupListOfValues c doc = .ok out)
    (i j : ℕ) (e : Elem) (a : Attr) (he : doc[i]? = some e) (ha : e[j]? = some a)
    (s : (∃ vs, a.2 = .listOf vs ∧ ∀ v ∈ vs, Single v) ∨ ∃ cs, a.2 = .points cs) :
    ∃ e' a', out[i]? = some e' ∧ e'[j]? = some a' ∧ a'.1 = a.1 ∧
      ∀ n ∈ numbers a'.2, tidy c.floatPrecision c.convertToPx n := by
  rw [run_ok h]
  refine ⟨element c true e, (a.1, round c.floatPrecision c.convertToPx true a.2), by simp [he], ?_, rfl, ?_⟩
  · simp [element, ha]
  · rcases s with ⟨vs, e, s⟩ | ⟨cs, e⟩
    · simp only [e]
      rw [round_eq _ _ _ _ (by simp)]
      simp only [valueTo, if_true, numbers, numbersAll_eq, List.mem_flatMap, List.mem_map]
      rintro n ⟨_, ⟨v, hv, rfl⟩, hn⟩
      exact tidy_one _ _ (s v hv) n hn
    · simp only [e, round_points, numbers, List.mem_map, List.mem_flatten]
      rintro n ⟨x, ⟨_, ⟨c, _, rfl⟩, hx⟩, rfl⟩
      obtain ⟨y, _, rfl⟩ := List.mem_map.1 hx
      exact tidy_num _ _ y

/-- **C49 (violated: dashes and some other values are rounded by no job).** The dashes of `stroke-dasharray` and the
numbers of `enable-background`, which the code has branches for, are behind the kind of presentation attributes, which
the job for lists does not look into; the control points of `keySplines` are items of a list. Lengths of `rx`, `ry`,
`refX`, `refY`, `markerWidth` and `markerHeight` are not visited. None of these is changed by either job, whatever the
options. -/
theorem skipped_violated (c : Config) (list : Bool) (name : String) (v : Content)
    (h : (∃ ds, v = .inheritable (.strokeDasharray ds)) ∨ (∃ x y w h, v = .inheritable (.enableBackground x y w h)) ∨
      (∃ cs : List (List ℝ), v = .listOf (cs.map .controlPoint)) ∨ (∃ l, v = .radius (.dim l)) ∨ (∃ l, v = .refX (.length l)) ∨
      (∃ l, v = .refY (.length l)) ∨ ∃ l, v = .lengthOrNumber (.length l)) :
    element c list [(name, v)] = [(name, v)] := by
  have hp : ∀ cs, v ≠ .points cs := by
    rcases h with ⟨_, rfl⟩ | ⟨_, _, _, _, rfl⟩ | ⟨_, rfl⟩ | ⟨_, rfl⟩ | ⟨_, rfl⟩ | ⟨_, rfl⟩ | ⟨_, rfl⟩ <;>
      exact fun cs e => nomatch e
  simp only [element, List.map_cons, List.map_nil]
  rw [round_eq _ _ _ _ hp]
  rcases h with ⟨_, rfl⟩ | ⟨_, _, _, _, rfl⟩ | ⟨_, rfl⟩ | ⟨_, rfl⟩ | ⟨_, rfl⟩ | ⟨_, rfl⟩ | ⟨_, rfl⟩ <;>
    cases list <;> simp [valueTo, oneTo, lengthsOne, floatsOne, Function.comp_def]

theorem roundAway_of {x : ℝ} (z : ℤ) (h : |x - z| < 1 / 2) : roundAway x = z := by
  obtain ⟨m, hm⟩ := roundAway_exists x
  have hn := roundAway_near x
  rw [hm] at hn ⊢
  have : |((m - z : ℤ) : ℝ)| < 1 := by
    push_cast
    calc |(m : ℝ) - z| = |((m : ℝ) - x) + (x - z)| := by ring_nf
      _ ≤ |(m : ℝ) - x| + |x - z| := abs_add_le _ _
      _ < 1 := by linarith
  have h1 : |m - z| < 1 := by exact_mod_cast this
  have : m - z = 0 := Int.abs_lt_one_iff.1 h1
  exact_mod_cast (by omega : m = z)

/-- **C49 (violated: `cleanupListOfValues` rounds values that are not lists).** Asked to round lists to whole numbers,
it makes a width of `0.4` into 0, and does so for any width below a half; the comment on `follow_list` says that single
values are not visited. -/
theorem lists_only_violated (c : Config) (w : ℝ) (h0 : |w| < 1 / 2) (hc : c.floatPrecision = 0) :
    cleanupListOfValues c [[("width", .length (.length ⟨.px, w⟩))]] =
      .ok [[("width", .length (.length ⟨.px, 0⟩))]] := by
  have e : roundFloat 0 w = 0 := by
    rw [roundFloat, roundAway_of (x := w * 10 ^ 0) 0 (by simpa using h0)]; simp
  have : round 0 c.convertToPx true (.length (.length ⟨.px, w⟩)) = .length (.length ⟨.px, 0⟩) := by
    rw [round_eq _ _ _ _ (by simp)]
    cases c.convertToPx <;> simp [valueTo, oneTo, lengthsOne, floatsOne, lenTo, visitNum, convert, Len.toPx, e]
  simp [cleanupListOfValues, run, hc, element, this]

/-- **C49 (violated: with two precisions a number may move further than either allows).** The two jobs with 3 and with
2 decimals make `0.0446` into `0.045` and that into `0.05`, which is more than half of a hundredth away. -/
theorem twice_violated (c d : Config) (hc : c.floatPrecision = 3) (hd : d.floatPrecision = 2) :
    (cleanupListOfValues c [[("offset", .number 0.0446)]] >>= cleanupNumericValues d) =
      .ok [[("offset", .number 0.05)]] ∧ half 2 < |(0.05 : ℝ) - 0.0446| := by
  constructor
  · have h1 : round 3 c.convertToPx true (.number 0.0446) = .number 0.045 := by
      rw [round_eq _ _ _ _ (by simp)]
      have : roundFloat 3 0.0446 = 0.045 := by
        rw [roundFloat, roundAway_of 45 (by norm_num [abs_lt])]; norm_num
      simp [valueTo, oneTo, lengthsOne, floatsOne, this]
    have h2 : round 2 d.convertToPx false (.number 0.045) = .number 0.05 := by
      rw [round_eq _ _ _ _ (by simp)]
      have : roundFloat 2 0.045 = 0.05 := by
        have e : (0.045 : ℝ) * 10 ^ 2 = 4.5 := by norm_num
        rw [roundFloat, e, roundAway, if_pos (by norm_num)]
        norm_num
      simp [valueTo, oneTo, lengthsOne, floatsOne, this]
    simp [cleanupListOfValues, cleanupNumericValues, run, hc, hd, element, h1, h2, bind, Except.bind]
  · norm_num [half, abs_of_pos]

/-- **C49 (violated: what is small is gone).** Any `viewBox` with a width and height below half a unit of the last
decimal becomes one of no size, which disables the rendering of the element; the precision is the same for every
document, whatever the scale it is drawn in. -/
theorem small_violated (c : Config) (list : Bool) (w h : ℝ) (hw : |w| < half c.floatPrecision)
    (hh : |h| < half c.floatPrecision) :
    element c list [("viewBox", .viewBox 0 0 w h)] = [("viewBox", .viewBox 0 0 0 0)] := by
  have zero : ∀ x : ℝ, |x| < half c.floatPrecision → roundFloat c.floatPrecision x = 0 := by
    intro x hx
    have hp := pow_pos' c.floatPrecision
    rw [roundFloat, roundAway_of 0]
    · simp
    · rw [Int.cast_zero, sub_zero, abs_mul, abs_of_pos hp]
      rw [half] at hx
      exact (lt_div_iff₀ hp).1 hx
  have z0 := zero 0 (by simpa using lt_of_le_of_lt (abs_nonneg w) hw)
  simp only [element, List.map_cons, List.map_nil]
  rw [round_eq _ _ _ _ (by simp)]
  simp [valueTo, oneTo, lengthsOne, floatsOne, zero w hw, zero h hh, z0]

/-- **C49 (violated: the option to remove `px` does nothing).** -/
theorem default_px_violated (p : ℕ) (px list : Bool) (doc : List Elem) :
    run ⟨p, true, px⟩ list doc = run ⟨p, false, px⟩ list doc := rfl

theorem roundAway_mono {x y : ℝ} (h : x ≤ y) : roundAway x ≤ roundAway y := by
  unfold roundAway
  split <;> split
  · exact_mod_cast Int.floor_mono (by linarith)
  · exfalso; linarith
  · have h1 : 0 ≤ ⌊-x + 1 / 2⌋ := Int.floor_nonneg.2 (by linarith)
    have h2 : 0 ≤ ⌊y + 1 / 2⌋ := Int.floor_nonneg.2 (by linarith)
    exact_mod_cast (by omega : -⌊-x + 1 / 2⌋ ≤ ⌊y + 1 / 2⌋)
  · have := Int.floor_mono (by linarith : -y + 1 / 2 ≤ -x + 1 / 2)
    exact_mod_cast (by omega : -⌊-x + 1 / 2⌋ ≤ -⌊-y + 1 / 2⌋)

theorem round_mono (p : ℕ) {x y : ℝ} (h : x ≤ y) : roundFloat p x ≤ roundFloat p y :=
  div_le_div_of_nonneg_right (roundAway_mono (mul_le_mul_of_nonneg_right h (pow_pos' p).le)) (pow_pos' p).le

/-- **C49 (an ordered list stays ordered).** The times of `keyTimes` do not decrease after rounding if they did not
before, which is what makes them valid; and an opacity between 0 and 1 stays there. -/
theorem order_kept (c : Config) (ts : List ℝ) (o : ℝ) (h : ts.Pairwise (· ≤ ·)) (h0 : 0 ≤ o) (h1 : o ≤ 1)
    (list : Bool) :
    ∃ (us : List ℝ) (o' : ℝ), element c list [("keyTimes", .listOf (ts.map .number)), ("opacity", .opacity o)] =
        [("keyTimes", .listOf (us.map .number)), ("opacity", .opacity o')] ∧
      us.length = ts.length ∧ us.Pairwise (· ≤ ·) ∧ 0 ≤ o' ∧ o' ≤ 1 := by
  have k0 : roundFloat c.floatPrecision 0 = 0 := round_decimals ⟨0, by simp⟩
  have k1 : roundFloat c.floatPrecision 1 = 1 :=
    round_decimals ⟨10 ^ c.floatPrecision, by push_cast; rw [div_self (pow_pos' _).ne']⟩
  refine ⟨if list then ts.map (roundFloat c.floatPrecision) else ts, roundFloat c.floatPrecision o, ?_, ?_, ?_,
    k0 ▸ round_mono _ h0, k1 ▸ round_mono _ h1⟩
  · simp only [element, List.map_cons, List.map_nil]
    rw [round_eq _ _ _ _ (by simp), round_eq _ _ _ _ (by simp)]
    cases list
    · rfl
    · simp only [valueTo, if_true, List.map_map]
      rfl
  · cases list <;> simp
  · cases list
    · exact h
    · simp only [if_true]
      rw [List.pairwise_map]
      exact h.imp fun h => round_mono _ h

/-! ## Examples -/

/-- `width="1in"` becomes 96 pixels. -/
example : cleanupNumericValues ⟨3, true, true⟩ [[("width", .length (.length ⟨.inch, 1⟩))]] =
    .ok [[("width", .length (.length ⟨.px, 96⟩))]] := by
  have e : roundFloat 3 96 = 96 := round_decimals ⟨96000, by norm_num⟩
  have : round 3 true false (.length (.length ⟨.inch, 1⟩)) = .length (.length ⟨.px, 96⟩) := by
    rw [round_eq _ _ _ _ (by simp)]
    simp [valueTo, oneTo, lengthsOne, floatsOne, lenTo, visitNum, convert, Len.toPx, e]
  simp [cleanupNumericValues, run, element, this]

example : near (half 3) true (.len .inch 1) (.len .px 96.0004) := by
  right
  refine ⟨rfl, rfl, 1, rfl, ?_⟩
  norm_num [half, abs_le]

example : ¬ near (half 3) true (.len .inch 1) (.len .px 96.001) := by
  rintro (⟨h, _⟩ | ⟨_, _, k, hk, h⟩)
  · exact nomatch h
  · have : k = 1 := (Option.some.inj hk).symm
    subst this
    have e : |(96.001 : ℝ) * (1 / 96) - 1 * 1| = 0.001 / 96 := by rw [abs_of_pos] <;> norm_num
    rw [e] at h
    norm_num [half] at h

example : ∃ e, cleanupListOfValues ⟨6, true, true⟩ [] = .error e := ⟨6, rfl⟩

example : Single (.viewBox 0 0 100 100) := .viewBox ..

example : Wraps (.inheritable (.lengthPercentage (.dim ⟨.px, 1.2345⟩))) (.lengthPercentage (.dim ⟨.px, 1.2345⟩)) :=
  .step _ _ (.base _)

example (c : Config) : element c true [("stroke-dasharray", .inheritable (.strokeDasharray [.dim ⟨.px, 0.123456⟩]))] =
    [("stroke-dasharray", .inheritable (.strokeDasharray [.dim ⟨.px, 0.123456⟩]))] :=
  skipped_violated c true _ _ (.inl ⟨_, rfl⟩)

example : element ⟨3, true, true⟩ false [("viewBox", .viewBox 0 0 0.0004 0.0003)] =
    [("viewBox", .viewBox 0 0 0 0)] :=
  small_violated _ _ _ _ (by norm_num [half, abs_lt]) (by norm_num [half, abs_lt])

end

end Verif.Values
