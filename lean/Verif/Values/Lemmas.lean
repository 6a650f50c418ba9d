import Verif.Values.Spec
import Verif.Transform.Round

/-!
# The result of rounding, kind by kind
-/

namespace Verif.Values

open Verif.Transform

noncomputable section

theorem pow_pos' (p : ℕ) : (0 : ℝ) < 10 ^ p := by positivity

theorem decimals_round (p : ℕ) (n : ℝ) : decimals p (roundFloat p n) := by
  obtain ⟨z, h⟩ := roundAway_exists (n * 10 ^ p)
  exact ⟨z, by rw [roundFloat, h]⟩

theorem round_decimals {p : ℕ} {n : ℝ} (h : decimals p n) : roundFloat p n = n := by
  obtain ⟨z, rfl⟩ := h
  rw [roundFloat, div_mul_cancel₀ _ (pow_pos' p).ne', roundAway_int]

theorem round_round (p : ℕ) (n : ℝ) : roundFloat p (roundFloat p n) = roundFloat p n :=
  round_decimals (decimals_round p n)

theorem round_near (p : ℕ) (n : ℝ) : |roundFloat p n - n| ≤ half p := by
  have h := roundAway_near (n * 10 ^ p)
  have hp := pow_pos' p
  have e : roundFloat p n - n = (roundAway (n * 10 ^ p) - n * 10 ^ p) / 10 ^ p := by
    rw [roundFloat]; field_simp
  rw [e, abs_div, abs_of_pos hp, half]
  exact div_le_div_of_nonneg_right h hp.le

theorem half_nonneg (p : ℕ) : 0 ≤ half p := by unfold half; positivity

/-- What becomes of a length. -/
def lenTo (p : ℕ) (px : Bool) (l : Len) : Len := visitNum (roundFloat p) (if px then convert l else l)

theorem visitNum_visitNum (p : ℕ) (l : Len) :
    visitNum (roundFloat p) (visitNum (roundFloat p) l) = visitNum (roundFloat p) l := by
  simp [visitNum, round_round]

theorem convert_px (n : ℝ) : convert ⟨.px, n⟩ = ⟨.px, n⟩ := rfl

theorem convert_unit (l : Len) : (convert l).unit = .px ∨ inches (convert l).unit = none ∧ convert l = l := by
  obtain ⟨u, n⟩ := l
  cases u <;> simp [convert, Len.toPx, inches]

theorem convert_size (l : Len) : (convert l = l ∧ inches l.unit = none) ∨
    ((convert l).unit = .px ∧ ∃ k, inches l.unit = some k ∧ (convert l).n * (1 / 96) = l.n * k) := by
  obtain ⟨u, n⟩ := l
  cases u <;> simp [convert, Len.toPx, inches] <;> ring

theorem lenTo_lenTo (p : ℕ) (px : Bool) (l : Len) : lenTo p px (lenTo p px l) = lenTo p px l := by
  cases px
  · simp [lenTo, visitNum_visitNum]
  · simp only [lenTo, if_true]
    rcases convert_unit l with h | ⟨h, e⟩
    · have e : convert (visitNum (roundFloat p) (convert l)) = visitNum (roundFloat p) (convert l) := by
        simp only [visitNum, h, convert_px]
      rw [e, visitNum_visitNum]
    · have : convert (visitNum (roundFloat p) (convert l)) = visitNum (roundFloat p) (convert l) := by
        rw [e] at h ⊢
        obtain ⟨u, n⟩ := l
        cases u <;> simp_all [inches, visitNum, convert, Len.toPx]
      rw [this, visitNum_visitNum]

theorem near_len (p : ℕ) (px : Bool) (l : Len) :
    near (half p) px (.len l.unit l.n) (.len (lenTo p px l).unit (lenTo p px l).n) := by
  cases px
  · exact Or.inl ⟨rfl, round_near p l.n⟩
  · rcases convert_size l with ⟨e, h⟩ | ⟨h, k, hk, e⟩
    · left
      simp only [lenTo, if_true, e, visitNum]
      exact ⟨trivial, round_near p l.n⟩
    · right
      refine ⟨rfl, ?_, k, hk, ?_⟩
      · simpa [lenTo, visitNum] using h
      · rw [← e]
        simp only [lenTo, if_true, visitNum]
        rw [← sub_mul, abs_mul, abs_of_pos (by norm_num : (0 : ℝ) < 1 / 96)]
        exact mul_le_mul_of_nonneg_right (round_near p _) (by norm_num)

theorem tidy_len (p : ℕ) (px : Bool) (l : Len) : tidy p px (.len (lenTo p px l).unit (lenTo p px l).n) := by
  refine ⟨decimals_round p _, fun h => ?_⟩
  subst h
  rcases convert_unit l with h | ⟨h, _⟩
  · left; simpa [lenTo, visitNum] using h
  · right; simpa [lenTo, visitNum] using h

theorem near_num (p : ℕ) (px : Bool) (n : ℝ) : near (half p) px (.num n) (.num (roundFloat p n)) := round_near p n

theorem percent_eq (p : ℕ) (n : ℝ) : 100 * percent (roundFloat p) n = roundFloat p (n * 100) := by
  unfold percent; field_simp

theorem near_pct (p : ℕ) (px : Bool) (n : ℝ) : near (half p) px (.pct n) (.pct (percent (roundFloat p) n)) := by
  show |100 * percent (roundFloat p) n - 100 * n| ≤ half p
  rw [percent_eq, mul_comm 100 n]
  exact round_near p _

theorem tidy_pct (p : ℕ) (px : Bool) (n : ℝ) : tidy p px (.pct (percent (roundFloat p) n)) := by
  show decimals p (100 * percent (roundFloat p) n)
  rw [percent_eq]
  exact decimals_round p _

theorem percent_percent (p : ℕ) (n : ℝ) :
    percent (roundFloat p) (percent (roundFloat p) n) = percent (roundFloat p) n := by
  have : percent (roundFloat p) n * 100 = roundFloat p (n * 100) := by rw [mul_comm, percent_eq]
  conv_lhs => rw [percent, this, round_round]
  rfl

/-- What becomes of a value that is no list. -/
def oneTo (p : ℕ) (px : Bool) (v : Content) : Content :=
  floatsOne (roundFloat p) (lengthsOne (lenTo p px) v)

/-- What becomes of a dash. -/
def dashTo (p : ℕ) (px : Bool) : DP → DP
  | .dim l => .dim (lenTo p px l)
  | .pct n => .pct (percent (roundFloat p) n)
  | .calc k => .calc k

/-- What becomes of a value. -/
def valueTo (p : ℕ) (px list : Bool) : Content → Content
  | .enableBackground x y w h => if list then
      .enableBackground (roundFloat p x) (roundFloat p y) (roundFloat p w) (roundFloat p h)
    else .enableBackground x y w h
  | .strokeDasharray ds => if list then .strokeDasharray (ds.map (dashTo p px)) else .strokeDasharray ds
  | .controlPoint ns => if list then .controlPoint (ns.map (roundFloat p)) else .controlPoint ns
  | .listOf vs => if list then .listOf (vs.map (oneTo p px)) else .listOf vs
  | .inheritable v => if list then .inheritable v else .inheritable (valueTo p px list v)
  | v => oneTo p px v

/-- Values are wrapped as inherited ones, or they are not. -/
theorem wrap_ind {P : Content → Prop} (base : ∀ v, (∀ w, v ≠ .inheritable w) → P v)
    (step : ∀ v, P v → P (.inheritable v)) (v : Content) : P v := by
  cases v
  case inheritable v => exact step v (wrap_ind base step v)
  all_goals exact base _ (fun w h => nomatch h)
termination_by depth v
decreasing_by subst_vars; simp [depth]

theorem lengthsOne_comp (f g : Len → Len) (v : Content) :
    lengthsOne f (lengthsOne g v) = lengthsOne (fun l => f (g l)) v := by
  cases v with
  | kerning l => cases l <;> rfl
  | length l => cases l <;> rfl
  | lengthPercentage l => cases l <;> rfl
  | _ => rfl

theorem lengths_comp (f g : Len → Len) (list : Bool) (v : Content) :
    lengths f list (lengths g list v) = lengths (fun l => f (g l)) list v := by
  induction v using wrap_ind with
  | step v ih => cases list <;> simp [lengths, ih]
  | base v h =>
    cases v with
    | inheritable w => exact absurd rfl (h w)
    | kerning l => cases l <;> rfl
    | length l => cases l <;> rfl
    | lengthPercentage l => cases l <;> rfl
    | strokeDasharray ds =>
      cases list
      · rfl
      · simp only [lengths, if_true, List.map_map]
        congr 1
        apply List.map_congr_left
        intro d _
        cases d <;> rfl
    | listOf vs =>
      cases list
      · rfl
      · simp only [lengths, if_true, List.map_map]
        congr 1
        apply List.map_congr_left
        intro d _
        exact lengthsOne_comp f g d
    | _ => rfl

theorem lengths_twice (p : ℕ) (list : Bool) (v : Content) :
    lengths (visitNum (roundFloat p)) list (lengths (visitNum (roundFloat p)) list v) =
      lengths (visitNum (roundFloat p)) list v := by
  rw [lengths_comp]
  simp only [visitNum_visitNum]

theorem floats_base (f : ℝ → ℝ) (list : Bool) (v : Content) (h : ∀ w, v ≠ .inheritable w) :
    floats f list v = floatsRest f list (lengths (visitNum f) list v) := by
  rw [floats]
  exact fun w e => h w e

theorem floats_lengths (p : ℕ) (list : Bool) (v : Content) :
    floats (roundFloat p) list (lengths (visitNum (roundFloat p)) list v) = floats (roundFloat p) list v := by
  by_cases h : ∀ w, v ≠ .inheritable w
  · rw [floats_base _ _ _ h, floats_base, lengths_twice]
    intro w e
    have := congrArg depth e
    rw [depth_lengths] at this
    cases v
    case inheritable w => exact h w rfl
    all_goals simp [depth] at this
  · push Not at h
    obtain ⟨w, rfl⟩ := h
    cases list <;> simp [floats, lengths, lengths_twice]

/-- The two passes over the lengths come to one. -/
theorem round_eq (p : ℕ) (px list : Bool) (v : Content) (h : ∀ cs, v ≠ .points cs) :
    round p px list v = valueTo p px list v := by
  have e : round p px list v = floats (roundFloat p) list (if px then lengths convert list v else v) := by
    rw [round]
    exact fun cs e => h cs e
  rw [e]
  clear e h
  induction v using wrap_ind with
  | step v ih =>
    cases list
    · cases px
      · simp only [Bool.false_eq_true, if_false] at ih ⊢
        rw [floats, valueTo, ← ih, if_neg (by simp), if_neg (by simp), floats_lengths]
      · simp only [if_true] at ih ⊢
        rw [lengths, if_neg (by simp), floats, valueTo, ← ih, if_neg (by simp), if_neg (by simp), floats_lengths]
    · cases px <;> simp [floats, lengths, valueTo]
  | base v h =>
    have key : floats (roundFloat p) list (if px then lengths convert list v else v) =
        floatsRest (roundFloat p) list (lengths (lenTo p px) list v) := by
      cases px
      · simp only [Bool.false_eq_true, if_false]
        rw [floats_base _ _ _ h]
        rfl
      · simp only [if_true]
        rw [floats_base, lengths_comp]
        · rfl
        · intro w e
          have := congrArg depth e
          rw [depth_lengths] at this
          cases v
          case inheritable w => exact h w rfl
          all_goals simp [depth] at this
    rw [key]
    cases v with
    | inheritable w => exact absurd rfl (h w)
    | kerning l => cases l <;> rfl
    | length l => cases l <;> rfl
    | lengthPercentage l => cases l <;> rfl
    | strokeDasharray ds =>
      cases list
      · rfl
      · simp only [lengths, valueTo, floatsRest, if_true, List.map_map]
        congr 1
        apply List.map_congr_left
        intro d _
        cases d <;> rfl
    | listOf vs =>
      cases list
      · rfl
      · simp only [lengths, valueTo, floatsRest, if_true, List.map_map]
        congr 1
    | _ => rfl

theorem bareAll_eq (vs : List Content) : bareAll vs = vs.map bare := by
  induction vs with
  | nil => rfl
  | cons v vs ih => rw [bareAll, ih, List.map_cons]

theorem numbersAll_eq (vs : List Content) : numbersAll vs = vs.flatMap numbers := by
  induction vs with
  | nil => rfl
  | cons v vs ih => rw [numbersAll, ih, List.flatMap_cons]

theorem near_refl {ε : ℝ} (h : 0 ≤ ε) (px : Bool) (a : Q) : near ε px a a := by
  cases a <;> simp [near, h]

theorem same_near {ε : ℝ} (h : 0 ≤ ε) (px : Bool) (as : List Q) : List.Forall₂ (near ε px) as as :=
  List.forall₂_same.2 fun a _ => near_refl h px a

theorem near_one (p : ℕ) (px : Bool) (v : Content) :
    bare (oneTo p px v) = bare v ∧ List.Forall₂ (near (half p) px) (numbers v) (numbers (oneTo p px v)) := by
  have hh := half_nonneg p
  cases v with
  | kerning l =>
    cases l
    · exact ⟨rfl, .cons (near_num ..) .nil⟩
    · exact ⟨rfl, .cons (near_len ..) .nil⟩
    · exact ⟨rfl, .cons (near_pct ..) .nil⟩
  | length l =>
    cases l
    · exact ⟨rfl, .cons (near_num ..) .nil⟩
    · exact ⟨rfl, .cons (near_len ..) .nil⟩
    · exact ⟨rfl, .cons (near_pct ..) .nil⟩
  | lengthPercentage l =>
    cases l
    · exact ⟨rfl, .cons (near_len ..) .nil⟩
    · exact ⟨rfl, .cons (near_pct ..) .nil⟩
    · exact ⟨rfl, .nil⟩
  | radius l =>
    cases l
    · exact ⟨rfl, same_near hh ..⟩
    · exact ⟨rfl, .cons (near_pct ..) .nil⟩
    · exact ⟨rfl, .nil⟩
  | numberPercentage l =>
    cases l
    · exact ⟨rfl, .cons (near_num ..) .nil⟩
    · exact ⟨rfl, .cons (near_pct ..) .nil⟩
  | lengthOrNumber l =>
    cases l
    · exact ⟨rfl, .cons (near_num ..) .nil⟩
    · exact ⟨rfl, same_near hh ..⟩
  | refX l =>
    cases l
    · exact ⟨rfl, .cons (near_num ..) .nil⟩
    · exact ⟨rfl, same_near hh ..⟩
  | refY l =>
    cases l
    · exact ⟨rfl, .cons (near_num ..) .nil⟩
    · exact ⟨rfl, same_near hh ..⟩
  | numberOptionalNumber n m =>
    cases m
    · exact ⟨rfl, .cons (near_num ..) .nil⟩
    · exact ⟨rfl, .cons (near_num ..) (.cons (near_num ..) .nil)⟩
  | viewBox x y w h =>
    exact ⟨rfl, .cons (near_num ..) (.cons (near_num ..) (.cons (near_num ..) (.cons (near_num ..) .nil)))⟩
  | percentage n => exact ⟨rfl, .cons (near_pct ..) .nil⟩
  | spacing l => exact ⟨rfl, .cons (near_len ..) .nil⟩
  | angle u n => exact ⟨rfl, .cons (near_num ..) .nil⟩
  | frequency u n => exact ⟨rfl, .cons (near_num ..) .nil⟩
  | opacity n => exact ⟨rfl, .cons (near_num ..) .nil⟩
  | repeatCount n => exact ⟨rfl, .cons (near_num ..) .nil⟩
  | rotate n => exact ⟨rfl, .cons (near_num ..) .nil⟩
  | number n => exact ⟨rfl, .cons (near_num ..) .nil⟩
  | _ => exact ⟨rfl, same_near hh ..⟩

theorem near_nums (p : ℕ) (px : Bool) (ns : List ℝ) :
    List.Forall₂ (near (half p) px) (ns.map .num) ((ns.map (roundFloat p)).map .num) := by
  induction ns with
  | nil => exact .nil
  | cons n ns ih => exact .cons (near_num ..) ih

theorem near_flatMap {α : Type} {R : Q → Q → Prop} {f : α → List Q} (g : α → α) (l : List α)
    (h : ∀ a, List.Forall₂ R (f a) (f (g a))) : List.Forall₂ R (l.flatMap f) ((l.map g).flatMap f) := by
  induction l with
  | nil => exact .nil
  | cons a l ih => exact List.rel_append (h a) ih

theorem near_value (p : ℕ) (px list : Bool) (v : Content) :
    bare (valueTo p px list v) = bare v ∧
      List.Forall₂ (near (half p) px) (numbers v) (numbers (valueTo p px list v)) := by
  have hh := half_nonneg p
  induction v using wrap_ind with
  | step v ih =>
    cases list
    · simpa [valueTo, bare, numbers] using ih
    · exact ⟨rfl, same_near hh ..⟩
  | base v h =>
    cases v with
    | inheritable w => exact absurd rfl (h w)
    | enableBackground x y w h =>
      cases list
      · exact ⟨rfl, same_near hh ..⟩
      · exact ⟨rfl, .cons (near_num ..) (.cons (near_num ..) (.cons (near_num ..) (.cons (near_num ..) .nil)))⟩
    | strokeDasharray ds =>
      cases list
      · exact ⟨rfl, same_near hh ..⟩
      · constructor
        · simp only [valueTo, if_true, bare, List.map_map]
          congr 1
          apply List.map_congr_left
          intro d _
          cases d <;> rfl
        · apply near_flatMap
          intro d
          cases d
          · exact .cons (near_len ..) .nil
          · exact .cons (near_pct ..) .nil
          · exact .nil
    | controlPoint ns =>
      cases list
      · exact ⟨rfl, same_near hh ..⟩
      · constructor
        · simp [valueTo, bare, Function.comp_def]
        · exact near_nums p px ns
    | listOf vs =>
      cases list
      · exact ⟨rfl, same_near hh ..⟩
      · constructor
        · simp only [valueTo, if_true, bare, bareAll_eq, List.map_map]
          congr 1
          apply List.map_congr_left
          intro v _
          exact (near_one p px v).1
        · simp only [valueTo, if_true, numbers, numbersAll_eq]
          exact near_flatMap _ _ fun v => (near_one p px v).2
    | _ => exact near_one p px _

theorem round_points (p : ℕ) (px list : Bool) (cs : List (List ℝ)) :
    round p px list (.points cs) = .points (cs.map fun c => c.map (roundFloat p)) := rfl

theorem near_round (p : ℕ) (px list : Bool) (v : Content) :
    bare (round p px list v) = bare v ∧
      List.Forall₂ (near (half p) px) (numbers v) (numbers (round p px list v)) := by
  by_cases h : ∀ cs, v ≠ .points cs
  · rw [round_eq p px list v h]; exact near_value p px list v
  · push Not at h
    obtain ⟨cs, rfl⟩ := h
    rw [round_points]
    constructor
    · simp [bare]
    · show List.Forall₂ _ (cs.flatten.map _) ((cs.map fun c => c.map (roundFloat p)).flatten.map _)
      rw [← List.map_flatten]
      exact near_nums p px _

theorem one_one (p : ℕ) (px : Bool) (v : Content) : oneTo p px (oneTo p px v) = oneTo p px v := by
  cases v with
  | kerning l => cases l <;> simp [oneTo, lengthsOne, floatsOne, round_round, lenTo_lenTo, percent_percent]
  | length l => cases l <;> simp [oneTo, lengthsOne, floatsOne, round_round, lenTo_lenTo, percent_percent]
  | lengthPercentage l => cases l <;> simp [oneTo, lengthsOne, floatsOne, lenTo_lenTo, percent_percent]
  | radius l => cases l <;> simp [oneTo, lengthsOne, floatsOne, percent_percent]
  | numberPercentage l => cases l <;> simp [oneTo, lengthsOne, floatsOne, round_round, percent_percent]
  | lengthOrNumber l => cases l <;> simp [oneTo, lengthsOne, floatsOne, round_round]
  | refX l => cases l <;> simp [oneTo, lengthsOne, floatsOne, round_round]
  | refY l => cases l <;> simp [oneTo, lengthsOne, floatsOne, round_round]
  | numberOptionalNumber n m => cases m <;> simp [oneTo, lengthsOne, floatsOne, round_round]
  | _ => simp [oneTo, lengthsOne, floatsOne, round_round, lenTo_lenTo, percent_percent]

theorem dash_dash (p : ℕ) (px : Bool) (d : DP) : dashTo p px (dashTo p px d) = dashTo p px d := by
  cases d <;> simp [dashTo, lenTo_lenTo, percent_percent]

theorem value_same (p : ℕ) (px a : Bool) (v : Content) :
    valueTo p px a (valueTo p px a v) = valueTo p px a v := by
  induction v using wrap_ind with
  | step v ih => cases a <;> simp [valueTo, ih]
  | base v h =>
    cases v with
    | inheritable w => exact absurd rfl (h w)
    | enableBackground x y w h => cases a <;> simp [valueTo, round_round]
    | strokeDasharray ds => cases a <;> simp [valueTo, dash_dash]
    | controlPoint ns => cases a <;> simp [valueTo, round_round]
    | listOf vs => cases a <;> simp [valueTo, one_one]
    | kerning l => cases l <;> exact one_one p px _
    | length l => cases l <;> exact one_one p px _
    | lengthPercentage l => cases l <;> exact one_one p px _
    | radius l => cases l <;> exact one_one p px _
    | numberPercentage l => cases l <;> exact one_one p px _
    | lengthOrNumber l => cases l <;> exact one_one p px _
    | refX l => cases l <;> exact one_one p px _
    | refY l => cases l <;> exact one_one p px _
    | numberOptionalNumber n m => cases m <;> exact one_one p px _
    | _ => exact one_one p px _

theorem value_swap (p : ℕ) (px : Bool) (v : Content) :
    valueTo p px true (valueTo p px false v) = valueTo p px false (valueTo p px true v) := by
  cases v with
  | inheritable w => simp [valueTo]
  | kerning l => cases l <;> rfl
  | length l => cases l <;> rfl
  | lengthPercentage l => cases l <;> rfl
  | radius l => cases l <;> rfl
  | numberPercentage l => cases l <;> rfl
  | lengthOrNumber l => cases l <;> rfl
  | refX l => cases l <;> rfl
  | refY l => cases l <;> rfl
  | numberOptionalNumber n m => cases m <;> rfl
  | _ => rfl

theorem value_points (p : ℕ) (px a : Bool) {v : Content} (h : ∀ cs, v ≠ .points cs) :
    ∀ cs, valueTo p px a v ≠ .points cs := by
  intro cs e
  have := (near_value p px a v).1
  rw [e] at this
  cases v
  case points cs => exact h cs rfl
  all_goals simp [bare] at this

theorem round_same (p : ℕ) (px a : Bool) (v : Content) : round p px a (round p px a v) = round p px a v := by
  by_cases h : ∀ cs, v ≠ .points cs
  · rw [round_eq p px a v h, round_eq p px a _ (value_points p px a h), value_same]
  · push Not at h
    obtain ⟨cs, rfl⟩ := h
    simp [round_points, Function.comp_def, round_round]

theorem round_swap (p : ℕ) (px : Bool) (v : Content) :
    round p px true (round p px false v) = round p px false (round p px true v) := by
  by_cases h : ∀ cs, v ≠ .points cs
  · rw [round_eq p px true v h, round_eq p px false v h, round_eq _ _ _ _ (value_points p px _ h),
      round_eq _ _ _ _ (value_points p px _ h), value_swap]
  · push Not at h
    obtain ⟨cs, rfl⟩ := h
    simp [round_points]

theorem tidy_num (p : ℕ) (px : Bool) (n : ℝ) : tidy p px (.num (roundFloat p n)) := decimals_round p n

theorem tidy_one (p : ℕ) (px : Bool) {v : Content} (h : Single v) :
    ∀ a ∈ numbers (oneTo p px v), tidy p px a := by
  have one : ∀ {a b : Q}, tidy p px b → a ∈ [b] → tidy p px a := fun h m => by
    rw [List.mem_singleton] at m; exact m ▸ h
  have four : ∀ {x y w h : ℝ} {a : Q}, a ∈ [Q.num (roundFloat p x), .num (roundFloat p y), .num (roundFloat p w),
      .num (roundFloat p h)] → tidy p px a := fun m => by
    simp only [List.mem_cons, List.not_mem_nil, or_false] at m
    rcases m with rfl | rfl | rfl | rfl <;> exact decimals_round p _
  intro a m
  cases h with
  | spacing l => exact one (tidy_len p px l) m
  | kerning l =>
    cases l
    · exact one (tidy_num p px _) m
    · exact one (tidy_len p px _) m
    · exact one (tidy_pct p px _) m
  | length l =>
    cases l
    · exact one (tidy_num p px _) m
    · exact one (tidy_len p px _) m
    · exact one (tidy_pct p px _) m
  | lengthPercentage l =>
    cases l
    · exact one (tidy_len p px _) m
    · exact one (tidy_pct p px _) m
    · exact nomatch m
  | numberPercentage l =>
    cases l
    · exact one (tidy_num p px _) m
    · exact one (tidy_pct p px _) m
  | percentage n => exact one (tidy_pct p px _) m
  | radius n => exact one (tidy_pct p px _) m
  | numberOptionalNumber n o =>
    cases o
    · exact one (tidy_num p px _) m
    · rcases List.mem_cons.1 m with rfl | m
      · exact tidy_num p px _
      · exact one (tidy_num p px _) m
  | viewBox x y w h => exact four m
  | _ => exact one (tidy_num p px _) m

theorem value_single (p : ℕ) (px list : Bool) {v : Content} (h : Single v) :
    valueTo p px list v = oneTo p px v := by
  cases h <;> rfl

theorem single_points {v : Content} (h : Single v) : ∀ cs, v ≠ .points cs := by
  cases h <;> exact fun cs e => nomatch e

end

end Verif.Values
