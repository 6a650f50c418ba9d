import Verif.Boxes.Limits

/-!
# C93: what is read
-/

namespace Verif.Boxes

open Verif.Parse Verif.Clock Verif.Number

variable {p q : Parser} {pre rest r t z : List Char} {v : ℚ × ℚ × ℚ × ℚ}

/-- White space of Unicode. -/
def Wide (w : List Char) : Prop := ∀ c ∈ w, c.toNat ∈ whiteSpace

/-- White space with any number of commas in one place, perhaps nothing. -/
def Gap (g : List Char) : Prop := ∃ w n w', g = w ++ List.replicate n ',' ++ w' ∧ Wide w ∧ Wide w'

theorem bind_ok {α β : Type} {a : Res α} {f : α → Parser → Res β} {b : β} (h : a.bind f = .ok b q) :
    ∃ x p, a = .ok x p ∧ f x p = .ok b q := by
  cases a with
  | ok x p => exact ⟨x, p, rfl, h⟩
  | err p => simp [Res.bind] at h
  | panic => simp [Res.bind] at h

theorem wide_take (l : List Char) : Wide (l.takeWhile isWhitespace) := fun c hc =>
  (whitespace_iff c).mp (List.all_eq_true.mp (List.all_takeWhile (p := isWhitespace) (l := l)) c hc)

theorem skip_good (h : p.skipWhitespace = .ok () q) : ∃ pre w r, At p pre (w ++ r) ∧ Wide w ∧ At q (pre ++ w) r := by
  obtain ⟨pre, rest, hp⟩ := (skipMatches_ok h).1
  obtain ⟨q', e1, a1, _⟩ := hp.skipMatches_at isWhitespace
  rw [Parser.skipWhitespace, e1] at h
  cases h
  exact ⟨pre, rest.takeWhile isWhitespace, rest.dropWhile isWhitespace, by rw [List.takeWhile_append_dropWhile]; exact hp, wide_take _, a1⟩

theorem skip_from (hp : At p pre rest) (h : p.skipWhitespace = .ok () q) : ∃ w r, rest = w ++ r ∧ Wide w ∧ At q (pre ++ w) r := by
  obtain ⟨pre', w, r, a, hw, a'⟩ := skip_good h
  obtain ⟨rfl, rfl⟩ := hp.unique a
  exact ⟨w, r, rfl, hw, a'⟩

theorem f32_from {n : Num} (hp : At p pre rest) (h : f32 p = .ok n q) : ∃ w t r, rest = w ++ (t ++ r) ∧ Wide w ∧ IsNumber t ∧ n = numOf t ∧
    At q (pre ++ (w ++ t)) r := by
  obtain ⟨t, q', e1, e2⟩ := bind_ok h
  cases e2
  obtain ⟨r, g1, g2, _, g4⟩ := f64_sound hp e1
  refine ⟨rest.takeWhile isWhitespace, t, r, ?_, wide_take _, g2.1, rfl, by simpa using g4⟩
  rw [← g1, List.takeWhile_append_dropWhile]

theorem wide_append {a b : List Char} (ha : Wide a) (hb : Wide b) : Wide (a ++ b) := fun c hc => by
  rcases List.mem_append.mp hc with h | h
  · exact ha c h
  · exact hb c h

theorem gap_append {g w : List Char} (h : Gap g) (hw : Wide w) : Gap (g ++ w) := by
  obtain ⟨a, n, b, rfl, h1, h2⟩ := h
  exact ⟨a, n, b ++ w, by simp, h1, wide_append h2 hw⟩

theorem gap_from (hp : At p pre rest) (h : gap p = .ok () q) : ∃ g r, rest = g ++ r ∧ At q (pre ++ g) r ∧ (rest.getLast? ≠ some ',' → Gap g) := by
  obtain ⟨_, q1, e1, h⟩ := bind_ok h
  obtain ⟨_, q2, e2, h⟩ := bind_ok h
  obtain ⟨w, r, rfl, hw, a1⟩ := skip_from hp e1
  obtain ⟨pre2, w2, r2, a2, hw2, a3⟩ := skip_good h
  obtain ⟨a, b, m, rfl, a4, ea, hm⟩ := skipChar_ok a1 e2 ⟨_, _, a2⟩
  obtain ⟨rfl, rfl⟩ := a4.unique a2
  refine ⟨w ++ a ++ w2, r2, by simp, by simpa using a3, ?_⟩
  intro hl
  have : m = [] := hm (by
    intro hc
    apply hl
    have hs := List.takeWhile_append_dropWhile (p := (· == ',')) (l := a ++ (w2 ++ r2))
    rw [← hs, List.getLast?_append, List.getLast?_append, hc]
    simp)
  subst this
  have hall : ∀ c ∈ a, c = ',' := by
    intro c hc
    rw [ea, List.append_nil] at hc
    have := List.all_eq_true.mp (List.all_takeWhile (p := (· == ',')) (l := a ++ (w2 ++ r2))) c hc
    simpa using this
  exact ⟨w, a.length, w2, by rw [← List.eq_replicate_of_mem hall], hw, hw2⟩

theorem number_no_comma (h : IsNumber t) : ',' ∉ t := by
  obtain ⟨s, d, f, x, rfl, hs, hd, hf, hx⟩ := h
  have dig : ∀ {l}, Digits l → ',' ∉ l := fun h hm => by have := h _ hm; simp at this
  have sg : ∀ {l}, IsSign l → ',' ∉ l := fun h hm => by rcases h with rfl | rfl | rfl <;> simp at hm
  simp only [List.mem_append, not_or]
  refine ⟨⟨⟨sg hs, dig hd⟩, ?_⟩, ?_⟩
  · rcases hf with ⟨rfl, _⟩ | ⟨d', rfl, h, _⟩
    · simp
    · simp [dig h]
  · rcases hx with rfl | ⟨e, s', d', rfl, he, hs', hd', _⟩
    · simp
    · simp only [List.mem_cons, List.mem_append, not_or]
      exact ⟨by rcases he with rfl | rfl <;> decide, sg hs', dig hd'⟩

theorem wide_no_comma {w : List Char} (h : Wide w) : ',' ∉ w := fun hm => by
  have := h _ hm
  revert this
  decide

theorem last_of_suffix {a b : List Char} (h : b.getLast? = some ',') : (a ++ b).getLast? = some ',' := by
  rw [List.getLast?_append, h]; rfl

/-- **C93 (viewBox: nothing else is read)** What is read as a `viewBox` is four numbers, with white space around them and white space
and commas between them (perhaps nothing, or too many commas), and what is written has the values of these numbers. -/
theorem viewBox_sound {x : Four} (h : ListOf.parseString viewBox t = .ok x q) (hz : z = "0".toList ∨ z = "-0".toList) :
    ∃ w a g b g' c g'' d w', t = w ++ (a ++ (g ++ (b ++ (g' ++ (c ++ (g'' ++ (d ++ w'))))))) ∧ Wide w ∧ Wide w' ∧ Gap g ∧ Gap g' ∧ Gap g'' ∧
      IsNumber a ∧ IsNumber b ∧ IsNumber c ∧ IsNumber d ∧
      ∀ v : ℚ × ℚ × ℚ × ℚ, Value a v.1 → Value b v.2.1 → Value c v.2.2.1 → Value d v.2.2.2 → ViewBoxMeans (viewBoxText z x) v := by
  obtain ⟨_, p0, e0, h⟩ := bind_ok h
  obtain ⟨x', p1, e1, h⟩ := bind_ok h
  obtain ⟨_, p2, e2, h⟩ := bind_ok h
  obtain ⟨_, p3, e3, h⟩ := bind_ok h
  cases h
  obtain ⟨w0, r0, rfl, hw0, a0⟩ := skip_from (pre := []) (rest := t) ⟨rfl, rfl⟩ e0
  obtain ⟨_, q1, f1, e1⟩ := bind_ok e1
  obtain ⟨na, q2, f2, e1⟩ := bind_ok e1
  obtain ⟨_, q3, f3, e1⟩ := bind_ok e1
  obtain ⟨nb, q4, f4, e1⟩ := bind_ok e1
  obtain ⟨_, q5, f5, e1⟩ := bind_ok e1
  obtain ⟨nc, q6, f6, e1⟩ := bind_ok e1
  obtain ⟨_, q7, f7, e1⟩ := bind_ok e1
  obtain ⟨nd, q8, f8, e1⟩ := bind_ok e1
  obtain ⟨_, q9, f9, e1⟩ := bind_ok e1
  cases e1
  obtain ⟨w1, r1, rfl, hw1, a1⟩ := skip_from a0 f1
  obtain ⟨wa, a, r2, rfl, hwa, ha, rfl, a2⟩ := f32_from a1 f2
  obtain ⟨g1, r3, rfl, a3, hg1⟩ := gap_from a2 f3
  obtain ⟨wb, b, r4, rfl, hwb, hb, rfl, a4⟩ := f32_from a3 f4
  obtain ⟨g2, r5, rfl, a5, hg2⟩ := gap_from a4 f5
  obtain ⟨wc, c, r6, rfl, hwc, hc, rfl, a6⟩ := f32_from a5 f6
  obtain ⟨g3, r7, rfl, a7, hg3⟩ := gap_from a6 f7
  obtain ⟨wd, d, r8, rfl, hwd, hd, rfl, a8⟩ := f32_from a7 f8
  obtain ⟨w9, r9, rfl, hw9, a9⟩ := skip_from a8 f9
  obtain ⟨w10, r10, rfl, hw10, a10⟩ := skip_from a9 e2
  obtain ⟨rfl, _⟩ := (expectDone_spec a10 _).mp e3
  have hl : (wd ++ (d ++ (w9 ++ (w10 ++ [])))).getLast? ≠ some ',' := by
    intro e
    have := List.mem_of_getLast? e
    simp only [List.mem_append, List.not_mem_nil, or_false] at this
    rcases this with h | h | h | h
    · exact wide_no_comma hwd h
    · exact number_no_comma hd h
    · exact wide_no_comma hw9 h
    · exact wide_no_comma hw10 h
  have hne : wd ++ (d ++ (w9 ++ (w10 ++ []))) ≠ [] := by
    obtain ⟨x, u, rfl, _⟩ := number_head hd
    simp
  have suf : ∀ {y : List Char}, (y ++ (wd ++ (d ++ (w9 ++ (w10 ++ []))))).getLast? ≠ some ',' := by
    intro y
    rw [List.getLast?_append]
    cases hg : (wd ++ (d ++ (w9 ++ (w10 ++ [])))).getLast? with
    | none => rw [List.getLast?_eq_none_iff] at hg; exact absurd hg hne
    | some x => rw [hg] at hl; simpa using hl
  have k3 := hg3 suf
  have k2 := hg2 (by have := suf (y := g2 ++ (wc ++ (c ++ g3))); simpa using this)
  have k1 := hg1 (by have := suf (y := g1 ++ (wb ++ (b ++ (g2 ++ (wc ++ (c ++ g3)))))); simpa using this)
  refine ⟨w0 ++ (w1 ++ wa), a, g1 ++ wb, b, g2 ++ wc, c, g3 ++ wd, d, w9 ++ w10, by simp, wide_append hw0 (wide_append hw1 hwa),
    wide_append hw9 hw10, gap_append k1 hwb, gap_append k2 hwc, gap_append k3 hwd, ha, hb, hc, hd, ?_⟩
  intro v h1 h2 h3 h4
  have hg : Gives v ⟨numOf a, numOf b, numOf c, numOf d⟩ := ⟨a, b, c, d, rfl, h1, h2, h3, h4⟩
  refine ⟨[], _, [], by simp, by simp [White], by simp [White], four_mono ?_ (gives_text hg hz)⟩
  rintro _ rfl
  exact blank_comma ⟨by simp [White], by simp⟩

theorem try_err {α : Type} {f : Parser → Res α} (h : p.tryParse f = .err q) (hf : ∀ q', f p = .err q' → q'.input = p.input) : q = p := by
  rw [Parser.tryParse] at h
  cases e : f p with
  | ok a p' => rw [e] at h; simp at h
  | panic => rw [e] at h; simp at h
  | err q' =>
    have := tryParse_err e (hf q' e)
    rw [Parser.tryParse] at this
    rw [this] at h
    cases h
    rfl

theorem expectChar_input {c : Char} (hp : At p pre rest) (h : p.expectChar c = .err q) : q.input = p.input := by
  rw [Parser.expectChar, hp.read] at h
  cases rest with
  | nil => simp only [Res.bind] at h; cases h; rfl
  | cons x l =>
    simp only [Res.bind] at h
    split at h
    · simp at h
    · cases h; rfl

theorem expectChar_from {c : Char} (hs : c.utf8Size = 1) (hp : At p pre rest) (h : p.expectChar c = .ok () q) :
    ∃ r, rest = c :: r ∧ At q (pre ++ [c]) r := by
  obtain ⟨r, rfl, rfl⟩ := (expectChar_spec hp c q).mp h
  have := At.moved (a := [c]) (rest := r) (by simpa using hp)
  simp only [width_cons, width_nil, hs] at this
  exact ⟨r, rfl, this⟩

theorem rest_done {p1 p2 p3 : Parser} (hp : At p1 pre rest) (e2 : p1.skipWhitespace = .ok () p2) (e3 : p2.expectDone = .ok () p3) : Wide rest := by
  obtain ⟨w, r, rfl, hw, a⟩ := skip_from hp e2
  obtain ⟨rfl, _⟩ := (expectDone_spec a _).mp e3
  simpa using hw

/-- **C93 (one or two numbers: nothing else is read)** What is read as two numbers is two numbers with white space and at most one comma
between them, but not with nothing between them; and what is written has the values of these numbers. -/
theorem pair_sound {a b : Num} (h : ListOf.parseString pair t = .ok (a, some b) q) (hz : z = "0".toList ∨ z = "-0".toList) :
    ∃ w x g y w', t = w ++ (x ++ (g ++ (y ++ w'))) ∧ Wide w ∧ Wide w' ∧ Gap g ∧ g ≠ [] ∧ g.count ',' ≤ 1 ∧ IsNumber x ∧ IsNumber y ∧
      ∀ v v' : ℚ, Value x v → Value y v' → PairMeans (pairText z (a, some b)) (v, some v') := by
  obtain ⟨_, p0, e0, h⟩ := bind_ok h
  obtain ⟨x', p1, e1, h⟩ := bind_ok h
  obtain ⟨_, p2, e2, h⟩ := bind_ok h
  obtain ⟨_, p3, e3, h⟩ := bind_ok h
  cases h
  obtain ⟨w0, r0, rfl, hw0, a0⟩ := skip_from (pre := []) (rest := t) ⟨rfl, rfl⟩ e0
  obtain ⟨na, q1, f1, e1⟩ := bind_ok e1
  obtain ⟨_, q2, f2, e1⟩ := bind_ok e1
  obtain ⟨wa, x, r1, rfl, hwa, hx, rfl, a1⟩ := f32_from a0 f1
  obtain ⟨w1, r2, rfl, hw1, a2⟩ := skip_from a1 f2
  have hv : ∀ {y : List Char}, ∀ v v' : ℚ, Value x v → Value y v' → PairMeans (pairText z (numOf x, some (numOf y))) (v, some v') := by
    intro y v v' h1 h2
    exact .two _ [' '] _ _ _ (value_kept h1 hz) (blank_comma ⟨by simp [White], by simp⟩) (value_kept h2 hz)
  have cnt : ∀ {w : List Char}, Wide w → w.count ',' = 0 := fun h => List.count_eq_zero.mpr (wide_no_comma h)
  simp only at e1
  split at e1
  · rename_i q3 f3
    obtain ⟨_, q4, f4, e1⟩ := bind_ok e1
    obtain ⟨nb, q5, f5, e1⟩ := bind_ok e1
    cases e1
    obtain ⟨r3, rfl, a3⟩ := expectChar_from (by decide) a2 (((tryParse_spec _ _).1 _ _).mp f3)
    obtain ⟨w2, r4, rfl, hw2, a4⟩ := skip_from a3 f4
    obtain ⟨wb, y, r5, rfl, hwb, hy, rfl, a5⟩ := f32_from a4 f5
    refine ⟨w0 ++ wa, x, w1 ++ [','] ++ (w2 ++ wb), y, r5, by simp, wide_append hw0 hwa, rest_done a5 e2 e3,
      ⟨w1, 1, w2 ++ wb, by simp, hw1, wide_append hw2 hwb⟩, by simp, ?_, hx, hy, hv⟩
    simp [cnt hw1, cnt hw2, cnt hwb]
  · rename_i q3 f3
    have := try_err f3 (fun q' h => expectChar_input a2 h)
    subst this
    obtain ⟨_, q4, f4, e1⟩ := bind_ok e1
    obtain ⟨w2, r4, rfl, hw2, a4⟩ := skip_from a2 f4
    split at e1
    · rename_i nb q5 f5
      split at e1
      · simp at e1
      · rename_i hcur
        cases e1
        obtain ⟨wb, y, r5, rfl, hwb, hy, rfl, a5⟩ := f32_from a4 (((tryParse_spec _ _).1 _ _).mp f5)
        refine ⟨w0 ++ wa, x, w1 ++ (w2 ++ wb), y, r5, by simp, wide_append hw0 hwa, rest_done a5 e2 e3,
          ⟨w1, 0, w2 ++ wb, by simp, hw1, wide_append hw2 hwb⟩, ?_, ?_, hx, hy, hv⟩
        · intro hn
          simp only [List.append_eq_nil_iff] at hn
          obtain ⟨rfl, rfl, rfl⟩ := hn
          apply hcur
          rw [a1.2, a4.2]
          simp
        · simp [cnt hw1, cnt hw2, cnt hwb]
    · simp at e1
    · simp at e1
  · simp at e1

/-! ## Examples -/

theorem value_digits (d : List Char) (h : Digits d) (hne : d ≠ []) : Value d (decimal d) :=
  ⟨[], d, [], [], 0, by simp, .inl rfl, h, .inl ⟨rfl, hne⟩, .inl ⟨rfl, rfl⟩, by simp [tail_nil]⟩

/-- `-1.50e1` is minus fifteen. -/
example : Value "-1.50e1".toList (-15) :=
  ⟨['-'], ['1'], ['.', '5', '0'], ['e', '1'], 1, rfl, .inr (.inr rfl), by unfold Digits; decide, .inr ⟨['5', '0'], rfl, by unfold Digits; decide, by simp⟩,
    .inr ⟨'e', [], ['1'], rfl, .inl rfl, .inl rfl, by unfold Digits; decide, by simp, by decide, by decide⟩, by
      have h1 : decimal ['1'] = 1 := by decide
      have h2 : decimal ['5', '0'] = 50 := by decide
      simp only [tail, List.tail_cons, h1, h2]
      norm_num⟩

theorem digits_of {d : List Char} (h : d.all Char.isDigit = true) : Digits d := List.all_eq_true.mp h

/-- A `viewBox` as editors write it. -/
theorem box_valid : ViewBoxMeans " 0 0, 24,024 ".toList (0, 0, 24, 24) :=
  ⟨[' '], "0 0, 24,024".toList, [' '], rfl, by simp [White], by simp [White], ['0'], ['0'], ['2', '4'], ['0', '2', '4'], [' '], [',', ' '], [','], rfl,
    by have := value_digits ['0'] (digits_of rfl) (by simp); have h : decimal ['0'] = 0 := by decide
       rw [h] at this; simpa using this,
    by have := value_digits ['0'] (digits_of rfl) (by simp); have h : decimal ['0'] = 0 := by decide
       rw [h] at this; simpa using this,
    by have := value_digits ['2', '4'] (digits_of rfl) (by simp); have h : decimal ['2', '4'] = 24 := by decide
       rw [h] at this; simpa using this,
    by have := value_digits ['0', '2', '4'] (digits_of rfl) (by simp); have h : decimal ['0', '2', '4'] = 24 := by decide
       rw [h] at this; simpa using this,
    blank_comma ⟨by simp [White], by simp⟩, ⟨[], [' '], [','], rfl, by simp [White], by simp [White], .inr rfl, by simp⟩,
    ⟨[], [], [','], rfl, by simp [White], by simp [White], .inr rfl, by simp⟩⟩

example : ∃ x q, ListOf.parseString viewBox " 0 0, 24,024 ".toList = .ok x q ∧ ViewBoxMeans (viewBoxText "0".toList x) (0, 0, 24, 24) :=
  let ⟨x, q, h, h', _⟩ := viewBox_kept box_valid (.inl rfl)
  ⟨x, q, h, h'⟩

def textOf {α : Type} (f : α → List Char) : Res α → Option (List Char)
  | .ok a _ => some (f a)
  | _ => none

/-- What is written, for some texts. -/
example : textOf (viewBoxText "0".toList) (ListOf.parseString viewBox " 0 0, 24,024 ".toList) = some "0 0 24 24".toList ∧
    textOf (viewBoxText "0".toList) (ListOf.parseString viewBox "0,,,,0 +.50 1e1".toList) = some "0 0 .5 10".toList ∧
    textOf (viewBoxText "0".toList) (ListOf.parseString viewBox "0 0 24".toList) = none ∧
    textOf (clipText "0".toList) (ListOf.parseString clip "rect( 1 2 3,4 )".toList) = some "rect(1,2,3,4)".toList ∧
    textOf (clipText "0".toList) (ListOf.parseString clip "rect(,1,2,3,4)".toList) = some "rect(1,2,3,4)".toList ∧
    textOf (clipText "0".toList) (ListOf.parseString clip "rect(1px 2px 3px 4px)".toList) = none ∧
    textOf (clipText "0".toList) (ListOf.parseString clip "rect(auto 2 3 4)".toList) = none ∧
    textOf (enableText "0".toList) (ListOf.parseString enable "new 0 0  24 24".toList) = some "new 0 0 24 24".toList ∧
    textOf (enableText "0".toList) (ListOf.parseString enable "new".toList) = some "new".toList ∧
    textOf (pairText "0".toList) (ListOf.parseString pair "1 , 2".toList) = some "1 2".toList ∧
    textOf (pairText "0".toList) (ListOf.parseString pair "3".toList) = some "3".toList ∧
    textOf (pairText "0".toList) (ListOf.parseString pair "1-2".toList) = none ∧
    textOf (pairText "0".toList) (ListOf.parseString pair "1,".toList) = none := by decide +kernel

end Verif.Boxes
