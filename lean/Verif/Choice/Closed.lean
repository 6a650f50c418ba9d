import Verif.Choice.Sound
import Verif.Moves.Sound

/-!
# C93 and C94: nothing else is read as `clip`, `enable-background` or a control point
-/

namespace Verif.Choice

open Verif.Parse Verif.Clock Verif.Number Verif.Boxes

variable {p q : Parser} {pre rest r t u w w' z : List Char}

/-- Behind a number, the last character is that of the rest, or no comma. -/
theorem last_number {d y : List Char} (hd : IsNumber d) (hr : r.getLast? ≠ some ',') : (y ++ (d ++ r)).getLast? ≠ some ',' := by
  rw [List.getLast?_append, List.getLast?_append]
  cases e : r.getLast? with
  | some x => rw [e] at hr; simpa using hr
  | none =>
    obtain ⟨x, u, rfl, _⟩ := Verif.Clock.number_head hd
    cases e' : (x :: u).getLast? with
    | none => simp at e'
    | some c =>
      simp only [Option.none_or, Option.some_or, ne_eq, Option.some.injEq]
      rintro rfl
      exact number_no_comma hd (List.mem_of_getLast? e')

/-- Four numbers that were read, and what is between them. -/
theorem four_gaps {p1 p2 p3 p4 p5 p6 p7 : Parser} {na nb nc nd : Num} (hp : At p pre rest) (f1 : f32 p = .ok na p1) (f2 : gap p1 = .ok () p2)
    (f3 : f32 p2 = .ok nb p3) (f4 : gap p3 = .ok () p4) (f5 : f32 p4 = .ok nc p5) (f6 : gap p5 = .ok () p6) (f7 : f32 p6 = .ok nd p7) :
    ∃ w a g b g' c g'' d r pre', rest = w ++ (a ++ (g ++ (b ++ (g' ++ (c ++ (g'' ++ (d ++ r))))))) ∧ Wide w ∧ IsNumber a ∧ IsNumber b ∧
      IsNumber c ∧ IsNumber d ∧ na = numOf a ∧ nb = numOf b ∧ nc = numOf c ∧ nd = numOf d ∧ At p7 pre' r ∧
      (r.getLast? ≠ some ',' → Gap g ∧ Gap g' ∧ Gap g'') := by
  obtain ⟨wa, a, r2, rfl, hwa, ha, rfl, a2⟩ := f32_from hp f1
  obtain ⟨g1, r3, rfl, a3, hg1⟩ := gap_from a2 f2
  obtain ⟨wb, b, r4, rfl, hwb, hb, rfl, a4⟩ := f32_from a3 f3
  obtain ⟨g2, r5, rfl, a5, hg2⟩ := gap_from a4 f4
  obtain ⟨wc, c, r6, rfl, hwc, hc, rfl, a6⟩ := f32_from a5 f5
  obtain ⟨g3, r7, rfl, a7, hg3⟩ := gap_from a6 f6
  obtain ⟨wd, d, r8, rfl, hwd, hd, rfl, a8⟩ := f32_from a7 f7
  refine ⟨wa, a, g1 ++ wb, b, g2 ++ wc, c, g3 ++ wd, d, r8, _, by simp, hwa, ha, hb, hc, hd, rfl, rfl, rfl, rfl, a8, fun hr => ⟨?_, ?_, ?_⟩⟩
  · refine gap_append (hg1 ?_) hwb
    have := last_number (y := g1 ++ (wb ++ (b ++ (g2 ++ (wc ++ (c ++ (g3 ++ wd))))))) hd hr
    simpa using this
  · refine gap_append (hg2 ?_) hwc
    have := last_number (y := g2 ++ (wc ++ (c ++ (g3 ++ wd)))) hd hr
    simpa using this
  · refine gap_append (hg3 ?_) hwd
    have := last_number (y := g3 ++ wd) hd hr
    simpa using this

theorem wide_last (h : Wide w) : w.getLast? ≠ some ',' := fun e => wide_no_comma h (List.mem_of_getLast? e)

/-- **C94 (control points: nothing else is read)** What is read as a control point is four numbers with white space around them and white
space and commas between them, and what is written has the values of these numbers. -/
theorem control_sound {x : Four} (h : ListOf.parseString control t = .ok x q) (hz : z = "0".toList ∨ z = "-0".toList) :
    ∃ w a g b g' c g'' d w', t = w ++ (a ++ (g ++ (b ++ (g' ++ (c ++ (g'' ++ (d ++ w'))))))) ∧ Wide w ∧ Wide w' ∧ Gap g ∧ Gap g' ∧ Gap g'' ∧
      IsNumber a ∧ IsNumber b ∧ IsNumber c ∧ IsNumber d ∧
      ∀ v : ℚ × ℚ × ℚ × ℚ, Value a v.1 → Value b v.2.1 → Value c v.2.2.1 → Value d v.2.2.2 → FourOf Comma (controlText z x) v := by
  obtain ⟨_, p0, e0, h⟩ := bind_ok h
  obtain ⟨x', p1, e1, h⟩ := bind_ok h
  obtain ⟨_, p2, e2, h⟩ := bind_ok h
  obtain ⟨_, p3, e3, h⟩ := bind_ok h
  cases h
  obtain ⟨w0, r0, rfl, hw0, a0⟩ := skip_from (pre := []) (rest := t) ⟨rfl, rfl⟩ e0
  obtain ⟨_, q1, f1, e1⟩ := bind_ok e1
  obtain ⟨na, q2, f2, e1⟩ := bind_ok e1
  obtain ⟨_, q3, f3, e1⟩ := bind_ok e1
  obtain ⟨nb, q4, f4, e1⟩ := bind_ok e1
  obtain ⟨_, q5, f5, e1⟩ := bind_ok e1
  obtain ⟨nc, q6, f6, e1⟩ := bind_ok e1
  obtain ⟨_, q7, f7, e1⟩ := bind_ok e1
  obtain ⟨nd, q8, f8, e1⟩ := bind_ok e1
  cases e1
  obtain ⟨w1, r1, rfl, hw1, a1⟩ := skip_from a0 f1
  obtain ⟨wa, a, g, b, g', c, g'', d, r, pre', rfl, hwa, ha, hb, hc, hd, rfl, rfl, rfl, rfl, a2, hg⟩ := four_gaps a1 f2 f3 f4 f5 f6 f7 f8
  have hr := rest_done a2 e2 e3
  obtain ⟨k1, k2, k3⟩ := hg (wide_last hr)
  refine ⟨w0 ++ (w1 ++ wa), a, g, b, g', c, g'', d, r, by simp, wide_append hw0 (wide_append hw1 hwa), hr, k1, k2, k3, ha, hb, hc, hd, ?_⟩
  intro v h1 h2 h3 h4
  have hG : Gives v ⟨numOf a, numOf b, numOf c, numOf d⟩ := ⟨a, b, c, d, rfl, h1, h2, h3, h4⟩
  refine four_mono ?_ (gives_text hG hz)
  rintro _ rfl
  exact blank_comma ⟨by simp [White], by simp⟩

/-- A keyword, or what else is tried. -/
theorem keyword_or {α : Type} {k : List Char} {y x : α} {f : Parser → Res α} (hp : At p pre rest)
    (h : orElse (p.tryParse fun p => (p.expectIdentMatching k).bind fun _ p => Res.ok y p) f = .ok x q) :
    (∃ r, rest = k ++ r ∧ At q (pre ++ k) r ∧ x = y) ∨ f p = .ok x q := by
  cases e : p.tryParse fun p => (p.expectIdentMatching k).bind fun _ p => Res.ok y p with
  | ok y' q' =>
    rw [e] at h
    cases h
    obtain ⟨_, q1, e1, e2⟩ := bind_ok (((tryParse_spec _ _).1 _ _).mp e)
    cases e2
    obtain ⟨r, h1, h2⟩ := word_from hp e1
    exact .inl ⟨r, h1, h2, rfl⟩
  | err q' =>
    rw [e] at h
    have := try_err e (fun q2 h2 => by
      cases e3 : p.expectIdentMatching k with
      | ok s q3 => rw [e3] at h2; cases h2
      | err q3 => rw [e3] at h2; cases h2; exact word_input hp e3
      | panic => rw [e3] at h2; cases h2)
    subst this
    exact .inr h
  | panic => rw [e] at h; cases h

/-- **C93 (clip: nothing else is read)** What is read as `clip` is `auto`, or `rect(`, four numbers with white space and commas between
them (and before the first) and a parenthesis, and what is written has the values of these numbers. -/
theorem clip_sound {x : Option Four} (h : ListOf.parseString clip t = .ok x q) (hz : z = "0".toList ∨ z = "-0".toList) :
    (x = none ∧ ClipMeans (clipText z x) none ∧ ∃ w w', t = w ++ ("auto".toList ++ w') ∧ Wide w ∧ Wide w') ∨
    ∃ w g0 a g b g' c g'' d w' w'', t = w ++ ("rect(".toList ++ (g0 ++ (a ++ (g ++ (b ++ (g' ++ (c ++ (g'' ++ (d ++ (w' ++ ')' :: w'')))))))))) ∧
      Wide w ∧ Wide w' ∧ Wide w'' ∧ Gap g0 ∧ Gap g ∧ Gap g' ∧ Gap g'' ∧ IsNumber a ∧ IsNumber b ∧ IsNumber c ∧ IsNumber d ∧
      ∀ v : ℚ × ℚ × ℚ × ℚ, Value a v.1 → Value b v.2.1 → Value c v.2.2.1 → Value d v.2.2.2 → ClipMeans (clipText z x) (some v) := by
  obtain ⟨_, p0, e0, h⟩ := bind_ok h
  obtain ⟨x', p1, e1, h⟩ := bind_ok h
  obtain ⟨_, p2, e2, h⟩ := bind_ok h
  obtain ⟨_, p3, e3, h⟩ := bind_ok h
  cases h
  obtain ⟨w0, r0, rfl, hw0, a0⟩ := skip_from (pre := []) (rest := t) ⟨rfl, rfl⟩ e0
  rcases keyword_or a0 e1 with ⟨r, rfl, a1, rfl⟩ | e1
  · exact .inl ⟨rfl, .auto, w0, r, rfl, hw0, rest_done a1 e2 e3⟩
  obtain ⟨_, q0, f0, e1⟩ := bind_ok e1
  obtain ⟨_, q1, f1, e1⟩ := bind_ok e1
  obtain ⟨na, q2, f2, e1⟩ := bind_ok e1
  obtain ⟨_, q3, f3, e1⟩ := bind_ok e1
  obtain ⟨nb, q4, f4, e1⟩ := bind_ok e1
  obtain ⟨_, q5, f5, e1⟩ := bind_ok e1
  obtain ⟨nc, q6, f6, e1⟩ := bind_ok e1
  obtain ⟨_, q7, f7, e1⟩ := bind_ok e1
  obtain ⟨nd, q8, f8, e1⟩ := bind_ok e1
  obtain ⟨_, q9, f9, e1⟩ := bind_ok e1
  obtain ⟨_, q10, f10, e1⟩ := bind_ok e1
  cases e1
  obtain ⟨r1, rfl, rfl⟩ := (expectStr_spec a0 _ _).mp f0
  have a1 := At.moved a0
  obtain ⟨g0, r2, rfl, a2, hg0⟩ := gap_from a1 f1
  obtain ⟨wa, a, g, b, g', c, g'', d, r, pre', rfl, hwa, ha, hb, hc, hd, rfl, rfl, rfl, rfl, a3, hg⟩ := four_gaps a2 f2 f3 f4 f5 f6 f7 f8
  obtain ⟨w9, r9, rfl, hw9, a9⟩ := skip_from a3 f9
  obtain ⟨r10, rfl, a10⟩ := expectChar_from (by decide) a9 f10
  have hr := rest_done a10 e2 e3
  have hl : (w9 ++ ')' :: r10).getLast? ≠ some ',' := by
    intro e
    have := List.mem_of_getLast? e
    simp only [List.mem_append, List.mem_cons] at this
    rcases this with h | h | h
    · exact wide_no_comma hw9 h
    · revert h; decide
    · exact wide_no_comma hr h
  obtain ⟨k1, k2, k3⟩ := hg hl
  have k0 : Gap g0 := hg0 (by
    have := last_number (y := g0 ++ (wa ++ (a ++ (g ++ (b ++ (g' ++ (c ++ g''))))))) hd hl
    simpa using this)
  refine .inr ⟨w0, g0 ++ wa, a, g, b, g', c, g'', d, w9, r10, by simp, hw0, hw9, hr, gap_append k0 hwa, k1, k2, k3, ha, hb, hc, hd, ?_⟩
  intro v h1 h2 h3 h4
  have := ClipMeans.rect [] _ [] v (by simp [White]) (by simp [White])
    ⟨_, _, _, _, [','], [','], [','], rfl, value_kept h1 hz, value_kept h2 hz, value_kept h3 hz, value_kept h4 hz,
      ⟨[], [], [','], rfl, by simp [White], by simp [White], .inr rfl, by simp⟩, ⟨[], [], [','], rfl, by simp [White], by simp [White], .inr rfl, by simp⟩,
      ⟨[], [], [','], rfl, by simp [White], by simp [White], .inr rfl, by simp⟩⟩
  simpa [clipText] using this

/-- **C93 (enable-background: nothing else is read)** What is read as `enable-background` is `accumulate`, `new`, or `new` with four numbers,
perhaps with nothing between them, and what is written has the same meaning. -/
theorem enable_sound {x : Enable} (h : ListOf.parseString enable t = .ok x q) (hz : z = "0".toList ∨ z = "-0".toList) :
    (EnableMeans (enableText z x) none ∧ ∃ w w', t = w ++ ("accumulate".toList ++ w') ∧ Wide w ∧ Wide w') ∨
    (EnableMeans (enableText z x) (some none) ∧ ∃ w w', t = w ++ ("new".toList ++ w') ∧ Wide w ∧ Wide w') ∨
    ∃ w g0 a g b g' c g'' d w', t = w ++ ("new".toList ++ (g0 ++ (a ++ (g ++ (b ++ (g' ++ (c ++ (g'' ++ (d ++ w'))))))))) ∧
      Wide w ∧ Wide w' ∧ Wide g0 ∧ Wide g ∧ Wide g' ∧ Wide g'' ∧ IsNumber a ∧ IsNumber b ∧ IsNumber c ∧ IsNumber d ∧
      ∀ v : ℚ × ℚ × ℚ × ℚ, Value a v.1 → Value b v.2.1 → Value c v.2.2.1 → Value d v.2.2.2 → EnableMeans (enableText z x) (some (some v)) := by
  obtain ⟨_, p0, e0, h⟩ := bind_ok h
  obtain ⟨x', p1, e1, h⟩ := bind_ok h
  obtain ⟨_, p2, e2, h⟩ := bind_ok h
  obtain ⟨_, p3, e3, h⟩ := bind_ok h
  cases h
  obtain ⟨w0, r0, rfl, hw0, a0⟩ := skip_from (pre := []) (rest := t) ⟨rfl, rfl⟩ e0
  rcases keyword_or a0 e1 with ⟨r, rfl, a1, rfl⟩ | e1
  · exact .inl ⟨.accumulate, w0, r, rfl, hw0, rest_done a1 e2 e3⟩
  obtain ⟨_, q0, f0, e1⟩ := bind_ok e1
  obtain ⟨_, q1, f1, e1⟩ := bind_ok e1
  obtain ⟨r1, rfl, a1⟩ := word_from a0 f0
  obtain ⟨w1, r2, rfl, hw1, a2⟩ := skip_from a1 f1
  split at e1
  · rename_i na q2 f2
    obtain ⟨_, q3, f3, e1⟩ := bind_ok e1
    obtain ⟨nb, q4, f4, e1⟩ := bind_ok e1
    obtain ⟨_, q5, f5, e1⟩ := bind_ok e1
    obtain ⟨nc, q6, f6, e1⟩ := bind_ok e1
    obtain ⟨_, q7, f7, e1⟩ := bind_ok e1
    obtain ⟨nd, q8, f8, e1⟩ := bind_ok e1
    cases e1
    obtain ⟨wa, a, r3, rfl, hwa, ha, rfl, a3⟩ := f32_from a2 (((tryParse_spec _ _).1 _ _).mp f2)
    obtain ⟨g1, r4, rfl, hg1, a4⟩ := skip_from a3 f3
    obtain ⟨wb, b, r5, rfl, hwb, hb, rfl, a5⟩ := f32_from a4 f4
    obtain ⟨g2, r6, rfl, hg2, a6⟩ := skip_from a5 f5
    obtain ⟨wc, c, r7, rfl, hwc, hc, rfl, a7⟩ := f32_from a6 f6
    obtain ⟨g3, r8, rfl, hg3, a8⟩ := skip_from a7 f7
    obtain ⟨wd, d, r9, rfl, hwd, hd, rfl, a9⟩ := f32_from a8 f8
    refine .inr (.inr ⟨w0, w1 ++ wa, a, g1 ++ wb, b, g2 ++ wc, c, g3 ++ wd, d, r9, by simp, hw0, rest_done a9 e2 e3, wide_append hw1 hwa,
      wide_append hg1 hwb, wide_append hg2 hwc, wide_append hg3 hwd, ha, hb, hc, hd, ?_⟩)
    intro v h1 h2 h3 h4
    have hG : Gives v ⟨numOf a, numOf b, numOf c, numOf d⟩ := ⟨a, b, c, d, rfl, h1, h2, h3, h4⟩
    refine EnableMeans.box [' '] _ v ⟨by simp [White], by simp⟩ (four_mono ?_ (gives_text hG hz))
    rintro _ rfl
    exact ⟨by simp [White], by simp⟩
  · rename_i q2 f2
    cases e1
    have := try_err f2 (fun q' h => by
      have := Verif.Moves.keeps_f32 (p := q1) rfl
      rw [h] at this
      exact this)
    subst this
    exact .inr (.inl ⟨.fresh, w0, w1 ++ r2, by simp, hw0, wide_append hw1 (rest_done a2 e2 e3)⟩)
  · cases e1

/-! ## Examples -/

/-- Each case is met. -/
example : (match ListOf.parseString clip " rect(,1 2,,3 4 ) ".toList with | .ok x _ => clipText "0".toList x | _ => []) = "rect(1,2,3,4)".toList ∧
    (match ListOf.parseString clip "auto ".toList with | .ok x _ => clipText "0".toList x | _ => []) = "auto".toList ∧
    (match ListOf.parseString enable "new1-2-3-4".toList with | .ok x _ => enableText "0".toList x | _ => []) = [] ∧
    (match ListOf.parseString enable "new 1-2-3-4".toList with | .ok x _ => enableText "0".toList x | _ => []) = "new 1 -2 -3 -4".toList ∧
    (match ListOf.parseString enable " new ".toList with | .ok x _ => enableText "0".toList x | _ => []) = "new".toList ∧
    (match ListOf.parseString control ".5,,0 1-1".toList with | .ok x _ => controlText "0".toList x | _ => []) = ".5 0 1 -1".toList := by
  decide +kernel

end Verif.Choice
