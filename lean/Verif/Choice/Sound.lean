import Verif.Choice.Props

/-!
# C94: nothing else is read
-/

namespace Verif.Choice

open Verif.Parse Verif.Clock Verif.Number Verif.Boxes

variable {p q : Parser} {pre rest r t u w w' z : List Char} {v : ℚ}

theorem ident_from {s : List Char} (hp : At p pre rest) (h : p.expectIdent = .ok s q) : ∃ r, rest = s ++ r ∧ At q (pre ++ s) r := by
  have ha : AsciiHead rest := by
    by_contra hn
    rw [(expectIdent_panic_iff hp).mpr hn] at h
    cases h
  obtain ⟨q', _, e⟩ := expectIdent_spec hp ha
  cases rest with
  | nil => rw [e.1] at h; cases h
  | cons c l =>
    simp only at e
    split at e
    · rw [e.1] at h
      cases h
      exact ⟨l.dropWhile isNameChar, by rw [List.cons_append, List.takeWhile_append_dropWhile], e.2⟩
    · rw [e.1] at h; cases h

theorem ident_input (hp : At p pre rest) (h : p.expectIdent = .err q) : q.input = p.input := by
  have ha : AsciiHead rest := by
    by_contra hn
    rw [(expectIdent_panic_iff hp).mpr hn] at h
    cases h
  obtain ⟨q', hi, e⟩ := expectIdent_spec hp ha
  cases rest with
  | nil => rw [e.1] at h; cases h; exact hi
  | cons c l =>
    simp only at e
    split at e
    · rw [e.1] at h; cases h
    · rw [e.1] at h; cases h; exact hi

theorem word_from {k : List Char} (hp : At p pre rest) (h : p.expectIdentMatching k = .ok () q) : ∃ r, rest = k ++ r ∧ At q (pre ++ k) r := by
  obtain ⟨s, q', e, h⟩ := bind_ok h
  obtain ⟨r, e1, a⟩ := ident_from hp e
  split at h
  · rename_i hs
    cases h
    rw [hs] at e1 a
    exact ⟨r, e1, a⟩
  · cases h

theorem input_ok {s : List Char} (hp : At p pre rest) (h : p.expectIdent = .ok s q) : q.input = p.input := by
  obtain ⟨r, e, a⟩ := ident_from hp h
  rw [a.1, hp.1, e]
  simp

theorem word_input {k : List Char} (hp : At p pre rest) (h : p.expectIdentMatching k = .err q) : q.input = p.input := by
  rw [Parser.expectIdentMatching] at h
  cases e : p.expectIdent with
  | ok s q' =>
    rw [e] at h
    simp only [Res.bind] at h
    split at h
    · cases h
    · cases h; exact input_ok hp e
  | err q' => rw [e] at h; cases h; exact ident_input hp e
  | panic => rw [e] at h; cases h

/-- The keyword or the number, as both `FontSizeAdjust` and `RepeatCount` read it. -/
theorem choice_from {k : List Char} {x : Option Num} (hp : At p pre rest)
    (h : orElse (p.tryParse fun p => (p.expectIdentMatching k).bind fun _ p => Res.ok (none : Option Num) p)
      (fun p => (f32 p).bind fun n p => .ok (some n) p) = .ok x q) :
    (∃ r, rest = k ++ r ∧ At q (pre ++ k) r ∧ x = none) ∨
    ∃ w u r, rest = w ++ (u ++ r) ∧ Wide w ∧ IsNumber u ∧ x = some (numOf u) ∧ At q (pre ++ (w ++ u)) r := by
  cases e : p.tryParse fun p => (p.expectIdentMatching k).bind fun _ p => Res.ok (none : Option Num) p with
  | ok y q' =>
    rw [e] at h
    cases h
    obtain ⟨_, q1, e1, e2⟩ := bind_ok (((tryParse_spec _ _).1 _ _).mp e)
    cases e2
    obtain ⟨r, h1, h2⟩ := word_from hp e1
    exact .inl ⟨r, h1, h2, rfl⟩
  | err q' =>
    rw [e] at h
    have := try_err e (fun q2 h2 => by
      cases e3 : p.expectIdentMatching k with
      | ok s q3 => rw [e3] at h2; cases h2
      | err q3 => rw [e3] at h2; cases h2; exact word_input hp e3
      | panic => rw [e3] at h2; cases h2)
    subst this
    obtain ⟨n, q1, e1, e2⟩ := bind_ok h
    cases e2
    obtain ⟨w, u, r, h1, h2, h3, rfl, h4⟩ := f32_from hp e1
    exact .inr ⟨w, u, r, h1, h2, h3, rfl, h4⟩
  | panic => rw [e] at h; cases h

theorem no_letter {c : Char} (h : Value (c :: u) v) : isNameStartChar c = false := by
  obtain ⟨c', u', e, _, _, _, h2⟩ := value_head h
  cases e
  exact Bool.eq_false_iff.mpr (by simpa using h2)

theorem number_head {c : Char} (h : IsNumber (c :: u)) : c = '+' ∨ c = '-' ∨ c.isDigit = true ∨ c = '.' := by
  obtain ⟨s, d, f, x, e, hs, hd, hf, _⟩ := h
  rcases hs with rfl | rfl | rfl
  · cases d with
    | cons a d =>
      simp only [List.nil_append, List.cons_append, List.cons.injEq] at e
      rw [e.1]
      exact .inr (.inr (.inl (hd a (by simp))))
    | nil =>
      rcases hf with ⟨_, hn⟩ | ⟨d', rfl, _⟩
      · exact absurd rfl hn
      · simp only [List.nil_append, List.cons_append, List.cons.injEq] at e
        exact .inr (.inr (.inr e.1))
  all_goals
    simp only [List.nil_append, List.cons_append, List.cons.injEq] at e
    simp [e.1]

/-- **C94 (font-size-adjust: nothing else is read)** What is read is `none` or a number, and what is written means the same. -/
theorem adjust_sound {x : Option Num} (h : ListOf.parseString adjust t = .ok x q) (hz : z = "0".toList ∨ z = "-0".toList) :
    ∃ w u w', t = w ++ (u ++ w') ∧ Wide w ∧ Wide w' ∧ (u = "none".toList ∨ IsNumber u) ∧ ∀ m, AdjustMeans u m → AdjustMeans (adjustText z x) m := by
  obtain ⟨_, p0, e0, h⟩ := bind_ok h
  obtain ⟨x', p1, e1, h⟩ := bind_ok h
  obtain ⟨_, p2, e2, h⟩ := bind_ok h
  obtain ⟨_, p3, e3, h⟩ := bind_ok h
  cases h
  obtain ⟨w0, r0, rfl, hw0, a0⟩ := skip_from (pre := []) (rest := t) ⟨rfl, rfl⟩ e0
  rcases choice_from a0 e1 with ⟨r, rfl, a, rfl⟩ | ⟨w, u, r, rfl, hw, hu, rfl, a⟩
  · exact ⟨w0, _, r, rfl, hw0, rest_done a e2 e3, .inl rfl, fun m hm => hm⟩
  · refine ⟨w0 ++ w, u, r, by simp, wide_append hw0 hw, rest_done a e2 e3, .inr hu, fun m hm => ?_⟩
    generalize u = u' at hu hm ⊢
    cases hm with
    | off => exact absurd (number_head (c := 'n') hu) (by decide)
    | number _ v hv => exact .number _ _ (value_kept hv hz)

/-- **C94 (repeatCount: nothing else is read)** What is read is `indefinite` or a number above zero, and what is written means the same. -/
theorem count_sound {x : Option Num} (h : ListOf.parseString count t = .ok x q) (hz : z = "0".toList ∨ z = "-0".toList) :
    ∃ w u w', t = w ++ (u ++ w') ∧ Wide w ∧ Wide w' ∧ (u = "indefinite".toList ∨ IsNumber u) ∧ (∀ v, Value u v → 0 < v) ∧
      ∀ m, CountMeans u m → CountMeans (countText z x) m := by
  obtain ⟨_, p0, e0, h⟩ := bind_ok h
  obtain ⟨x', p1, e1, h⟩ := bind_ok h
  obtain ⟨_, p2, e2, h⟩ := bind_ok h
  obtain ⟨_, p3, e3, h⟩ := bind_ok h
  cases h
  obtain ⟨w0, r0, rfl, hw0, a0⟩ := skip_from (pre := []) (rest := t) ⟨rfl, rfl⟩ e0
  obtain ⟨y, p4, e4, h⟩ := bind_ok e1
  rcases choice_from a0 e4 with ⟨r, rfl, a, rfl⟩ | ⟨w, u, r, rfl, hw, hu, rfl, a⟩
  · cases h
    exact ⟨w0, _, r, rfl, hw0, rest_done a e2 e3, .inl rfl, fun v hv => absurd (no_letter (c := 'i') hv) (by decide), fun m hm => hm⟩
  · simp only at h
    split at h
    · cases h
    · rename_i hn
      cases h
      refine ⟨w0 ++ w, u, r, by simp, wide_append hw0 hw, rest_done a e2 e3, .inr hu, fun v hv => ?_, fun m hm => ?_⟩
      · by_contra hle
        exact hn ((nonpos_iff hv).mpr (by linarith))
      · generalize u = u' at hu hm ⊢
        cases hm with
        | indefinite => exact absurd (number_head (c := 'i') hu) (by decide)
        | number _ v hv h0 => exact .number _ _ (value_kept hv hz) h0

/-- **C94 (rotate: nothing else is read)** What is read is `auto`, `auto-reverse` or a number, and what is written means the same. -/
theorem rotate_sound {x : Rotate} (h : ListOf.parseString rotate t = .ok x q) (hz : z = "0".toList ∨ z = "-0".toList) :
    ∃ w u w', t = w ++ (u ++ w') ∧ Wide w ∧ Wide w' ∧ (u = "auto".toList ∨ u = "auto-reverse".toList ∨ IsNumber u) ∧
      ∀ m, RotateMeans u m → RotateMeans (rotateText z x) m := by
  obtain ⟨_, p0, e0, h⟩ := bind_ok h
  obtain ⟨x', p1, e1, h⟩ := bind_ok h
  obtain ⟨_, p2, e2, h⟩ := bind_ok h
  obtain ⟨_, p3, e3, h⟩ := bind_ok h
  cases h
  obtain ⟨w0, r0, rfl, hw0, a0⟩ := skip_from (pre := []) (rest := t) ⟨rfl, rfl⟩ e0
  rw [rotate] at e1
  cases e : p0.tryParse fun p => p.expectIdent.bind fun w p =>
      if w = "auto".toList then Res.ok Rotate.auto p else if w = "auto-reverse".toList then .ok .reverse p else .err p with
  | ok y q' =>
    rw [e] at e1
    cases e1
    obtain ⟨s, q1, f1, f2⟩ := bind_ok (((tryParse_spec _ _).1 _ _).mp e)
    obtain ⟨r, rfl, a⟩ := ident_from a0 f1
    split at f2
    · rename_i hs
      cases f2
      subst hs
      exact ⟨w0, _, r, rfl, hw0, rest_done a e2 e3, .inl rfl, fun m hm => hm⟩
    · split at f2
      · rename_i hs
        cases f2
        subst hs
        exact ⟨w0, _, r, rfl, hw0, rest_done a e2 e3, .inr (.inl rfl), fun m hm => hm⟩
      · cases f2
  | err q' =>
    rw [e] at e1
    have := try_err e (fun q2 h2 => by
      cases e4 : p0.expectIdent with
      | ok s q3 =>
        rw [e4] at h2
        simp only [Res.bind] at h2
        split at h2
        · cases h2
        · split at h2
          · cases h2
          · cases h2; exact input_ok a0 e4
      | err q3 => rw [e4] at h2; cases h2; exact ident_input a0 e4
      | panic => rw [e4] at h2; cases h2)
    subst this
    obtain ⟨_, q1, f1, e1⟩ := bind_ok e1
    obtain ⟨n, q2, f2, e1⟩ := bind_ok e1
    cases e1
    obtain ⟨w1, r1, rfl, hw1, a1⟩ := skip_from a0 f1
    obtain ⟨w, u, r, rfl, hw, hu, rfl, a⟩ := f32_from a1 f2
    refine ⟨w0 ++ (w1 ++ w), u, r, by simp, wide_append hw0 (wide_append hw1 hw), rest_done a e2 e3, .inr (.inr hu), fun m hm => ?_⟩
    generalize u = u' at hu hm ⊢
    cases hm with
    | auto => exact absurd (number_head (c := 'a') hu) (by decide)
    | reverse => exact absurd (number_head (c := 'a') hu) (by decide)
    | number _ v hv => exact .number _ _ (value_kept hv hz)
  | panic => rw [e] at e1; cases e1

/-- **C94 (frequencies: nothing else is read)** What is read is a number right before `Hz` or `KHz`, and what is written means the same. -/
theorem frequency_sound {x : Freq} (h : ListOf.parseString frequency t = .ok x q) (hz : z = "0".toList ∨ z = "-0".toList) :
    ∃ w y u w', t = w ++ (y ++ (u ++ w')) ∧ Wide w ∧ Wide w' ∧ IsNumber y ∧ (u = "Hz".toList ∨ u = "KHz".toList) ∧
      ∀ v k, Value y v → Unit u k → FreqMeans (frequencyText z x) (v * k) := by
  obtain ⟨_, p0, e0, h⟩ := bind_ok h
  obtain ⟨x', p1, e1, h⟩ := bind_ok h
  obtain ⟨_, p2, e2, h⟩ := bind_ok h
  obtain ⟨_, p3, e3, h⟩ := bind_ok h
  cases h
  obtain ⟨w0, r0, rfl, hw0, a0⟩ := skip_from (pre := []) (rest := t) ⟨rfl, rfl⟩ e0
  obtain ⟨n, p4, e4, e1⟩ := bind_ok e1
  obtain ⟨s, p5, e5, e1⟩ := bind_ok e1
  obtain ⟨w, y, r, rfl, hw, hy, rfl, a1⟩ := f32_from a0 e4
  obtain ⟨r', rfl, a2⟩ := ident_from a1 e5
  split at e1
  · rename_i hs
    cases e1
    subst hs
    exact ⟨w0 ++ w, y, _, r', by simp, wide_append hw0 hw, rest_done a2 e2 e3, hy, .inl rfl, fun v k hv hk => .mk _ _ _ _ (value_kept hv hz) hk⟩
  · split at e1
    · rename_i hs
      cases e1
      subst hs
      exact ⟨w0 ++ w, y, _, r', by simp, wide_append hw0 hw, rest_done a2 e2 e3, hy, .inr rfl, fun v k hv hk => .mk _ _ _ _ (value_kept hv hz) hk⟩
    · cases e1

/-! ## Examples -/

/-- Texts that are close to values, but are not read. -/
example : [ListOf.parseString adjust "None".toList, ListOf.parseString adjust "0.5 none".toList, ListOf.parseString count "-1".toList,
      ListOf.parseString count "+0.0".toList, ListOf.parseString count "indefinitely".toList].map (textOf (countText "0".toList)) = List.replicate 5 none ∧
    ["auto reverse", "90deg", ""].map (fun t => textOf (rotateText "0".toList) (ListOf.parseString rotate t.toList)) = List.replicate 3 none ∧
    ["1 Hz", "1hz", "Hz", "1", "1KHzs"].map (fun t => textOf (frequencyText "0".toList) (ListOf.parseString frequency t.toList)) = List.replicate 5 none := by
  decide +kernel

/-- The soundness of a value with an exponent and white space around it. -/
example : ∃ x q, ListOf.parseString count " 25e-1\t".toList = .ok x q ∧ countText "0".toList x = "2.5".toList := by
  have h : textOf (countText "0".toList) (ListOf.parseString count " 25e-1\t".toList) = some "2.5".toList := by decide +kernel
  cases e : ListOf.parseString count " 25e-1\t".toList with
  | ok x q => rw [e] at h; exact ⟨x, q, rfl, Option.some.inj h⟩
  | err q => rw [e] at h; cases h
  | panic => rw [e] at h; cases h

end Verif.Choice
