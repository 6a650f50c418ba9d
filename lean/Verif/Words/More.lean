import Verif.Words.Main

/-!
# C95: references of filters, `true` and `false`, boolean attributes and ids
-/

namespace Verif.Words

open Verif.Parse Verif.Clock Verif.Number Verif.Boxes

variable {p q : Parser} {pre rest r t u w w' s : List Char} {α : Type}

/-! ## `in` -/

theorem inWord_text {x : In} (h : inWord s = some x) : inText x = s := by
  simp only [inWord] at h
  split_ifs at h with h1 h2 h3 h4 h5 h6
  · cases h; exact h1.symm
  · cases h; exact h2.symm
  · cases h; exact h3.symm
  · cases h; exact h4.symm
  · cases h; exact h5.symm
  · cases h; exact h6.symm

theorem in_cases (hp : At p pre rest) :
    (Foreign rest ∧ inParse p = .panic) ∨
    (∃ s r x q, rest = s ++ r ∧ Name s ∧ Ends isNameChar r ∧ inText x = s ∧ At q (pre ++ s) r ∧
      inParse p = q.expectDone.bind fun _ p => .ok x p) ∨
    (¬ Foreign rest ∧ (∀ s r, rest = s ++ r → ¬ Name s) ∧ ∃ q, inParse p = .err q) := by
  rcases ident_cases hp with ⟨h, e⟩ | ⟨s, r, q, h, hs, hr, e, a, hi⟩ | ⟨h, hn, q, e, hi⟩
  · refine .inl ⟨h, ?_⟩
    have : named inWord p = .panic := by simp only [named, Parser.tryParse, e, Res.bind]
    rw [inParse, this]
    rfl
  · cases hf : inWord s with
    | some b =>
      have : named inWord p = .ok b q := tryParse_ok (by simp only [e, Res.bind, hf])
      refine .inr (.inl ⟨s, r, b, q, h, hs, hr, inWord_text hf, a, ?_⟩)
      rw [inParse, this]
      rfl
    | none =>
      have : named inWord p = .err p := tryParse_err (q := q) (by simp only [e, Res.bind, hf]) hi
      refine .inr (.inl ⟨s, r, .reference s, q, h, hs, hr, rfl, a, ?_⟩)
      rw [inParse, this]
      simp only [e, Res.bind]
  · have : named inWord p = .err p := tryParse_err (q := q) (by simp only [e, Res.bind]) hi
    refine .inr (.inr ⟨h, hn, q, ?_⟩)
    rw [inParse, this]
    simp only [e, Res.bind]

/-- **C95 (in: crash)** Reading the input of a filter primitive panics exactly if its first character after white space is not ASCII. -/
theorem in_panic (t : List Char) : ListOf.parseString inParse t = .panic ↔ Odd t := by
  refine panic_of (fun p pre rest hp _ => ?_) t
  rcases in_cases hp with ⟨h, e⟩ | ⟨s, r, x, q, rfl, h2, _, _, a, e⟩ | ⟨h, _, q, e⟩
  · rw [e]; simp [h]
  · rw [e]
    cases e1 : q.expectDone with
    | panic => rw [Parser.expectDone] at e1; split at e1 <;> cases e1
    | err q' => simp [Res.bind, not_foreign h2]
    | ok y q' =>
      obtain ⟨rfl, rfl⟩ := (expectDone_spec a _).mp e1
      refine ⟨by simpa [Res.bind] using not_foreign (r := []) h2, ?_⟩
      rintro _ _ ⟨⟩
      exact ⟨_, _, a⟩
  · rw [e]
    refine ⟨by simp [h], ?_⟩
    rintro _ _ ⟨⟩

/-- **C95 (in)** A reference that is read is written as it was, but for white space in front of it. -/
theorem in_written {x : In} (h : ListOf.parseString inParse t = .ok x q) : ∃ w, t = w ++ inText x ∧ Wide w ∧ XmlName (inText x) ∧ Ascii (inText x) ∧
    (∀ c ∈ inText x, c.toNat ≠ 0xD6) := by
  obtain ⟨w, u, p, rfl, hw, hu, e, a⟩ := start t
  obtain ⟨_, p0, e0, h⟩ := bind_ok h
  rw [e] at e0
  cases e0
  obtain ⟨x', p1, e1, h⟩ := bind_ok h
  obtain ⟨_, p2, e2, h⟩ := bind_ok h
  obtain ⟨_, p3, e3, h⟩ := bind_ok h
  cases h
  rcases in_cases a with ⟨_, e'⟩ | ⟨s, r, y, q, rfl, h2, _, h4, a', e'⟩ | ⟨_, _, q, e'⟩
  · rw [e'] at e1; cases e1
  · rw [e'] at e1
    obtain ⟨_, q1, f1, f2⟩ := bind_ok e1
    cases f2
    obtain ⟨rfl, rfl⟩ := (expectDone_spec a' _).mp f1
    subst h4
    exact ⟨w, by simp, hw, (name_iff _).mp h2⟩
  · rw [e'] at e1; cases e1

/-- **C95 (in: read)** An input is read exactly if it is an XML name that begins with an ASCII character and has no `Ö` in it, with white space in front
of it, but not behind it. -/
theorem in_iff (t : List Char) : (∃ x q, ListOf.parseString inParse t = .ok x q) ↔
    ∃ w s, t = w ++ s ∧ Wide w ∧ XmlName s ∧ Ascii s ∧ ∀ c ∈ s, c.toNat ≠ 0xD6 := by
  constructor
  · rintro ⟨x, q, h⟩
    obtain ⟨w, e, hw, h1⟩ := in_written h
    exact ⟨w, _, e, hw, h1⟩
  · rintro ⟨w, s, rfl, hw, h⟩
    have hs := (name_iff s).mpr h
    obtain ⟨p0, e0, a0⟩ := skip_wide hw (by simpa using name_bare (r := []) hs)
    rcases in_cases a0 with ⟨h, _⟩ | ⟨s', r, x, q, h1, h2, h3, h4, a, e⟩ | ⟨_, h', _⟩
    · exact absurd h (by simpa using not_foreign (r := []) hs)
    · obtain ⟨rfl, rfl⟩ := name_unique hs ends_nil h2 h3 (by simpa using h1)
      have e1 := (expectDone_spec a q).mpr ⟨rfl, rfl⟩
      obtain ⟨q2, e2, h3, _⟩ := ending a
      obtain ⟨q3, e3⟩ := h3.mpr wide_nil
      refine ⟨x, q3, ?_⟩
      rw [ListOf.parseString, e0]
      simp only [Res.bind, e, e1, e2, e3]
    · exact absurd hs (h' s [] (by simp))

/-- **C95 (violated: white space behind `in`)** No input with white space behind it is read. -/
theorem in_space_violated (s : List Char) : ¬ ∃ x q, ListOf.parseString inParse (s ++ [' ']) = .ok x q := by
  rw [in_iff]
  rintro ⟨w, u, e, _, ⟨c, m, rfl, hc, hm⟩, _⟩
  have : ' ' ∈ c :: m := by
    have := congrArg List.getLast? e
    rw [List.getLast?_append_of_ne_nil _ (by simp), List.getLast?_append_of_ne_nil _ (by simp)] at this
    exact List.mem_of_getLast? this.symm
  rcases List.mem_cons.mp this with rfl | hx
  · exact absurd hc (by simp [Among, xmlStart])
  · exact absurd (hm _ hx) (by simp [Among, xmlStart, xmlMore])

/-! ## `true`, `false` and `undefined` -/

theorem flag_cases (hp : At p pre rest) :
    (Foreign rest ∧ trueFalse p = .panic) ∨
    (∃ b r q, rest = trueFalseText b ++ r ∧ Ends isNameChar r ∧ trueFalse p = .ok b q ∧ At q (pre ++ trueFalseText b) r) ∨
    (¬ Foreign rest ∧ (∀ b r, rest = trueFalseText b ++ r → ¬ Ends isNameChar r) ∧ ∃ q, trueFalse p = .err q) := by
  have hname : ∀ b, Name (trueFalseText b) := by
    intro b
    cases b
    · exact ⟨'f', ['a', 'l', 's', 'e'], rfl, by decide, by decide, by decide⟩
    · exact ⟨'t', ['r', 'u', 'e'], rfl, by decide, by decide, by decide⟩
  rcases ident_cases hp with ⟨h, e⟩ | ⟨s, r, q, rfl, hs, hr, e, a, _⟩ | ⟨h, hn, q, e, hi⟩
  · exact .inl ⟨h, by rw [trueFalse, e]; rfl⟩
  · by_cases h1 : s = "true".toList
    · subst h1
      exact .inr (.inl ⟨true, r, q, rfl, hr, by rw [trueFalse, e]; rfl, a⟩)
    by_cases h2 : s = "false".toList
    · subst h2
      exact .inr (.inl ⟨false, r, q, rfl, hr, by rw [trueFalse, e]; rfl, a⟩)
    refine .inr (.inr ⟨not_foreign hs, ?_, q, by rw [trueFalse, e]; simp only [Res.bind, if_neg h1, if_neg h2]⟩)
    intro b r' h hr'
    have := (name_unique hs hr (hname b) hr' h).1
    cases b
    · exact h2 this
    · exact h1 this
  · exact .inr (.inr ⟨h, fun b r h' => absurd (hname b) (hn _ r h'), q, by rw [trueFalse, e]; rfl⟩)

/-- **C95 (true and false: crash)** -/
theorem flag_panic (t : List Char) : ListOf.parseString trueFalse t = .panic ↔ Odd t := by
  refine panic_of (fun p pre rest hp _ => ?_) t
  rcases flag_cases hp with ⟨h, e⟩ | ⟨b, r, q, rfl, _, e, a⟩ | ⟨h, _, q, e⟩
  · rw [e]; simp [h]
  · rw [e]
    refine ⟨?_, ?_⟩
    · simp only [reduceCtorEq, false_iff]
      rintro ⟨c, r', h, hc⟩
      cases b <;> simp [trueFalseText] at h <;> rw [← h.1] at hc <;> exact hc (by decide)
    · rintro _ _ ⟨⟩
      exact ⟨_, _, a⟩
  · rw [e]
    refine ⟨by simp [h], ?_⟩
    rintro _ _ ⟨⟩

/-- **C95 (true and false)** What is read is `true` or `false` with white space around it, and it is written as it was. -/
theorem flag_written {b : Bool} (h : ListOf.parseString trueFalse t = .ok b q) :
    ∃ w u w', t = w ++ (u ++ w') ∧ Wide w ∧ Wide w' ∧ trueFalseText b = u ∧ ((b = true ∧ u = "true".toList) ∨ (b = false ∧ u = "false".toList)) := by
  obtain ⟨w, u, p, rfl, hw, hu, e, a⟩ := start t
  obtain ⟨_, p0, e0, h⟩ := bind_ok h
  rw [e] at e0
  cases e0
  obtain ⟨x', p1, e1, h⟩ := bind_ok h
  obtain ⟨_, p2, e2, h⟩ := bind_ok h
  obtain ⟨_, p3, e3, h⟩ := bind_ok h
  cases h
  rcases flag_cases a with ⟨_, e'⟩ | ⟨c, r, q, rfl, _, e', a'⟩ | ⟨_, _, q, e'⟩
  · rw [e'] at e1; cases e1
  · rw [e'] at e1
    cases e1
    exact ⟨w, _, r, rfl, hw, rest_done a' e2 e3, rfl, by cases b <;> simp [trueFalseText]⟩
  · rw [e'] at e1; cases e1

/-- **C95 (true and false: read)** `true` and `false` are read. -/
theorem flag_kept (b : Bool) (hw : Wide w) (hw' : White w') :
    ∃ q, ListOf.parseString trueFalse (w ++ ((if b then "true".toList else "false".toList) ++ w')) = .ok b q := by
  have hb : Bare ((if b then "true".toList else "false".toList) ++ w') := by
    intro c r h
    cases b <;> simp at h <;> rw [← h.1] <;> decide
  refine finish_ok hw hb fun p hp => ?_
  rcases flag_cases hp with ⟨⟨c, r, h, hc⟩, _⟩ | ⟨c, r, q, h, hr, e, a⟩ | ⟨_, h', _⟩
  · exfalso
    cases b <;> simp at h <;> rw [← h.1] at hc <;> exact hc (by decide)
  · have : b = c ∧ w' = r := by cases b <;> cases c <;> simp [trueFalseText] at h <;> simp [h]
    obtain ⟨rfl, rfl⟩ := this
    exact ⟨q, _, _, e, a, wide_xml hw'⟩
  · exact absurd (ends_xml hw') (h' b w' rfl)

theorem undefined_cases (hp : At p pre rest) :
    (Foreign rest ∧ trueFalseUndefined p = .panic) ∨
    (∃ b r q, rest = trueFalseUndefinedText b ++ r ∧ Ends isNameChar r ∧ trueFalseUndefined p = .ok b q ∧ At q (pre ++ trueFalseUndefinedText b) r) ∨
    (¬ Foreign rest ∧ (∀ b r, rest = trueFalseUndefinedText b ++ r → ¬ Ends isNameChar r) ∧ ∃ q, trueFalseUndefined p = .err q) := by
  have hname : Name "undefined".toList := ⟨'u', ['n', 'd', 'e', 'f', 'i', 'n', 'e', 'd'], rfl, by decide, by decide, by decide⟩
  rcases ident_cases hp with ⟨h, e⟩ | ⟨s, r, q, rfl, hs, hr, e, a, hi⟩ | ⟨h, hn, q, e, hi⟩
  · refine .inl ⟨h, ?_⟩
    have : (p.tryParse fun p => p.expectIdentMatching "undefined".toList) = .panic := by
      simp only [Parser.tryParse, Parser.expectIdentMatching, e, Res.bind]
    rw [trueFalseUndefined, this]
  · by_cases h1 : s = "undefined".toList
    · subst h1
      have : (p.tryParse fun p => p.expectIdentMatching "undefined".toList) = .ok () q :=
        tryParse_ok (by rw [Parser.expectIdentMatching, e]; simp only [Res.bind, if_true])
      exact .inr (.inl ⟨none, r, q, rfl, hr, by rw [trueFalseUndefined, this], a⟩)
    · have : (p.tryParse fun p => p.expectIdentMatching "undefined".toList) = .err p :=
        tryParse_err (q := q) (by rw [Parser.expectIdentMatching, e]; simp only [Res.bind, if_neg h1]) hi
      have e2 : trueFalseUndefined p = (trueFalse p).bind fun b q => .ok (some b) q := by rw [trueFalseUndefined, this]
      rcases flag_cases hp with ⟨h, _⟩ | ⟨b, r', q', h, hr', e', a'⟩ | ⟨h, h', q', e'⟩
      · exact absurd h (not_foreign hs)
      · exact .inr (.inl ⟨some b, r', q', h, hr', by rw [e2, e']; rfl, a'⟩)
      · refine .inr (.inr ⟨h, ?_, q', by rw [e2, e']; rfl⟩)
        intro b r' hb hr'
        cases b with
        | some b => exact h' b r' hb hr'
        | none => exact h1 (name_unique hs hr hname hr' hb).1
  · have : (p.tryParse fun p => p.expectIdentMatching "undefined".toList) = .err p :=
      tryParse_err (q := q) (by rw [Parser.expectIdentMatching, e]; rfl) hi
    have e2 : trueFalseUndefined p = (trueFalse p).bind fun b q => .ok (some b) q := by rw [trueFalseUndefined, this]
    rcases flag_cases hp with ⟨h', _⟩ | ⟨b, r', q', h', hr', e', a'⟩ | ⟨h, h', q', e'⟩
    · exact absurd h' h
    · exact .inr (.inl ⟨some b, r', q', h', hr', by rw [e2, e']; rfl, a'⟩)
    · refine .inr (.inr ⟨h, ?_, q', by rw [e2, e']; rfl⟩)
      intro b r' hb hr'
      cases b with
      | some b => exact h' b r' hb hr'
      | none => exact hn _ r' hb hname

/-- **C95 (true, false and undefined)** What is read is `true`, `false` or `undefined` with white space around it, and it is written as it was. -/
theorem undefined_written {b : Option Bool} (h : ListOf.parseString trueFalseUndefined t = .ok b q) :
    ∃ w u w', t = w ++ (u ++ w') ∧ Wide w ∧ Wide w' ∧ trueFalseUndefinedText b = u ∧
      ((b = some true ∧ u = "true".toList) ∨ (b = some false ∧ u = "false".toList) ∨ (b = none ∧ u = "undefined".toList)) := by
  obtain ⟨w, u, p, rfl, hw, hu, e, a⟩ := start t
  obtain ⟨_, p0, e0, h⟩ := bind_ok h
  rw [e] at e0
  cases e0
  obtain ⟨x', p1, e1, h⟩ := bind_ok h
  obtain ⟨_, p2, e2, h⟩ := bind_ok h
  obtain ⟨_, p3, e3, h⟩ := bind_ok h
  cases h
  rcases undefined_cases a with ⟨_, e'⟩ | ⟨c, r, q, rfl, _, e', a'⟩ | ⟨_, _, q, e'⟩
  · rw [e'] at e1; cases e1
  · rw [e'] at e1
    cases e1
    refine ⟨w, _, r, rfl, hw, rest_done a' e2 e3, rfl, ?_⟩
    rcases b with _ | _ | _
    · exact .inr (.inr ⟨rfl, rfl⟩)
    · exact .inr (.inl ⟨rfl, rfl⟩)
    · exact .inl ⟨rfl, rfl⟩
  · rw [e'] at e1; cases e1

/-- **C95 (true, false and undefined: read)** The three words are read. -/
theorem undefined_kept (b : Option Bool) (hw : Wide w) (hw' : White w') : ∃ q, ListOf.parseString trueFalseUndefined
    (w ++ ((match b with | some true => "true".toList | some false => "false".toList | none => "undefined".toList) ++ w')) = .ok b q := by
  have hn : ∀ b, Name (trueFalseUndefinedText b) := by
    intro b
    rcases b with _ | _ | _
    · exact ⟨'u', ['n', 'd', 'e', 'f', 'i', 'n', 'e', 'd'], rfl, by decide, by decide, by decide⟩
    · exact ⟨'f', ['a', 'l', 's', 'e'], rfl, by decide, by decide, by decide⟩
    · exact ⟨'t', ['r', 'u', 'e'], rfl, by decide, by decide, by decide⟩
  have et : (match b with | some true => "true".toList | some false => "false".toList | none => "undefined".toList) = trueFalseUndefinedText b := by
    rcases b with _ | _ | _ <;> rfl
  rw [et]
  refine finish_ok hw (name_bare (hn b)) fun p hp => ?_
  have hcases := undefined_cases hp
  clear et
  generalize hT : trueFalseUndefinedText = T at *
  rcases hcases with ⟨h, _⟩ | ⟨c, r, q, h, hr, e, a⟩ | ⟨_, h', _⟩
  · exact absurd h (not_foreign (hn b))
  · obtain ⟨h1, rfl⟩ := name_unique (hn b) (ends_xml hw') (hn c) hr h
    have : b = c := by
      subst hT
      rcases b with _ | _ | _ <;> rcases c with _ | _ | _ <;> first | rfl | exact absurd h1 (by decide)
    subst this
    exact ⟨q, _, _, e, a, wide_xml hw'⟩
  · exact absurd (ends_xml hw') (h' b w' rfl)

/-! ## Boolean attributes -/

theorem bare_skip (hp : At p pre rest) (h : Bare rest) : ∃ q, p.skipWhitespace = .ok () q ∧ At q pre rest := by
  obtain ⟨q, e, a, _⟩ := hp.skipMatches_at isWhitespace
  refine ⟨q, e, ?_⟩
  cases rest with
  | nil => simpa using a
  | cons c l =>
    have : isWhitespace c = false := by
      cases hc : isWhitespace c with
      | false => rfl
      | true => exact absurd ((whitespace_iff c).mp hc) (h c l rfl)
    simpa [this] using a

theorem boolean_cases (hp : At p pre rest) (hb : Bare rest) :
    (Foreign rest ∧ boolean p = .panic) ∨
    (∃ s r q, rest = s ++ r ∧ Name s ∧ Ends isNameChar r ∧ boolean p = .ok (some s) q ∧ At q (pre ++ s) r) ∨
    (¬ Foreign rest ∧ (∀ s r, rest = s ++ r → ¬ Name s) ∧ ∃ q, boolean p = .ok none q ∧ At q pre rest) := by
  obtain ⟨p', e0, a0⟩ := bare_skip hp hb
  rcases ident_cases a0 with ⟨h, e⟩ | ⟨s, r, q, h, hs, hr, e, a, _⟩ | ⟨h, hn, q, e, hi⟩
  · refine .inl ⟨h, ?_⟩
    rw [boolean, e0]
    simp only [Res.bind, Parser.tryParse, e]
  · refine .inr (.inl ⟨s, r, q, h, hs, hr, ?_, a⟩)
    rw [boolean, e0]
    simp only [Res.bind, Parser.tryParse, e]
  · refine .inr (.inr ⟨h, hn, p', ?_, a0⟩)
    rw [boolean, e0]
    simp only [Res.bind, tryParse_err (f := fun p => p.expectIdent) e hi]

/-- **C95 (boolean attributes: crash)** -/
theorem boolean_panic (t : List Char) : ListOf.parseString boolean t = .panic ↔ Odd t := by
  refine panic_of (fun p pre rest hp hb => ?_) t
  rcases boolean_cases hp hb with ⟨h, e⟩ | ⟨s, r, q, rfl, h2, _, e, a⟩ | ⟨h, _, q, e, a⟩
  · rw [e]; simp [h]
  · rw [e]
    refine ⟨by simp [not_foreign h2], ?_⟩
    rintro _ _ ⟨⟩
    exact ⟨_, _, a⟩
  · rw [e]
    refine ⟨by simp [h], ?_⟩
    rintro _ _ ⟨⟩
    exact ⟨_, _, a⟩

/-- **C95 (boolean attributes)** What is read is nothing but white space, or an XML name with white space around it; it is written as nothing. -/
theorem boolean_written {x : Option (List Char)} (h : ListOf.parseString boolean t = .ok x q) : booleanText x = [] ∧
    ((x = none ∧ Wide t) ∨ ∃ w s w', x = some s ∧ t = w ++ (s ++ w') ∧ Wide w ∧ Wide w' ∧ XmlName s ∧ Ascii s) := by
  refine ⟨rfl, ?_⟩
  obtain ⟨w, u, p, rfl, hw, hu, e, a⟩ := start t
  obtain ⟨_, p0, e0, h⟩ := bind_ok h
  rw [e] at e0
  cases e0
  obtain ⟨x', p1, e1, h⟩ := bind_ok h
  obtain ⟨_, p2, e2, h⟩ := bind_ok h
  obtain ⟨_, p3, e3, h⟩ := bind_ok h
  cases h
  rcases boolean_cases a hu with ⟨_, e'⟩ | ⟨s, r, q, rfl, h2, _, e', a'⟩ | ⟨_, _, q, e', a'⟩
  · rw [e'] at e1; cases e1
  · rw [e'] at e1
    cases e1
    have := (name_iff s).mp h2
    exact .inr ⟨w, s, r, rfl, rfl, hw, rest_done a' e2 e3, this.1, this.2.1⟩
  · rw [e'] at e1
    cases e1
    exact .inl ⟨rfl, wide_append hw (rest_done a' e2 e3)⟩

/-- **C95 (boolean attributes: read)** Nothing but white space is read, and so is every XML name that begins with an ASCII character and has no `Ö` in
it. -/
theorem boolean_kept (hw : Wide w) (hs : s = [] ∨ (XmlName s ∧ Ascii s ∧ ∀ c ∈ s, c.toNat ≠ 0xD6)) (hw' : White w') :
    ∃ q, ListOf.parseString boolean (w ++ (s ++ w')) = .ok (if s = [] then none else some s) q := by
  rcases hs with rfl | hs
  · have : w ++ ([] ++ w') = (w ++ w') ++ [] := by simp
    rw [this]
    refine finish_ok (wide_append hw (wide_xml hw')) (by intro c r h; cases h) fun p hp => ?_
    rcases boolean_cases hp (by intro c r h; cases h) with ⟨⟨c, r, h, _⟩, _⟩ | ⟨s, r, q, h, ⟨c, m, rfl, _⟩, _⟩ | ⟨_, _, q, e, a⟩
    · cases h
    · cases h
    · exact ⟨q, _, [], e, a, wide_nil⟩
  · have hn := (name_iff s).mpr hs
    have hne : s ≠ [] := by obtain ⟨c, m, rfl, _⟩ := hn; simp
    rw [if_neg hne]
    refine finish_ok hw (name_bare hn) fun p hp => ?_
    rcases boolean_cases hp (name_bare hn) with ⟨h, _⟩ | ⟨s', r, q, h1, h2, h3, e, a⟩ | ⟨_, h', _⟩
    · exact absurd h (not_foreign hn)
    · obtain ⟨rfl, rfl⟩ := name_unique hn (ends_xml hw') h2 h3 h1
      exact ⟨q, _, _, e, a, wide_xml hw'⟩
    · exact absurd hn (h' s w' rfl)

/-! ## Ids -/

theorem id_run (hp : At p pre rest) (hb : Bare rest) : ∃ q, At q (pre ++ rest.takeWhile fun c => !isWhitespace c) (rest.dropWhile fun c => !isWhitespace c) ∧
    nonWhitespace p = if (rest.takeWhile fun c => !isWhitespace c).isEmpty then .err q else .ok (rest.takeWhile fun c => !isWhitespace c) q := by
  obtain ⟨p', e0, a0⟩ := bare_skip hp hb
  obtain ⟨q, e, a, _⟩ := a0.takeMatches fun c => !isWhitespace c
  refine ⟨q, a, ?_⟩
  rw [nonWhitespace, e0]
  simp only [Res.bind, e]

/-- **C95 (ids)** A text is read as an id exactly if it is some characters without white space among them, with white space around them; the id is these
characters. -/
theorem id_iff (x : List Char) (t : List Char) : (∃ q, ListOf.parseString nonWhitespace t = .ok x q) ↔
    ∃ w w', t = w ++ (x ++ w') ∧ Wide w ∧ Wide w' ∧ x ≠ [] ∧ ∀ c ∈ x, c.toNat ∉ whiteSpace := by
  constructor
  · rintro ⟨q, h⟩
    obtain ⟨w, u, p, rfl, hw, hu, e, a⟩ := start t
    obtain ⟨_, p0, e0, h⟩ := bind_ok h
    rw [e] at e0
    cases e0
    obtain ⟨x', p1, e1, h⟩ := bind_ok h
    obtain ⟨_, p2, e2, h⟩ := bind_ok h
    obtain ⟨_, p3, e3, h⟩ := bind_ok h
    cases h
    obtain ⟨q', a', e'⟩ := id_run a hu
    rw [e'] at e1
    split at e1
    · cases e1
    · rename_i hne
      cases e1
      refine ⟨w, u.dropWhile fun c => !isWhitespace c, by rw [List.takeWhile_append_dropWhile], hw, rest_done a' e2 e3, by simpa using hne, ?_⟩
      intro c hc hm
      have := List.all_eq_true.mp (List.all_takeWhile (p := fun c => !isWhitespace c) (l := u)) c hc
      rw [(whitespace_iff c).mpr hm] at this
      cases this
  · rintro ⟨w, w', rfl, hw, hw', hne, hx⟩
    have hx' : ∀ c ∈ x, (!isWhitespace c) = true := by
      intro c hc
      cases h : isWhitespace c with
      | false => rfl
      | true => exact absurd ((whitespace_iff c).mp h) (hx c hc)
    have hb : Bare (x ++ w') := by
      obtain ⟨c, m, rfl⟩ := List.exists_cons_of_ne_nil hne
      intro c' r h
      cases h
      exact hx c (by simp)
    have hd : w'.takeWhile (fun c => !isWhitespace c) = [] ∧ w'.dropWhile (fun c => !isWhitespace c) = w' := by
      cases w' with
      | nil => simp
      | cons c l =>
        have := (whitespace_iff c).mpr (hw' c (by simp))
        simp [this]
    refine finish_ok hw hb fun p hp => ?_
    obtain ⟨q, a, e⟩ := id_run hp hb
    rw [List.takeWhile_append_of_pos hx', List.dropWhile_append_of_pos hx', hd.1, hd.2, List.append_nil] at a
    rw [List.takeWhile_append_of_pos hx', hd.1, List.append_nil, if_neg (by simpa using hne)] at e
    exact ⟨q, _, _, e, a, hw'⟩

/-- **C95 (ids: no crash)** Reading an id never panics. -/
theorem id_no_panic (t : List Char) : ListOf.parseString nonWhitespace t ≠ .panic := by
  obtain ⟨w, u, p, rfl, hw, hu, e, a⟩ := start t
  obtain ⟨q', a', e'⟩ := id_run a hu
  obtain ⟨q2, e2, _, e3⟩ := ending a'
  rw [ListOf.parseString, e]
  by_cases hE : (u.takeWhile fun c => !isWhitespace c).isEmpty = true
  · rw [if_pos hE] at e'
    simp [Res.bind, e']
  · rw [if_neg hE] at e'
    simp only [Res.bind, e', e2]
    cases e4 : q2.expectDone with
    | panic => exact absurd e4 e3
    | err _ => simp
    | ok _ _ => simp

/-- **C95 (violated: names that are not ASCII)** Valid names that do not begin with an ASCII character panic, as a `target`, as the input of a filter
primitive and as the name of a colour profile. -/
theorem foreign_violated (hs : XmlName s) (hb : Bare s) (ha : ¬ Ascii s) : ListOf.parseString target s = .panic ∧
    ListOf.parseString inParse s = .panic ∧ ListOf.parseString profile s = .panic := by
  rw [target_panic, in_panic, profile_panic]
  obtain ⟨c, m, rfl, _⟩ := hs
  have : Odd (c :: m) := ⟨[], c, m, rfl, wide_nil, hb c m rfl, by
    by_contra h
    exact ha ⟨c, m, rfl, by omega⟩⟩
  exact ⟨this, this, this⟩

/-! ## Examples -/

/-- A frame with a Greek name. -/
example : ListOf.parseString target " οθόνη".toList = .panic :=
  (target_panic _).mpr ⟨[' '], 'ο', "θόνη".toList, rfl, by intro c hc; simp at hc; subst hc; decide, by decide, by decide⟩

example : ∃ q, ListOf.parseString nonWhitespace " κύκλος\n".toList = .ok "κύκλος".toList q :=
  (id_iff _ _).mpr ⟨[' '], ['\n'], rfl, wide_xml (by simp [White]), wide_xml (by simp [White]), by decide, by decide⟩

example : ["_blank ", "_Blank", "view.1 "].map (fun t => textOf targetText (ListOf.parseString target t.toList)) =
      [some "_blank".toList, some "_Blank".toList, some "view.1 ".toList] ∧
    ["SourceAlpha", " blur_1", "blur ", "1", "a b", "LÖsung"].map (fun t => textOf inText (ListOf.parseString inParse t.toList)) =
      [some "SourceAlpha".toList, some "blur_1".toList, none, none, none, none] ∧
    ["SRGB ", "other"].map (fun t => textOf profileText (ListOf.parseString profile t.toList)) = [some "sRGB".toList, some "other".toList] ∧
    ["true", " false ", "True", "1"].map (fun t => textOf trueFalseText (ListOf.parseString trueFalse t.toList)) =
      [some "true".toList, some "false".toList, none, none] ∧
    ["", " ", "autofocus", "1"].map (fun t => textOf booleanText (ListOf.parseString boolean t.toList)) = [some [], some [], some [], none] := by
  decide +kernel

end Verif.Words
