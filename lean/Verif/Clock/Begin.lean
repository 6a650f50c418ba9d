import Verif.Clock.Fails

/-! # Property C88: when animations begin and end -/

namespace Verif.Clock

open Verif.Parse Verif.Number

variable {p q : Parser} {pre r t x : List Char} {v : ℚ}

/-! ## Characters of names -/

theorem ascii_name : ∀ n < 128, (plainChar (Char.ofNat n) = true → isNameChar (Char.ofNat n) = true ∧
    isSign (Char.ofNat n) = false ∧ isWhitespace (Char.ofNat n) = false ∧ Char.ofNat n ≠ '.' ∧ Char.ofNat n ≠ ':' ∧
    Char.ofNat n ≠ '\\') ∧
    (((Char.ofNat n).isAlpha || Char.ofNat n == '_') = true → isNameStartChar (Char.ofNat n) = true ∧
      (Char.ofNat n).isDigit = false) := by
  decide +kernel

theorem alpha_range {c : Char} (h : c.isAlpha = true) : c.toNat < 128 := by
  simp only [Char.isAlpha, Char.isUpper, Char.isLower, ge_iff_le, Bool.or_eq_true, Bool.and_eq_true, decide_eq_true_eq,
    UInt32.le_iff_toNat_le] at h
  have e : c.toNat = c.val.toNat := rfl
  have a : (65 : UInt32).toNat = 65 := rfl
  have b : (90 : UInt32).toNat = 90 := rfl
  have d : (97 : UInt32).toNat = 97 := rfl
  have f : (122 : UInt32).toNat = 122 := rfl
  rcases h with ⟨h1, h2⟩ | ⟨h1, h2⟩
  · have h2' : c.val.toNat ≤ 90 := h2
    omega
  · have h2' : c.val.toNat ≤ 122 := h2
    omega

theorem plain_range {c : Char} (h : plainChar c = true) : c.toNat < 128 := by
  simp only [plainChar, Bool.or_eq_true, beq_iff_eq] at h
  rcases h with (h | h) | h
  · exact alpha_range h
  · have := digit_range h; omega
  · subst h; decide

theorem plain_facts {c : Char} (h : plainChar c = true) : isNameChar c = true ∧ isSign c = false ∧ isWhitespace c = false ∧
    c ≠ '.' ∧ c ≠ ':' ∧ c ≠ '\\' ∧ c.utf8Size = 1 := by
  have hr := plain_range h
  have := (ascii_name c.toNat hr).1
  rw [Char.ofNat_toNat] at this
  obtain ⟨h1, h2, h3, h4, h5, h6⟩ := this h
  exact ⟨h1, h2, h3, h4, h5, h6, alpha_size hr⟩

theorem start_plain {c : Char} (h : (c.isAlpha || c == '_') = true) : plainChar c = true := by
  simp only [Bool.or_eq_true] at h
  rcases h with h | h <;> simp [plainChar, h]

theorem start_facts {c : Char} (h : (c.isAlpha || c == '_') = true) : isNameStartChar c = true ∧ c.isDigit = false := by
  have := (ascii_name c.toNat (plain_range (start_plain h))).2
  rw [Char.ofNat_toNat] at this
  exact this h

theorem start_other {c : Char} (h : (c.isAlpha || c == '_') = true) : Other c := by
  have h1 := plain_facts (start_plain h)
  exact ⟨(start_facts h).2, h1.2.2.2.1, h1.2.1, h1.2.2.1, h1.2.2.2.2.2.2⟩

theorem white_facts {c : Char} (h : c = ' ' ∨ c = '\t' ∨ c = '\n' ∨ c = '\r') : isNameChar c = false ∧ c ≠ '(' ∧ c.utf8Size = 1 ∧ c ≠ '+' ∧
    c ≠ '-' ∧ isNameStartChar c = false ∧ c ≠ '0' ∧ c ≠ '\\' ∧ isWhitespace c = true := by
  rcases h with rfl | rfl | rfl | rfl <;> decide

/-! ## The words in front of other values -/

/-- The names read in this file: a start character and name characters without a sign. -/
structure Word (l : List Char) : Prop where
  start : ∃ c u, l = c :: u ∧ (c.isAlpha || c == '_') = true
  chars : ∀ c ∈ l, isNameChar c = true ∧ isSign c = false

/-- What follows a name: nothing, or a character of no name, or `-` and characters without a sign. -/
inductive Behind : List Char → List Char → Prop
  | none : Behind [] []
  | other (c : Char) (u : List Char) : isNameChar c = false → c ≠ '(' → c.utf8Size = 1 → Behind [] (c :: u)
  | dash (u : List Char) : (∀ c ∈ u.takeWhile isNameChar, isSign c = false) → Behind ('-' :: u.takeWhile isNameChar) ('-' :: u)

theorem dash_name : isNameChar '-' = true := by decide

theorem word_start_ascii {l : List Char} (h : Word l) (o : List Char) : AsciiHead (l ++ o) := by
  obtain ⟨c, u, rfl, hc⟩ := h.start
  exact ascii_head_cons.mpr (plain_facts (start_plain hc)).2.2.2.2.2.2

/-- The identifier read in front of what follows a name. -/
theorem word_ident {l back o : List Char} (h : Word l) (hb : Behind back o) (hp : At p pre (l ++ o)) :
    ∃ q, p.expectIdent = .ok (l ++ back) q ∧ q.input = p.input ∧ ∃ o', o = back ++ o' ∧ At q (pre ++ (l ++ back)) o' := by
  obtain ⟨q, hi, hq⟩ := expectIdent_spec hp (word_start_ascii h o)
  obtain ⟨c, u, rfl, hc⟩ := h.start
  have hu : ∀ x ∈ u, isNameChar x = true := fun x hx => (h.chars x (by simp [hx])).1
  simp only [List.cons_append, (start_facts hc).1, if_true] at hq
  rw [List.takeWhile_append_of_pos hu, List.dropWhile_append_of_pos hu] at hq
  refine ⟨q, ?_, hi, ?_⟩
  · rw [hq.1]
    congr 1
    cases hb with
    | none => simp
    | other c' u' h1 _ => simp [h1]
    | dash u' h1 => simp [dash_name]
  · refine ⟨o.dropWhile isNameChar, ?_, ?_⟩
    · cases hb with
      | none => simp
      | other c' u' h1 _ => simp [h1]
      | dash u' h1 => simp [dash_name]
    · have hh := hq.2
      cases hb with
      | none => simpa using hh
      | other c' u' h1 _ => simpa [h1] using hh
      | dash u' h1 => simpa [dash_name] using hh

/-- A keyword that is not the name. -/
theorem keyword_fails {l back o k : List Char} (h : Word l) (hb : Behind back o) (hp : At p pre (l ++ o)) (hk : l ++ back ≠ k) :
    ∃ q, p.expectIdentMatching k = .err q ∧ q.input = p.input := by
  obtain ⟨q, e, hi, _⟩ := word_ident h hb hp
  refine ⟨q, ?_, hi⟩
  rw [Parser.expectIdentMatching, e]
  simp [Res.bind, hk]

theorem paren_fails {l back o k : List Char} (h : Word l) (hb : Behind back o) (hp : At p pre (l ++ o)) (hk : '-' ∉ k) :
    ∃ q, ((p.expectIdentMatching k).bind fun _ p => p.expectChar '(') = .err q ∧ q.input = p.input := by
  obtain ⟨q, e, hi, o', ho, hq⟩ := word_ident h hb hp
  by_cases hkk : l ++ back = k
  · have hne : (∀ u, o' ≠ '(' :: u) ∧ AsciiHead o' := by
      cases hb with
      | none =>
        simp only [List.nil_append] at ho
        subst ho
        exact ⟨by simp, by intro c t e; simp at e⟩
      | other c u h1 h2 h3 =>
        simp only [List.nil_append] at ho
        subst ho
        exact ⟨fun w e => h2 (by simp only [List.cons.injEq] at e; exact e.1), ascii_head_cons.mpr h3⟩
      | dash u h1 => exact absurd (by rw [← hkk]; simp) hk
    obtain ⟨q', e', hi'⟩ := expectChar_err (c := '(') hq hne.1 hne.2
    refine ⟨q', ?_, by rw [hi', hi]⟩
    rw [Parser.expectIdentMatching, e]
    simp [Res.bind, hkk, e']
  · refine ⟨q, ?_, hi⟩
    rw [Parser.expectIdentMatching, e]
    simp [Res.bind, hkk]

theorem bind_bind {α β γ : Type} (a : Res α) (f : α → Parser → Res β) (g : β → Parser → Res γ) :
    (a.bind f).bind g = a.bind fun x p => (f x p).bind g := by cases a <;> rfl

theorem key_fails {l back o : List Char} (h : Word l) (hb : Behind back o) (hp : At p pre (l ++ o)) : p.tryParse parseKey = .err p := by
  obtain ⟨q, e, hi⟩ := paren_fails h hb hp (k := "accessKey".toList) (by decide)
  refine tryParse_err (q := q) ?_ hi
  have : ∀ {γ : Type} (g : Unit → Parser → Res γ), (p.expectIdentMatching "accessKey".toList).bind (fun _ p => (p.expectChar '(').bind g) = .err q := by
    intro γ g
    rw [← bind_bind, e]
    rfl
  exact this _

theorem wallclock_fails {l back o : List Char} (h : Word l) (hb : Behind back o) (hp : At p pre (l ++ o)) :
    p.tryParse parseWallclock = .err p := by
  obtain ⟨q, e, hi⟩ := paren_fails h hb hp (k := "wallclock".toList) (by decide)
  refine tryParse_err (q := q) ?_ hi
  have : ∀ {γ : Type} (g : Unit → Parser → Res γ), (p.expectIdentMatching "wallclock".toList).bind (fun _ p => (p.expectChar '(').bind g) = .err q := by
    intro γ g
    rw [← bind_bind, e]
    rfl
  exact this _

theorem clock_other {l o : List Char} (h : Word l) (hp : At p pre (l ++ o)) (hl : (l ++ o).getLast? ≠ some '.') :
    p.tryParse (fun p => (ClockValue.parse p).bind fun c p => Res.ok (BeginEnd.offset c) p) = .err p := by
  obtain ⟨c, u, rfl, hc⟩ := h.start
  obtain ⟨q, e, hi⟩ := clock_fails (w := []) (g := []) (minus := false) (by intro x hx; simp at hx) (.inl ⟨rfl, rfl⟩)
    (c := c) (u := u ++ o) (by simpa using hp) (start_other hc) (by simpa using hl)
  refine tryParse_err (q := q) ?_ hi
  rw [e]
  rfl

/-- In front of a name that is not `indefinite`, only events and other elements are left. -/
theorem begin_word {l back o : List Char} (h : Word l) (hb : Behind back o) (hp : At p pre (l ++ o))
    (hl : (l ++ o).getLast? ≠ some '.') (hk : l ++ back ≠ "indefinite".toList) : BeginEnd.parse p = events p := by
  obtain ⟨q, e, hi⟩ := keyword_fails h hb hp hk
  have h1 : p.tryParse (fun p => (p.expectIdentMatching "indefinite".toList).bind fun _ p => Res.ok BeginEnd.indefinite p) = .err p := by
    refine tryParse_err (q := q) ?_ hi
    rw [e]
    rfl
  simp only [BeginEnd.parse, h1, orElse, clock_other h hp hl, key_fails h hb hp, wallclock_fails h hb hp]

/-! ## The name and its offset -/

theorem split_none {l : List Char} (h : ∀ c ∈ l, isSign c = false) : splitLastSign l = none := by
  have : l.reverse.dropWhile (fun c => !isSign c) = [] := drop_all fun x hx => by simp [h x (List.mem_reverse.mp hx)]
  simp [splitLastSign, this]

theorem split_dash {l b : List Char} (h : ∀ c ∈ b, isSign c = false) : splitLastSign (l ++ '-' :: b) = some (l, '-' :: b) := by
  have hs : isSign '-' = true := by decide
  have h1 : ∀ x ∈ b.reverse, (!isSign x) = true := fun x hx => by simp [h x (List.mem_reverse.mp hx)]
  have e1 : (l ++ '-' :: b).reverse.takeWhile (fun c => !isSign c) = b.reverse := by
    simp only [List.reverse_append, List.reverse_cons, List.append_assoc]
    rw [List.takeWhile_append_of_pos h1]
    simp [hs]
  have e2 : (l ++ '-' :: b).reverse.dropWhile (fun c => !isSign c) = '-' :: l.reverse := by
    simp only [List.reverse_append, List.reverse_cons, List.append_assoc]
    rw [List.dropWhile_append_of_pos h1]
    simp [hs]
  simp only [splitLastSign, e1, e2, List.reverse_reverse]

theorem rewind_at {a b : List Char} (h : At p (pre ++ (a ++ b)) r) : ∃ q, p.rewind (width b) = .ok () q ∧ At q (pre ++ a) (b ++ r) ∧ q.input = p.input := by
  have hc : p.cursor = width pre + width a + width b := by rw [h.2, width_append, width_append]; omega
  refine ⟨{ p with cursor := p.cursor - width b }, ?_, ⟨?_, ?_⟩, rfl⟩
  · rw [Parser.rewind, if_pos (by omega)]
  · rw [show ({ p with cursor := p.cursor - width b } : Parser).input = p.input from rfl, h.1]
    simp
  · show p.cursor - width b = _
    rw [hc, width_append]
    omega

/-- The name is read up to its offset. -/
theorem events_at {l back o : List Char} (h : Word l) (hb : Behind back o) (hp : At p pre (l ++ o)) :
    ∃ q, events p = fromName l q ∧ At q (pre ++ l) o ∧ q.input = p.input := by
  obtain ⟨q, e, hi, o', ho, hq⟩ := word_ident h hb hp
  cases hb with
  | none =>
    refine ⟨q, ?_, by rw [ho]; simpa using hq, hi⟩
    rw [events, e]
    simp only [Res.bind, List.append_nil, split_none fun c hc => (h.chars c hc).2]
  | other c u h1 h2 h3 =>
    refine ⟨q, ?_, by rw [ho]; simpa using hq, hi⟩
    rw [events, e]
    simp only [Res.bind, List.append_nil, split_none fun c hc => (h.chars c hc).2]
  | dash u h1 =>
    obtain ⟨q', e', hq', hi'⟩ := rewind_at hq
    refine ⟨q', ?_, by rw [ho]; exact hq', by rw [hi', hi]⟩
    rw [events, e]
    simp only [Res.bind, split_dash h1, e']

theorem parts_dot {id ev : List Char} (h : '.' ∉ ev) : nameParts (id ++ '.' :: ev) = (some id, ev) := by
  have h1 : ∀ x ∈ ev.reverse, (x != '.') = true := fun x hx => by
    have : x ≠ '.' := fun e => h (by rw [← e]; exact List.mem_reverse.mp hx)
    simp [this]
  have e1 : (id ++ '.' :: ev).reverse.takeWhile (· != '.') = ev.reverse := by
    simp only [List.reverse_append, List.reverse_cons, List.append_assoc]
    rw [List.takeWhile_append_of_pos h1]
    simp
  have e2 : (id ++ '.' :: ev).reverse.dropWhile (· != '.') = '.' :: id.reverse := by
    simp only [List.reverse_append, List.reverse_cons, List.append_assoc]
    rw [List.dropWhile_append_of_pos h1]
    simp
  simp only [nameParts, splitLastDot, e1, e2, List.reverse_reverse]

theorem parts_plain {ev : List Char} (h : '.' ∉ ev) : nameParts ev = (none, ev) := by
  have h1 : ∀ x ∈ ev.reverse, (x != '.') = true := fun x hx => by
    have : x ≠ '.' := fun e => h (by rw [← e]; exact List.mem_reverse.mp hx)
    simp [this]
  simp only [nameParts, splitLastDot, drop_all h1]

/-! ## Offsets behind names -/

theorem clock_signless (h : Clock t v) : ∀ c ∈ t, isSign c = false := by
  have dig : ∀ {d f : List Char}, Digits d → Fraction f → ∀ c ∈ d ++ f, isSign c = false := by
    intro d f hd hf c hc
    rcases List.mem_append.mp hc with hc | hc
    · exact (digit_facts (hd c hc)).2.2.2.1
    · rcases hf with rfl | ⟨e, _, he, rfl⟩
      · simp at hc
      · rcases List.mem_cons.mp hc with rfl | hc
        · decide
        · exact (digit_facts (he c hc)).2.2.2.1
  have hcol : isSign ':' = false := by decide
  cases h with
  | full h m s f h1 _ h3 h4 h5 =>
    intro c hc
    simp only [List.mem_append, List.mem_cons] at hc
    rcases hc with hc | rfl | hc | rfl | hc
    · exact dig h1 (.inl rfl) c (by simp [hc])
    · exact hcol
    · exact dig h3.1 (.inl rfl) c (by simp [hc])
    · exact hcol
    · exact dig h4.1 h5 c (by simpa using hc)
  | half m s f h3 h4 h5 =>
    intro c hc
    simp only [List.mem_append, List.mem_cons] at hc
    rcases hc with hc | rfl | hc
    · exact dig h3.1 (.inl rfl) c (by simp [hc])
    · exact hcol
    · exact dig h4.1 h5 c (by simpa using hc)
  | count d f u k h1 _ h3 h4 =>
    intro c hc
    rcases List.mem_append.mp hc with hd | hd
    · exact dig h1 h3 c hd
    · clear hc
      simp only [units, List.mem_cons, Prod.mk.injEq, List.not_mem_nil, or_false] at h4
      rcases h4 with ⟨rfl, _⟩ | ⟨rfl, _⟩ | ⟨rfl, _⟩ | ⟨rfl, _⟩ | ⟨rfl, _⟩ <;> revert c <;> decide

theorem clock_last (h : Clock t v) : t ≠ [] ∧ t.getLast? ≠ some '.' := by
  obtain ⟨c, u, e, _⟩ := clock_head h
  refine ⟨by rw [e]; simp, ?_⟩
  cases h with
  | full h m s f h1 _ h3 h4 h5 =>
    rw [show h ++ ':' :: (m ++ ':' :: (s ++ f)) = (h ++ ':' :: (m ++ [':'])) ++ (s ++ f) by simp]
    exact last_append (by simp [sixty_ne h4]) (number_last h4.1 h5)
  | half m s f h3 h4 h5 =>
    rw [show m ++ ':' :: (s ++ f) = (m ++ [':']) ++ (s ++ f) by simp]
    exact last_append (by simp [sixty_ne h4]) (number_last h4.1 h5)
  | count d f u k h1 _ h3 h4 =>
    by_cases hu : u = []
    · subst hu
      simpa using number_last h1 h3
    · exact last_append hu (unit_facts h4).2.1

/-- An offset behind a name: the sign, white space and the clock value. -/
theorem wait_shape {o : List Char} (h : Wait Clock o v) : (o = [] ∧ v = 0) ∨ ∃ w g t v' minus, o = w ++ (g ++ t) ∧ White w ∧
    SignText g minus ∧ g ≠ [] ∧ Clock t v' ∧ v = (if minus then -v' else v') ∧ (minus = true ↔ '-' ∈ o) := by
  have wm : ∀ {w : List Char}, White w → '-' ∉ w := by
    intro w hw h
    rcases hw _ h with h | h | h | h <;> simp at h
  cases h with
  | zero => exact .inl ⟨rfl, rfl⟩
  | signed w t v hw h =>
    right
    cases h with
    | plus w' t' v' h1 h2 =>
      refine ⟨w, '+' :: w', t', _, false, by simp, hw, .inr ⟨'+', w', rfl, .inl rfl, h1, rfl⟩, by simp, h2, by simp, ?_⟩
      have a := wm hw
      have b := wm h1
      have c : '-' ∉ t' := fun hc => by have := clock_signless h2 _ hc; simp [isSign] at this
      simp [a, b, c]
    | minus w' t' v' h1 h2 =>
      exact ⟨w, '-' :: w', t', _, true, by simp, hw, .inr ⟨'-', w', rfl, .inr rfl, h1, rfl⟩, by simp, h2, by simp, by simp⟩

theorem wait_behind {o : List Char} (h : Wait Clock o v) : ∃ back, Behind back o := by
  rcases wait_shape h with ⟨rfl, _⟩ | ⟨w, g, t, v', minus, rfl, hw, hg, hne, hc, _⟩
  · exact ⟨[], .none⟩
  · cases w with
    | cons c w =>
      obtain ⟨h1, h2, h3, _⟩ := white_facts (hw c (by simp))
      exact ⟨[], .other c _ h1 h2 h3⟩
    | nil =>
      rcases hg with ⟨rfl, _⟩ | ⟨c, w', rfl, hs, hw', _⟩
      · exact absurd rfl hne
      · rcases hs with rfl | rfl
        · exact ⟨[], .other '+' _ (by decide) (by decide) (by decide)⟩
        · refine ⟨_, .dash (w' ++ t) ?_⟩
          intro c hcc
          have hm : c ∈ w' ++ t := (List.takeWhile_sublist _).subset hcc
          rcases List.mem_append.mp hm with hm | hm
          · rcases hw' c hm with rfl | rfl | rfl | rfl <;> decide
          · exact clock_signless hc c hm

theorem wait_last {o l : List Char} (h : Wait Clock o v) (hl : l.getLast? ≠ some '.') : (l ++ o).getLast? ≠ some '.' := by
  rcases wait_shape h with ⟨rfl, _⟩ | ⟨w, g, t, v', minus, rfl, _, _, _, hc, _⟩
  · simpa using hl
  · rw [show l ++ (w ++ (g ++ t)) = (l ++ w ++ g) ++ t by simp]
    exact last_append (clock_last hc).1 (clock_last hc).2

/-- What is read of an offset. -/
inductive GotWait : List Char → ℚ → Option ClockValue → Prop
  | zero : GotWait [] 0 none
  | some (w g t : List Char) (v : ℚ) (minus : Bool) (c : ClockValue) : White w → SignText g minus → Clock t v →
      Got t v minus c → (minus = true ↔ '-' ∈ w ++ (g ++ t)) → (':' ∈ t ↔ ':' ∈ w ++ (g ++ t)) →
      GotWait (w ++ (g ++ t)) (if minus then -v else v) (some c)

theorem wait_read {o : List Char} (h : Wait Clock o v) (hb : Brief o) (hp : At p pre o) :
    ∃ oc q, (p.skipWhitespace.bind fun _ p => maybeClock p) = .ok oc q ∧ At q (pre ++ o) [] ∧ GotWait o v oc := by
  rcases wait_shape h with ⟨rfl, rfl⟩ | ⟨w, g, t, v', minus, rfl, hw, hg, hne, hc, rfl, hm⟩
  · obtain ⟨p1, e1, h1⟩ := Verif.Number.At.skip (t := []) hp (f := isWhitespace) (by simp) (by intro x w e; simp at e)
    obtain ⟨q, e, hi⟩ := clock_end h1
    refine ⟨none, p1, ?_, by simpa using h1, .zero⟩
    rw [Parser.skipWhitespace, e1]
    simp only [Res.bind, maybeClock, tryParse_err e hi]
  · have hgh : ∀ x y, g ++ t = x :: y → isWhitespace x = false := by
      intro x y e
      rcases hg with ⟨rfl, _⟩ | ⟨c', w', rfl, h1, _⟩
      · exact absurd rfl hne
      · simp only [List.cons_append, List.cons.injEq] at e
        rw [← e.1]
        rcases h1 with rfl | rfl <;> decide
    obtain ⟨p1, e1, h1⟩ := Verif.Number.At.skip hp (white_space hw) hgh
    have hbt : Brief t := fun d hd hi => hb d hd (hi.trans ⟨w ++ g, [], by simp⟩)
    obtain ⟨c, q, e, hq, hgot⟩ := clock_read (w := []) hc hbt (by intro x hx; simp at hx) hg (by simpa using h1)
    refine ⟨some c, q, ?_, by simpa using hq, .some w g t v' minus c hw hg hc hgot hm ?_⟩
    · rw [Parser.skipWhitespace, e1]
      simp only [Res.bind, maybeClock, tryParse_ok e]
    · have a : ':' ∉ w := by
        intro h
        rcases hw _ h with h | h | h | h <;> simp at h
      have b : ':' ∉ g := by
        rcases hg with ⟨rfl, _⟩ | ⟨c', w', rfl, h1, h2, _⟩
        · simp
        · intro h
          rcases List.mem_cons.mp h with h | h
          · rcases h1 with h1 | h1 <;> rw [h1] at h <;> simp at h
          · rcases h2 _ h with h | h | h | h <;> simp at h
      simp [a, b]

/-! ## What is written behind names -/

theorem wait_head {o : List Char} (h : Wait Loose o v) : (o = [] ∧ v = 0) ∨ ∃ c u, o = c :: u ∧ c.isDigit = false := by
  cases h with
  | zero => exact .inl ⟨rfl, rfl⟩
  | signed w t v hw h =>
    right
    cases w with
    | nil =>
      obtain ⟨u, h | h⟩ := signed_head h <;> exact ⟨_, u, h, by decide⟩
    | cons c w =>
      refine ⟨c, _, rfl, ?_⟩
      rcases hw c (by simp) with rfl | rfl | rfl | rfl <;> decide

/-- An offset that is written with a plus sign is not negative. -/
theorem wait_plus {u : List Char} (h : Wait Loose ('+' :: u) v) : 0 ≤ v := by
  generalize hx : '+' :: u = x at h
  cases h with
  | zero => simp at hx
  | signed w t v hw h =>
    cases w with
    | cons c w =>
      simp only [List.cons_append, List.cons.injEq] at hx
      rcases hw c (by simp) with e | e | e | e <;> rw [e] at hx <;> simp at hx
    | nil =>
      cases h with
      | plus w' t' v' _ h2 => exact loose_nonneg h2
      | minus w' t' v' _ h2 => simp at hx

theorem clock_nonneg (hc : Clock t v) : 0 ≤ v := by
  cases hc with
  | full h m s f _ _ _ _ _ => have := tail_nonneg f.tail; positivity
  | half m s f _ _ _ => have := tail_nonneg f.tail; positivity
  | count d f u k _ _ _ hu => have := tail_nonneg f.tail; have := (unit_facts hu).2.2.1; positivity

/-- **C88 (the offset)** What is written for the offset behind a name is an offset of the same length and direction if and
only if it is not negative with a colon, and not a negative zero that is written without its sign. -/
theorem wait_kept_iff {o z : List Char} {oc : Option ClockValue} (h : GotWait o v oc) (hz : z = "0".toList ∨ z = "-0".toList) :
    Wait Loose (offsetText z oc) v ↔ ¬ (v < 0 ∧ ':' ∈ o) ∧ ¬ (z = "0".toList ∧ v = 0 ∧ '-' ∈ o ∧ ':' ∉ o) := by
  cases h with
  | zero => simp [offsetText, Wait.zero]
  | some w g t v minus c hw hg hc hgot hm hcol =>
    rw [← hcol, ← hm]
    have h0 := clock_nonneg hc
    cases minus with
    | false =>
      have h1 := got_plus z hgot
      simp only [Bool.false_eq_true, if_false, offsetText, h1.2, not_lt.mpr h0, false_and, and_false, not_false_eq_true, and_self, iff_true]
      exact .signed [] _ _ (by intro x hx; simp at hx) (.plus [] _ _ (by intro x hx; simp at hx) h1.1)
    | true =>
      have h1 := got_minus z hgot
      simp only [if_true, offsetText, neg_eq_zero, true_and]
      by_cases hc1 : ':' ∈ t
      · rw [if_pos hc1] at h1
        simp only [hc1, not_true_eq_false, and_false, not_false_eq_true, and_true]
        by_cases hv : v = 0
        · rw [if_pos (clock_first hc hc1 hv)] at h1
          simp only [hv, neg_zero, lt_self_iff_false, not_false_eq_true, iff_true, h1.2, Bool.false_eq_true, if_false]
          rw [hv] at h1
          exact .signed [] _ _ (by intro x hx; simp at hx) (.plus [] _ _ (by intro x hx; simp at hx) h1.1)
        · have hpos : -v < 0 := by
            have : 0 < v := lt_of_le_of_ne h0 (Ne.symm hv)
            linarith
          refine iff_of_false ?_ (by simpa using hpos)
          split at h1
          · simp only [h1.2, Bool.false_eq_true, if_false, List.singleton_append]
            intro hW
            have := wait_plus hW
            linarith
          · obtain ⟨⟨u, e⟩, hn⟩ := h1
            simp only [hn, if_true, List.nil_append, e]
            intro hW
            rcases wait_head hW with ⟨h, _⟩ | ⟨c', u', h, hd⟩
            · simp at h
            · simp only [List.cons.injEq] at h
              rw [← h.1] at hd
              simp [Char.isDigit] at hd
      · rw [if_neg hc1] at h1
        simp only [hc1, and_false, not_false_eq_true, true_and, h1.1, if_true, List.nil_append, and_true]
        by_cases hv : v = 0
        · obtain ⟨u, k, hu, e⟩ := h1.2.2 hv
          rw [e, hv]
          rcases hz with rfl | rfl
          · refine iff_of_false ?_ (by simp)
            intro hW
            rcases wait_head hW with ⟨h, _⟩ | ⟨c', u', h, hd⟩
            · simp at h
            · have h' : '0' :: u = c' :: u' := h
              simp only [List.cons.injEq] at h'
              rw [← h'.1] at hd
              simp [Char.isDigit] at hd
          · refine iff_of_true ?_ (by simp)
            exact .signed [] _ _ (by intro x hx; simp at hx) (.minus [] _ _ (by intro x hx; simp at hx) (loose_zero hu))
        · obtain ⟨u, e, hl⟩ := h1.2.1 hv
          simp only [hv, and_false, not_false_eq_true, iff_true]
          rw [e]
          exact .signed [] _ _ (by intro x hx; simp at hx) (.minus [] u v (by intro c hc; simp at hc) hl)

end Verif.Clock
