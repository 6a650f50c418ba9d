import Verif.Number.Lemmas

/-! # Numbers: what the scanner reads -/

namespace Verif.Number

open Verif.Parse

variable {p q : Parser} {pre rest l : List Char}

theorem bind_ok {α β : Type} {x : Res α} {f : α → Parser → Res β} {v : β} {q : Parser} :
    x.bind f = .ok v q ↔ ∃ a r, x = .ok a r ∧ f a r = .ok v q := by
  cases x with
  | ok a r => exact ⟨fun h => ⟨a, r, rfl, h⟩, fun ⟨a', r', e, h⟩ => by cases e; exact h⟩
  | err r => simp [Res.bind]
  | panic => simp [Res.bind]

theorem takeWhile_all {f : Char → Bool} {l : List Char} : ∀ c ∈ l.takeWhile f, f c = true :=
  List.all_eq_true.mp List.all_takeWhile

/-- No character of the class stands first. -/
def Ends (f : Char → Bool) (l : List Char) : Prop := ∀ c t, l = c :: t → f c = false

theorem ends_dropWhile (f : Char → Bool) (l : List Char) : Ends f (l.dropWhile f) := by
  intro c t h
  have := List.head?_dropWhile_not f l
  rw [h] at this
  simpa using this

theorem skipMatches_ok {f : Char → Bool} (h : p.skipMatches f = .ok () q) : Good p ∧ q.input = p.input ∧
    p.cursor ≤ q.cursor := by
  have hg : Good p := by
    rw [good_iff]
    simp only [Parser.skipMatches] at h
    cases hs : p.slice with
    | none => simp [hs] at h
    | some s => exact ⟨s, rfl⟩
  obtain ⟨a, b, hat⟩ := hg
  obtain ⟨q', e1, e2, e3⟩ := hat.skipMatches_at f
  rw [e1] at h
  cases h
  refine ⟨⟨a, b, hat⟩, e3, ?_⟩
  rw [hat.2, e2.2, width_append]
  omega

theorem trim_le (c : Char) (l : List Char) : width (trimMatches c l) ≤ width (l.dropWhile (· == c)) := by
  have := congrArg width (List.takeWhile_append_dropWhile (p := (· == c)) (l := (l.dropWhile (· == c)).reverse))
  rw [width_append, width_reverse] at this
  simp only [trimMatches, width_reverse]
  omega

theorem trim_width (c : Char) (l : List Char) (h : (l.dropWhile (· == c)).getLast? ≠ some c) :
    trimMatches c l = l.dropWhile (· == c) := by
  simp only [trimMatches]
  rcases (l.dropWhile (· == c)).eq_nil_or_concat with e | ⟨m, z, e⟩
  · rw [e]; simp
  · rw [e] at h ⊢
    simp at h
    simp [List.dropWhile_cons, h]

/-- `skip_char` that is followed by another read skips the leading occurrences, and more text if the input ends with
the character. -/
theorem skipChar_ok {c : Char} (h : At p pre rest) (hs : p.skipChar c = .ok () q) (hg : Good q) :
    ∃ a b m, rest = a ++ b ∧ At q (pre ++ a) b ∧ a = rest.takeWhile (· == c) ++ m ∧
      ((rest.dropWhile (· == c)).getLast? ≠ some c → m = []) := by
  simp only [Parser.skipChar, h.slice, Parser.skipInternal, h.len] at hs
  split at hs
  case isFalse => simp at hs
  case isTrue hle =>
    cases hs
    obtain ⟨a, b, e1, e2⟩ := (good_moved h _).mp hg
    have hw := congrArg width (List.takeWhile_append_dropWhile (p := (· == c)) (l := rest))
    rw [width_append] at hw
    have hlen : width (rest.takeWhile (· == c)) ≤ width a := by
      have := trim_le c rest
      omega
    have hpre : rest.takeWhile (· == c) <+: a := by
      have hsp := List.takeWhile_append_dropWhile (p := (· == c)) (l := rest)
      rcases List.append_eq_append_iff.mp (hsp.trans e1) with ⟨m, x1, x2⟩ | ⟨m, x1, x2⟩
      · exact ⟨m, x1.symm⟩
      · rw [x1, width_append] at hlen
        have : m = [] := by
          cases m with
          | nil => rfl
          | cons y m => have := size_pos y; rw [width_cons] at hlen; omega
        subst this
        exact ⟨[], by simp [x1]⟩
    obtain ⟨m, hm⟩ := hpre
    refine ⟨a, b, m, e1, ?_, hm.symm, ?_⟩
    · subst e1
      rw [e2]
      exact h.moved
    · intro hlast
      rw [trim_width c rest hlast] at e2
      rw [← hm, width_append] at e2
      cases m with
      | nil => rfl
      | cons y m => have := size_pos y; rw [width_cons] at e2; omega

theorem skipChar_input {c : Char} (hs : p.skipChar c = .ok () q) : q.input = p.input := by
  simp only [Parser.skipChar, Parser.skipInternal] at hs
  split at hs
  · simp at hs
  · split at hs
    · simp at hs
    · split at hs
      · cases hs; rfl
      · simp at hs

/-- The text `j` skipped by `skip_char('.')` in front of `k`. -/
def Dots (j k : List Char) : Prop := ∃ m, j = (j ++ k).takeWhile (· == '.') ++ m ∧
  (((j ++ k).dropWhile (· == '.')).getLast? ≠ some '.' → m = [])

/-- digits, `.`, digits -/
theorem mantissa_ok (h : At p pre l) {a b : Parser} {z : Parser} (h0 : p.skipMatches Char.isDigit = .ok () a)
    (h1 : a.skipChar '.' = .ok () b) (h2 : b.skipMatches Char.isDigit = .ok () z) :
    ∃ d j d' r, l = d ++ j ++ d' ++ r ∧ At z (pre ++ d ++ j ++ d') r ∧ Digits d ∧ Digits d' ∧ Ends Char.isDigit r ∧
      Ends Char.isDigit (j ++ d' ++ r) ∧ Dots j (d' ++ r) := by
  obtain ⟨a', e1, e2, _⟩ := h.skipMatches_at Char.isDigit
  rw [e1] at h0; cases h0
  obtain ⟨j, k, m, e3, e4, e5, e5'⟩ := skipChar_ok e2 h1 (skipMatches_ok h2).1
  obtain ⟨z', e6, e7, _⟩ := e4.skipMatches_at Char.isDigit
  rw [e6] at h2; cases h2
  refine ⟨l.takeWhile Char.isDigit, j, k.takeWhile Char.isDigit, k.dropWhile Char.isDigit, ?_, ?_, ?_, ?_, ?_, ?_, ?_⟩
  · rw [List.append_assoc, List.append_assoc, List.takeWhile_append_dropWhile, ← e3, List.takeWhile_append_dropWhile]
  · simpa using e7
  · exact takeWhile_all
  · exact takeWhile_all
  · exact ends_dropWhile _ _
  · rw [List.append_assoc, List.takeWhile_append_dropWhile, ← e3]
    exact ends_dropWhile _ _
  · refine ⟨m, ?_, ?_⟩
    · rw [List.takeWhile_append_dropWhile, ← e3]; exact e5
    · rw [List.takeWhile_append_dropWhile, ← e3]; exact e5'

theorem body_ok (h : At p pre l) {z : Parser} (hb : exponent.body p = .ok () z) :
    ∃ d j d' r, l = l.takeWhile isSign ++ d ++ j ++ d' ++ r ∧ At z (pre ++ l.takeWhile isSign ++ d ++ j ++ d') r ∧
      Digits d ∧ Digits d' ∧ Ends Char.isDigit r ∧ Ends Char.isDigit (j ++ d' ++ r) ∧ Dots j (d' ++ r) := by
  simp only [exponent.body, bind_ok] at hb
  obtain ⟨⟨⟩, q1, h1, ⟨⟩, q2, h2, ⟨⟩, q3, h3, ⟨⟩, q4, h4, h5⟩ := hb
  obtain ⟨q1', e1, e2, _⟩ := h.skipMatches_at isSign
  rw [e1] at h1; cases h1
  obtain ⟨d, j, d', r, e3, e4, e5⟩ := mantissa_ok e2 h2 h3 h4
  split at h5
  · simp at h5
  · cases h5
    refine ⟨d, j, d', r, ?_, e4, e5⟩
    conv => lhs; rw [← List.takeWhile_append_dropWhile (p := isSign) (l := l), e3]
    simp

/-- No exponent is looked for at `l`. -/
def NoExp (l : List Char) : Prop := ∀ e t, l = e :: t → isE e = true → ∃ y t', t = y :: t' ∧ (y = 'x' ∨ y = 'm')

theorem size_e {c : Char} (h : isE c = true) : c.utf8Size = 1 := by
  simp [isE] at h; rcases h with rfl | rfl <;> decide

/-- The exponent part by the characters that follow. -/
def expCase (p : Parser) : List Char → Res Unit
  | [] => .ok () p
  | [c] => if isE c = true then exponent.body p.advance else .ok () p
  | c :: y :: _ => if isE c = true then (if y = 'x' ∨ y = 'm' then .ok () p else exponent.body p.advance) else .ok () p

theorem exponent_eq (h : At p pre l) : exponent p = expCase p l := by
  simp only [exponent, h.current]
  cases l with
  | nil => rfl
  | cons c t =>
    simp only
    by_cases hc : isE c = true
    · rw [if_pos hc]
      have ha := h.advance (size_e hc)
      rw [ha.current]
      cases t with
      | nil => simp [expCase, hc]
      | cons y t =>
        simp only [Bool.or_eq_true, beq_iff_eq, expCase, hc, if_true]
        by_cases hy : y = 'x' ∨ y = 'm'
        · rw [if_pos hy, if_pos hy]
          simp [Parser.rewind, Parser.advance]
        · rw [if_neg hy, if_neg hy]
    · rw [if_neg hc]
      cases t <;> simp [expCase, hc]

/-- The text of an exponent behind the `e`. -/
def ExpBody (a r : List Char) : Prop := ∃ d j d', a = (a ++ r).takeWhile isSign ++ d ++ j ++ d' ∧
  Digits d ∧ Digits d' ∧ Ends Char.isDigit r ∧ Ends Char.isDigit (j ++ d' ++ r) ∧ Dots j (d' ++ r)

theorem exponent_ok (h : At p pre l) {z : Parser} (he : exponent p = .ok () z) :
    (z = p ∧ NoExp l) ∨ ∃ e a r, l = e :: a ++ r ∧ isE e = true ∧ At z (pre ++ e :: a) r ∧ ExpBody a r := by
  rw [exponent_eq h] at he
  have hb : ∀ c t, l = c :: t → isE c = true → exponent.body p.advance = .ok () z →
      ∃ e a r, l = e :: a ++ r ∧ isE e = true ∧ At z (pre ++ e :: a) r ∧ ExpBody a r := by
    rintro c t rfl hc hb
    have ha := h.advance (size_e hc)
    obtain ⟨d, j, d', r, e1, e2, e3⟩ := body_ok ha hb
    refine ⟨c, t.takeWhile isSign ++ d ++ j ++ d', r, by rw [List.cons_append, ← e1], hc, by simpa using e2, d, j, d', ?_, e3⟩
    rw [← e1]
  match l, he with
  | [], he => cases he; exact .inl ⟨rfl, fun e t h => by simp at h⟩
  | [c], he =>
    by_cases hc : isE c = true
    · simp only [expCase, hc, if_true] at he
      exact .inr (hb c [] rfl hc he)
    · simp only [expCase, hc] at he
      cases he
      exact .inl ⟨rfl, fun e t h he => by simp at h; rw [← h.1] at he; exact absurd he hc⟩
  | c :: y :: t, he =>
    by_cases hc : isE c = true
    · simp only [expCase, hc, if_true] at he
      by_cases hy : y = 'x' ∨ y = 'm'
      · rw [if_pos hy] at he
        cases he
        exact .inl ⟨rfl, fun e t h _ => by simp at h; exact ⟨y, _, h.2.symm, hy⟩⟩
      · rw [if_neg hy] at he
        exact .inr (hb c _ rfl hc he)
    · simp only [expCase, hc] at he
      cases he
      exact .inl ⟨rfl, fun e t h he => by simp at h; rw [← h.1] at he; exact absurd he hc⟩

/-- What the scanner has read when it succeeds. -/
theorem parse_shape {finite : List Char → Bool} {t : List Char} (h : At p pre rest)
    (hp : parseF64 finite p = .ok t q) :
    ∃ d j d' x r, rest.dropWhile isWhitespace = t ++ r ∧
      t = (t ++ r).takeWhile isSign ++ d ++ j ++ d' ++ x ∧
      At q (pre ++ rest.takeWhile isWhitespace ++ t) r ∧ Digits d ∧ Digits d' ∧ Ends Char.isDigit r ∧
      Ends Char.isDigit (j ++ d' ++ x ++ r) ∧
      Dots j (d' ++ x ++ r) ∧
      ((x = [] ∧ NoExp r) ∨ ∃ e x', x = e :: x' ∧ isE e = true ∧ ExpBody x' r) ∧ IsNumber t ∧ finite t = true := by
  simp only [parseF64, bind_ok] at hp
  obtain ⟨⟨⟩, p1, h1, ⟨⟩, q1, h2, ⟨⟩, q2, h3, ⟨⟩, q3, h4, ⟨⟩, q4, h5, ⟨⟩, q5, h6, tok, q6, h7, h8⟩ := hp
  obtain ⟨p1', e1, a1, _⟩ := h.skipMatches_at isWhitespace
  rw [Parser.skipWhitespace, e1] at h1; cases h1
  obtain ⟨q1', e2, a2, _⟩ := a1.skipMatches_at isSign
  rw [e2] at h2; cases h2
  obtain ⟨d, j, d', k, e3, a3, g1, g2, g3, g4, g5⟩ := mantissa_ok a2 h3 h4 h5
  generalize hl : rest.dropWhile isWhitespace = l at *
  have hsplit : l = l.takeWhile isSign ++ d ++ j ++ d' ++ k := by
    conv => lhs; rw [← List.takeWhile_append_dropWhile (p := isSign) (l := l), e3]
    simp
  have fin : ∀ a b, l = a ++ b → At q5 (pre ++ rest.takeWhile isWhitespace ++ a) b → tok = a ∧ q6 = q5 := by
    intro a b e a4
    rw [e] at a1
    have := a1.giveFrom a4
    rw [this] at h7
    cases h7; exact ⟨rfl, rfl⟩
  split at h8
  case isFalse => simp at h8
  case isTrue hok =>
    cases h8
    simp only [Bool.and_eq_true, rustFloat_iff] at hok
    rcases exponent_ok a3 h6 with ⟨rfl, hne⟩ | ⟨e, a, r, e5, he, a5, g6⟩
    · obtain ⟨rfl, rfl⟩ := fin (l.takeWhile isSign ++ d ++ j ++ d') k hsplit (by simpa using a3)
      refine ⟨d, j, d', [], k, hsplit, ?_, by simpa using a3, g1, g2, g3, by simpa using g4, by simpa using g5,
        .inl ⟨rfl, hne⟩, hok.1, hok.2⟩
      rw [← hsplit]; simp
    · have hs2 : l = (l.takeWhile isSign ++ d ++ j ++ d' ++ e :: a) ++ r := by
        conv => lhs; rw [hsplit, e5]
        simp
      obtain ⟨rfl, rfl⟩ := fin _ r hs2 (by simpa using a5)
      refine ⟨d, j, d', e :: a, r, hs2, ?_, by simpa using a5, g1, g2, ?_, ?_, ?_, .inr ⟨e, a, rfl, he, g6⟩, hok.1, hok.2⟩
      · rw [← hs2]
      · obtain ⟨_, _, _, _, _, _, g7, _⟩ := g6
        exact g7
      · rw [e5] at g4; simpa using g4
      · rw [e5] at g5; simpa using g5

/-! ## Longest numbers -/

/-- `t` is the longest number at the front of `l`. -/
def Longest (l t : List Char) : Prop := IsNumber t ∧ t <+: l ∧ ∀ t', IsNumber t' → t' <+: l → t'.length ≤ t.length

theorem longest_unique {l t t' : List Char} (h : Longest l t) (h' : Longest l t') : t = t' := by
  have h1 := h.2.2 t' h'.1 h'.2.1
  have h2 := h'.2.2 t h.1 h.2.1
  exact (List.prefix_of_prefix_length_le h.2.1 h'.2.1 (by omega)).eq_of_length (by omega)

/-- What can follow a number that is the front of a longer number. -/
theorem number_extend {t : List Char} {c : Char} {x : List Char} (h : IsNumber t) (h' : IsNumber (t ++ c :: x)) :
    c.isDigit = true ∨ (c = '.' ∧ t.foldl step .start = .int) ∨
      (isE c = true ∧ t.foldl step .start ≠ .exp ∧ ∃ y x', x = y :: x' ∧ (y.isDigit = true ∨ isSign y = true)) := by
  rw [← rustFloat_iff] at h h'
  simp only [rustFloat, List.foldl_append, List.foldl_cons] at h h'
  by_cases hd : c.isDigit = true
  · exact .inl hd
  · simp only [Bool.not_eq_true] at hd
    right
    by_cases hdot : c = '.'
    · left
      refine ⟨hdot, ?_⟩
      subst hdot
      rw [step_dot] at h'
      cases hs : t.foldl step .start <;> rw [hs] at h h' <;> simp [accept] at h
      · simp [onDot, run_dead, accept] at h'
      · simp [onDot, run_dead, accept] at h'
      · simp [onDot, run_dead, accept] at h'
    · right
      by_cases he : isE c = true
      · rw [step_e he] at h'
        refine ⟨he, fun hx => by simp [hx, onE, run_dead, accept] at h', ?_⟩
        cases x with
        | nil =>
          cases hs : t.foldl step .start <;> rw [hs] at h h' <;> simp [onE, accept] at h h'
        | cons y x =>
          refine ⟨y, x, rfl, ?_⟩
          rw [List.foldl_cons] at h'
          by_cases hy : y.isDigit = true
          · exact .inl hy
          · simp only [Bool.not_eq_true] at hy
            right
            by_cases hsg : isSign y = true
            · exact hsg
            · simp only [Bool.not_eq_true] at hsg
              exfalso
              have : ∀ st, step (onE st) y = .dead := by
                intro st
                have h3 : onE st = .e ∨ onE st = .dead := by cases st <;> simp [onE]
                rcases h3 with h3 | h3 <;> rw [h3] <;> simp [step, hy, hsg, onDot, onE]
              rw [this, run_dead] at h'
              simp [accept] at h'
      · simp only [Bool.not_eq_true] at he
        exfalso
        by_cases hsg : isSign c = true
        · rw [step_sign hsg] at h'
          cases hs : t.foldl step .start <;> rw [hs] at h h' <;> simp [accept] at h
          all_goals simp [onSign, run_dead, accept] at h'
        · simp only [Bool.not_eq_true] at hsg
          rw [step_other hd hdot he hsg, run_dead] at h'
          simp [accept] at h'

/-- A number that cannot be extended is the longest. -/
theorem longest_of {t r : List Char} (h : IsNumber t) (h1 : Ends Char.isDigit r)
    (h2 : t.foldl step .start = .int → ∀ u, r ≠ '.' :: u)
    (h3 : t.foldl step .start ≠ .exp → ∀ e y u, r = e :: y :: u → isE e = true → y.isDigit = false ∧ isSign y = false) : Longest (t ++ r) t := by
  refine ⟨h, ⟨r, rfl⟩, ?_⟩
  rintro t' h' ⟨r', e⟩
  by_cases hl : t'.length ≤ t.length
  · exact hl
  exfalso
  rcases List.append_eq_append_iff.mp e with ⟨m, e1, e2⟩ | ⟨m, e1, e2⟩
  · subst e1; simp at hl
  · cases m with
    | nil => subst e1; simp at hl
    | cons c x =>
      subst e1 e2
      rcases number_extend h h' with hc | ⟨hc, hi⟩ | ⟨hc, hne, y, x', hx, hy⟩
      · have := h1 c (x ++ r') rfl
        rw [this] at hc; simp at hc
      · exact h2 hi (x ++ r') (by rw [hc]; rfl)
      · subst hx
        have := h3 hne c y (x' ++ r') rfl hc
        rcases hy with hy | hy <;> simp [this] at hy

/-- A number with an `e` has an exponent. -/
theorem exp_of_e {t : List Char} (h : IsNumber t) {e : Char} (he : e ∈ t) (hE : isE e = true) :
    t.foldl step .start = .exp := by
  have hr := read_run t
  rw [← rustFloat_iff, rustFloat] at h
  cases hs : t.foldl step .start <;> rw [hs] at h hr <;> simp [accept] at h ⊢
  · have := (read_noE hr (.inl rfl)).2 e he; rw [hE] at this; simp at this
  · have := (read_noE hr (.inr (.inl rfl))).2 e he; rw [hE] at this; simp at this
  · have := (read_noE hr (.inr (.inr rfl))).2 e he; rw [hE] at this; simp at this

theorem int_shape {t : List Char} (h : t.foldl step .start = .int) : ∃ s d, t = s ++ d ∧ IsSign s ∧ Digits d ∧ d ≠ [] := by
  have := read_run t
  rw [h] at this
  exact this

end Verif.Number
