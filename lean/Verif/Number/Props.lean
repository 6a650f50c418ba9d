import Verif.Number.Scan

/-! # Numbers: properties C19 and C35 -/

namespace Verif.Number

open Verif.Parse

variable {p q : Parser} {pre rest t r : List Char} {finite : List Char → Bool}

theorem dots_head {j k u : List Char} (h : Dots j k) (e : j ++ k = '.' :: u) : ∃ j', j = '.' :: j' := by
  obtain ⟨m, h1, _⟩ := h
  rw [e] at h1
  simp [List.takeWhile_cons] at h1
  exact ⟨_, h1⟩

theorem run_to_int {st : St} {l : List Char} (h : l.foldl step st = .int) : st = .start ∨ st = .sgn ∨ st = .int := by
  induction l generalizing st with
  | nil => exact .inr (.inr h)
  | cons c l ih =>
    have := ih h
    simp only [step] at this
    split at this
    · cases st <;> simp [onDigit] at this ⊢
    · split at this
      · cases st <;> simp [onDot] at this ⊢
      · split at this
        · cases st <;> simp [onE] at this ⊢
        · split at this
          · cases st <;> simp [onSign] at this ⊢
          · simp at this

theorem digit_cases {c : Char} (l : List Char) (h : Digits (c :: l)) : c.isDigit = true := h c (by simp)

theorem run_start {l : List Char} (h : l.foldl step .start = .start) : l = [] := by
  have := read_run l
  rw [h] at this
  exact this

/-- In a succeeding scan whose token has no point, no point follows. -/
theorem no_dot_follows {d j d' x u : List Char} (ht : t = (t ++ r).takeWhile isSign ++ d ++ j ++ d' ++ x)
    (hr : r = '.' :: u) (h1 : Ends Char.isDigit (j ++ d' ++ x ++ r)) (h2 : Dots j (d' ++ x ++ r))
    (hd : Digits d') (hx : x = [] ∨ ∃ e x', x = e :: x' ∧ isE e = true) (hi : t.foldl step .start = .int) : False := by
  obtain ⟨s, ds, e1, g1, g2, g3⟩ := int_shape hi
  have hmem : ∀ c ∈ t, c ≠ '.' ∧ isE c = false := by
    intro c hc
    rw [e1] at hc
    rcases List.mem_append.mp hc with hc | hc
    · exact ⟨by rcases g1 with rfl | rfl | rfl <;> simp at hc <;> subst hc <;> decide, noE_sign g1 c hc⟩
    · exact ⟨not_dot_digit (g2 c hc), noE_digits g2 c hc⟩
  have hx0 : x = [] := by
    rcases hx with rfl | ⟨e, x', rfl, he⟩
    · rfl
    · have := (hmem e (by rw [ht]; simp)).2
      rw [he] at this; simp at this
  subst hx0
  cases j with
  | nil =>
    cases d' with
    | nil =>
      obtain ⟨j', hj'⟩ := dots_head h2 (by simpa using hr)
      simp at hj'
    | cons c d' =>
      have := h1 c _ rfl
      rw [hd c (by simp)] at this; simp at this
  | cons c j =>
    have hcd : c.isDigit = false := h1 c _ rfl
    have hct : c ∈ t := by rw [ht]; simp
    have hcs : isSign c = true := by
      rw [e1] at hct
      rcases List.mem_append.mp hct with hc | hc
      · rcases g1 with rfl | rfl | rfl <;> simp at hc <;> subst hc <;> rfl
      · rw [g2 c hc] at hcd; simp at hcd
    have hrun := hi
    rw [ht] at hrun
    simp only [List.append_assoc, List.cons_append] at hrun
    rw [← List.append_assoc, List.foldl_append, List.foldl_cons, step_sign hcs] at hrun
    have h3 := run_to_int hrun
    have h4 : ((t ++ r).takeWhile isSign ++ d).foldl step .start = .start := by
      cases hst : ((t ++ r).takeWhile isSign ++ d).foldl step .start <;> rw [hst] at h3 <;> simp [onSign] at h3 ⊢
    have h5 := run_start h4
    simp only [List.append_eq_nil_iff] at h5
    have h6 : t = c :: j ++ d' := by rw [h5.1, h5.2] at ht; simpa using ht
    have h7 := h5.1
    rw [h6] at h7
    simp [List.takeWhile_cons, hcs] at h7

/-- **C19 (what is read)** When a number is parsed, white space is skipped, the text taken is the longest number of
the grammar at this place, its value is finite, and the parser stands right behind it. This holds for every input. -/
theorem f64_sound (h : At p pre rest) (hp : parseF64 finite p = .ok t q) :
    ∃ r, rest.dropWhile isWhitespace = t ++ r ∧ Longest (t ++ r) t ∧ finite t = true ∧
      At q (pre ++ rest.takeWhile isWhitespace ++ t) r := by
  obtain ⟨d, j, d', x, r, e1, e2, e3, g1, g2, g3, g4, g5, g6, g7, g8⟩ := parse_shape h hp
  refine ⟨r, e1, longest_of g7 g3 ?_ ?_, g8, e3⟩
  · intro hi u hr
    refine no_dot_follows e2 hr g4 g5 g2 ?_ hi
    rcases g6 with ⟨hx, _⟩ | ⟨e, x', hx, he, _⟩
    · exact .inl hx
    · exact .inr ⟨e, x', hx, he⟩
  · intro hne e y u hr he
    rcases g6 with ⟨hx, hn⟩ | ⟨e', x', hx, he', hb⟩
    · obtain ⟨y', t', h1, h2⟩ := hn e (y :: u) hr he
      simp at h1
      rw [h1.1]
      rcases h2 with rfl | rfl <;> decide
    · exact absurd (exp_of_e g7 (by rw [e2, hx]; simp) he') hne

/-- **C19 (failure)** Where no number starts, parsing does not succeed. -/
theorem f64_none (h : At p pre rest) (hn : ∀ t, IsNumber t → ¬ t <+: rest.dropWhile isWhitespace) :
    ∀ t q, parseF64 finite p ≠ .ok t q := by
  intro t q hp
  obtain ⟨r, e1, e2, _⟩ := f64_sound h hp
  exact hn t e2.1 (by rw [e1]; exact e2.2.1)

/-- The two ways in which the text behind a number spoils it: the scanner takes more than the number. -/
def Clash (t r : List Char) : Prop :=
  (r.head? = some '.' ∧ (t.getLast? = some '.' ∨ ∃ e ∈ t, isE e = true)) ∨
  ((∀ e ∈ t, isE e = false) ∧ ∃ e u, r = e :: u ∧ isE e = true ∧ u.head? ≠ some 'x' ∧ u.head? ≠ some 'm')

/-! ### What follows the longest number -/

theorem accept_digit {st : St} (h : accept st = true) : accept (onDigit st) = true := by
  cases st <;> simp [accept, onDigit] at *

theorem longest_ends (h : Longest (t ++ r) t) : Ends Char.isDigit r := by
  intro c u hr
  cases hc : c.isDigit with
  | false => rfl
  | true =>
    exfalso
    have hn : IsNumber (t ++ [c]) := by
      have := h.1
      rw [← rustFloat_iff] at this ⊢
      simp only [rustFloat, List.foldl_append, List.foldl_cons, List.foldl_nil, step_digit hc] at *
      exact accept_digit this
    have := h.2.2 _ hn ⟨u, by simp [hr]⟩
    simp only [List.length_append, List.length_singleton] at this
    omega

theorem longest_int {u : List Char} (h : Longest (t ++ r) t) (hi : t.foldl step .start = .int) (hr : r = '.' :: u) : False := by
  have hn : IsNumber (t ++ ['.']) := by
    rw [← rustFloat_iff]
    simp only [rustFloat, List.foldl_append, List.foldl_cons, List.foldl_nil, step_dot, hi]
    rfl
  have := h.2.2 _ hn ⟨u, by simp [hr]⟩
  simp only [List.length_append, List.length_singleton] at this
  omega

/-- In a number with an exponent, digits follow the `e` and its sign. -/
theorem after_e {a : List Char} {e : Char} {b : List Char} {d j k : List Char} (he : isE e = true)
    (h : IsNumber (a ++ e :: (b.takeWhile isSign ++ d ++ j))) (hb : b = b.takeWhile isSign ++ d ++ j ++ k)
    (hj : Ends Char.isDigit j) : j = [] := by
  cases j with
  | nil => rfl
  | cons c j =>
    exfalso
    have hcd := hj c j rfl
    rw [← rustFloat_iff, rustFloat, List.foldl_append, List.foldl_cons, step_e he, List.foldl_append, List.foldl_cons] at h
    by_cases hs : isSign c = true
    · rw [step_sign hs] at h
      by_cases hn : (b.takeWhile isSign ++ d) = []
      · simp only [List.append_eq_nil_iff] at hn
        have hb' := hb
        rw [hn.1, hn.2] at hb'
        simp at hb'
        have := hn.1
        rw [hb'] at this
        simp [List.takeWhile_cons, hs] at this
      · have hst : ∀ (st : St) (l : List Char), (st = .esgn ∨ st = .exp ∨ st = .dead) → onSign (l.foldl step st) = .dead := by
          intro st l
          induction l generalizing st with
          | nil => rintro (rfl | rfl | rfl) <;> rfl
          | cons c l ih =>
            intro h
            apply ih
            simp only [step]
            rcases h with rfl | rfl | rfl <;> (repeat' split) <;> simp [onDigit, onDot, onE, onSign]
        obtain ⟨y, l, hl⟩ := List.exists_cons_of_ne_nil hn
        rw [hl, List.foldl_cons, hst _ l, run_dead] at h
        · simp [accept] at h
        · have : ∀ st, onE st = .e ∨ onE st = .dead := by intro st; cases st <;> simp [onE]
          rcases this (List.foldl step .start a) with h1 | h1 <;> rw [h1] <;> simp only [step] <;> (repeat' split) <;>
            simp [onDigit, onDot, onE, onSign]
    · simp only [Bool.not_eq_true] at hs
      have hst : ∀ (l : List Char) (st : St), (st = .e ∨ st = .esgn ∨ st = .exp ∨ st = .dead) → step (l.foldl step st) c = .dead := by
        intro l
        induction l with
        | nil =>
          intro st h
          simp only [List.foldl_nil, step, hcd, hs, Bool.false_eq_true, if_false]
          rcases h with rfl | rfl | rfl | rfl <;> (repeat' split) <;> rfl
        | cons c l ih =>
          intro st h
          apply ih
          simp only [step]
          rcases h with rfl | rfl | rfl | rfl <;> (repeat' split) <;> simp [onDigit, onDot, onE, onSign]
      rw [hst, run_dead] at h
      · simp [accept] at h
      · have : ∀ st, onE st = .e ∨ onE st = .dead := by intro st; cases st <;> simp [onE]
        rcases this (List.foldl step .start a) with h1 | h1 <;> simp [h1]

theorem getLast_append_ne {m k : List Char} (hk : k ≠ []) (h : k.getLast? ≠ some '.') : (m ++ k).getLast? ≠ some '.' := by
  rw [List.getLast?_append]
  cases hl : k.getLast? with
  | none => simp at hl; exact absurd hl hk
  | some c => rw [hl] at h; simpa using h

theorem dropWhile_last {k : List Char} {f : Char → Bool} (h : k.getLast? ≠ some '.') : (k.dropWhile f).getLast? ≠ some '.' := by
  by_cases hn : k.dropWhile f = []
  · simp [hn]
  · intro hl
    apply h
    conv => lhs; rw [← List.takeWhile_append_dropWhile (p := f) (l := k)]
    rw [List.getLast?_append, hl]
    rfl

/-- With no point at the end of the input only the leading points are skipped. -/
theorem dots_exact {j k : List Char} (hk : k ≠ []) (h : k.getLast? ≠ some '.') (hd : Dots j k) :
    j = (j ++ k).takeWhile (· == '.') := by
  obtain ⟨m, h1, h2⟩ := hd
  rw [h2 (dropWhile_last (getLast_append_ne hk h))] at h1
  simpa using h1

theorem ends_left {f : Char → Bool} {a b : List Char} (h : Ends f (a ++ b)) : Ends f a := by
  rintro c u rfl
  exact h c (u ++ b) rfl

/-- A number behind which the text clashes is not parsed. -/
theorem f64_clash (h : At p pre rest) (e : rest.dropWhile isWhitespace = t ++ r) (hr : r.getLast? ≠ some '.')
    (hc : Clash t r) : ∀ q, parseF64 finite p ≠ .ok t q := by
  intro q hp
  obtain ⟨d, j, d', x, r', e1, e2, e3, g1, g2, g3, g4, g5, g6, g7, g8⟩ := parse_shape h hp
  have : r' = r := by rw [e] at e1; exact (List.append_cancel_left e1).symm
  subst this
  rcases hc with ⟨h1, h2⟩ | ⟨h1, e, u, h2, h3, h4, h5⟩
  · cases r' with
    | nil => simp at h1
    | cons c u =>
      simp at h1; subst h1
      rcases g6 with ⟨hx, hn⟩ | ⟨e, x', hx, he, d2, j2, d2', b1, b2, b3, b4, b5, b6⟩
      · subst hx
        have hj := dots_exact (by simp) (getLast_append_ne (by simp) hr) g5
        have hall : ∀ c ∈ j, (c == '.') = true := by rw [hj]; exact takeWhile_all
        rcases h2 with h2 | ⟨e, h2, h3⟩
        · cases d' with
          | cons y d' =>
            obtain ⟨l, z, hz⟩ : ∃ l z, y :: d' = l ++ [z] := by
              rcases (y :: d').eq_nil_or_concat with h | ⟨l, z, h⟩
              · simp at h
              · exact ⟨l, z, by simpa using h⟩
            rw [e2, hz] at h2
            simp at h2
            have := g2 z (by rw [hz]; simp)
            rw [h2] at this; simp [not_digit_dot] at this
          | nil =>
            simp only [List.nil_append] at hj
            rw [List.takeWhile_append_of_pos hall] at hj
            simp [List.takeWhile_cons] at hj
        · rw [e2] at h2
          simp only [List.append_nil, List.mem_append] at h2
          rcases h2 with ((h2 | h2) | h2) | h2
          · have := takeWhile_all e h2
            rw [show isSign e = false by simp [isE] at h3; rcases h3 with rfl | rfl <;> rfl] at this
            simp at this
          · have := not_digit_e h3; rw [g1 e h2] at this; simp at this
          · have := hall e h2
            simp at this; subst this; simp [isE] at h3
          · have := not_digit_e h3; rw [g2 e h2] at this; simp at this
      · subst hx
        have hnum : IsNumber (((t ++ '.' :: u).takeWhile isSign ++ d ++ j ++ d') ++
            e :: ((x' ++ '.' :: u).takeWhile isSign ++ d2 ++ (j2 ++ d2'))) := by
          have : (x' ++ '.' :: u).takeWhile isSign ++ d2 ++ (j2 ++ d2') = x' := by
            rw [← List.append_assoc]; exact b1.symm
          rw [this, ← e2]; exact g7
        have hz := after_e (k := '.' :: u) he hnum (by rw [← List.append_assoc, ← b1]) (ends_left b5)
        simp only [List.append_eq_nil_iff] at hz
        rw [hz.1, hz.2] at b6
        obtain ⟨_, hj'⟩ := dots_head (j := []) (k := [] ++ '.' :: u) (u := u) b6 rfl
        simp at hj'
  · rcases g6 with ⟨hx, hn⟩ | ⟨e', x', hx, he, _⟩
    · obtain ⟨y, t', h6, h7⟩ := hn e u h2 h3
      subst h6
      rcases h7 with rfl | rfl
      · simp at h4
      · simp at h5
    · have := h1 e' (by rw [e2, hx]; simp)
      rw [he] at this; simp at this

/-! ### Numbers that are parsed -/

theorem At.skip (h : At p pre (t ++ r)) {f : Char → Bool} (h1 : ∀ c ∈ t, f c = true) (h2 : Ends f r) :
    ∃ q, p.skipMatches f = .ok () q ∧ At q (pre ++ t) r := by
  obtain ⟨q, e1, e2, _⟩ := h.skipMatches_at f
  refine ⟨q, e1, ?_⟩
  have h3 : r.takeWhile f = [] ∧ r.dropWhile f = r := by
    cases r with
    | nil => simp
    | cons c u => have := h2 c u rfl; simp [List.takeWhile_cons, List.dropWhile_cons, this]
  rw [List.takeWhile_append_of_pos h1, List.dropWhile_append_of_pos h1, h3.1, h3.2] at e2
  simpa using e2

theorem At.skipDot (h : At p pre (t ++ r)) (h1 : ∀ c ∈ t, c = '.') (h2 : ∀ u, r ≠ '.' :: u) (h3 : r.getLast? ≠ some '.') :
    ∃ q, p.skipChar '.' = .ok () q ∧ At q (pre ++ t) r := by
  have h4 : r.takeWhile (· == '.') = [] ∧ r.dropWhile (· == '.') = r := by
    cases r with
    | nil => simp
    | cons c u =>
      have : c ≠ '.' := fun h => h2 u (by rw [h])
      simp [List.takeWhile_cons, List.dropWhile_cons, this]
  have h5 : ∀ c ∈ t, (c == '.') = true := fun c hc => by simp [h1 c hc]
  have := (skipChar_iff h '.').mpr (by rw [List.dropWhile_append_of_pos h5, h4.2]; exact h3)
  refine ⟨_, this, ?_⟩
  rw [List.takeWhile_append_of_pos h5, h4.1, List.append_nil]
  exact h.moved

theorem digits_last {d : List Char} (h : Digits d) : d.getLast? ≠ some '.' := by
  intro hl
  have := h '.' (List.mem_of_getLast? hl)
  simp [not_digit_dot] at this

theorem append_last {a b : List Char} (h1 : a.getLast? ≠ some '.') (h2 : b.getLast? ≠ some '.') :
    (a ++ b).getLast? ≠ some '.' := by
  by_cases hb : b = []
  · subst hb; simpa using h1
  · exact getLast_append_ne hb h2

/-- The optional exponent of the grammar. -/
def IsExp (x : List Char) : Prop :=
  x = [] ∨ ∃ e s' d', x = e :: (s' ++ d') ∧ (e = 'e' ∨ e = 'E') ∧ IsSign s' ∧ Digits d' ∧ d' ≠ []

theorem sign_all {s : List Char} (h : IsSign s) : ∀ c ∈ s, isSign c = true := by
  rcases h with rfl | rfl | rfl <;> simp [isSign]

theorem ends_digits {d : List Char} (h : Digits d) (hne : d ≠ []) (k : List Char) : Ends isSign (d ++ k) := by
  intro c u e
  cases d with
  | nil => simp at hne
  | cons y d =>
    simp at e
    rw [← e.1]
    exact not_sign_digit (h y (by simp))

theorem exp_last {x : List Char} (h : IsExp x) : x.getLast? ≠ some '.' := by
  rcases h with rfl | ⟨e, s, d, rfl, _, _, hd, hne⟩
  · simp
  · rw [← List.cons_append]
    exact getLast_append_ne hne (digits_last hd)

theorem exponent_run {x : List Char} (h : At p pre (x ++ r)) (hx : IsExp x) (hr : r.getLast? ≠ some '.')
    (h1 : Ends Char.isDigit r) (h2 : x ≠ [] → ∀ u, r ≠ '.' :: u) (h3 : x = [] → NoExp r) :
    ∃ q, exponent p = .ok () q ∧ At q (pre ++ x) r := by
  rw [exponent_eq h]
  rcases hx with rfl | ⟨e, s, d, rfl, he, hs, hd, hne⟩
  · refine ⟨p, ?_, by simpa using h⟩
    cases r with
    | nil => rfl
    | cons c u =>
      by_cases hc : isE c = true
      · obtain ⟨y, u', rfl, hy⟩ := h3 rfl c u rfl hc
        simp [expCase, hc, hy]
      · cases u <;> simp [expCase, hc]
  · have heE : isE e = true := by rcases he with rfl | rfl <;> rfl
    have hnext : ∃ y u, s ++ d ++ r = y :: u ∧ ¬ (y = 'x' ∨ y = 'm') := by
      obtain ⟨c, d', rfl⟩ := List.exists_cons_of_ne_nil hne
      have hc := hd c (by simp)
      rcases hs with rfl | rfl | rfl
      · refine ⟨c, d' ++ r, by simp, ?_⟩
        rintro (rfl | rfl) <;> simp [Char.isDigit] at hc
      · exact ⟨'+', _, rfl, by decide⟩
      · exact ⟨'-', _, rfl, by decide⟩
    obtain ⟨y, u, hyu, hy⟩ := hnext
    have ha := At.advance (c := e) (rest := s ++ d ++ r) (by simpa using h) (size_e heE)
    have hbody : ∃ q, exponent.body p.advance = .ok () q ∧ At q (pre ++ e :: (s ++ d)) r := by
      have ha' : At p.advance (pre ++ [e]) (s ++ (d ++ r)) := by simpa using ha
      obtain ⟨q1, x1, y1⟩ := At.skip ha' (sign_all hs) (ends_digits hd hne r)
      obtain ⟨q2, x2, y2⟩ := At.skip y1 hd h1
      obtain ⟨q3, x3, y3⟩ := At.skipDot (t := []) (r := r) (by simpa using y2) (by simp) (h2 (by simp)) hr
      obtain ⟨q4, x4, y4⟩ := At.skip (t := []) (r := r) (f := Char.isDigit) (by simpa using y3) (by simp) h1
      refine ⟨q4, ?_, by simpa using y4⟩
      simp only [exponent.body, x1, x2, x3, x4, Res.bind]
      rw [if_neg]
      rw [ha.2, y4.2]
      obtain ⟨c, d', rfl⟩ := List.exists_cons_of_ne_nil hne
      have := size_pos c
      simp only [width_append, width_cons, width_nil]
      omega
    rw [List.cons_append, hyu]
    simp only [expCase, heE, if_true, if_neg hy]
    exact hbody

/-- Without clash the number is parsed. -/
theorem f64_parsed (h : At p pre rest) (e : rest.dropWhile isWhitespace = t ++ r) (hl : Longest (t ++ r) t)
    (hr : r.getLast? ≠ some '.') (hf : finite t = true) (hc : ¬ Clash t r) :
    ∃ q, parseF64 finite p = .ok t q := by
  have hends := longest_ends hl
  obtain ⟨s, d, f, x, ht, h1, h2, h3, h4⟩ := hl.1
  obtain ⟨p0, x0, y0, _⟩ := h.skipMatches_at isWhitespace
  rw [e] at y0
  generalize hpre : pre ++ rest.takeWhile isWhitespace = pre0 at y0
  have y0' : At p0 pre0 (s ++ (d ++ (f ++ (x ++ r)))) := by rw [ht] at y0; simpa using y0
  have hsg : Ends isSign (d ++ (f ++ (x ++ r))) := by
    by_cases hd : d = []
    · subst hd
      rcases h3 with ⟨_, h⟩ | ⟨d', rfl, _⟩
      · simp at h
      · intro c u e; simp at e; rw [← e.1]; rfl
    · exact ends_digits h2 hd _
  obtain ⟨q1, x1, y1⟩ := At.skip y0' (sign_all h1) hsg
  have hxr : Ends Char.isDigit (x ++ r) := by
    rcases h4 with rfl | ⟨e, s', d', rfl, he, _⟩
    · simpa using hends
    · intro c u e; simp at e; rw [← e.1]; rcases he with rfl | rfl <;> rfl
  have hfx : Ends Char.isDigit (f ++ (x ++ r)) := by
    rcases h3 with ⟨rfl, _⟩ | ⟨d', rfl, _⟩
    · simpa using hxr
    · intro c u e; simp at e; rw [← e.1]; rfl
  obtain ⟨q2, x2, y2⟩ := At.skip y1 h2 hfx
  have hxdot : x ≠ [] → ∀ u, r ≠ '.' :: u := by
    intro hx u hu
    apply hc
    left
    refine ⟨by simp [hu], .inr ?_⟩
    rcases h4 with rfl | ⟨e, s', d', rfl, he, _⟩
    · simp at hx
    · exact ⟨e, by rw [ht]; simp, by rcases he with rfl | rfl <;> rfl⟩
  have hxr_dot : (∀ u, x = [] → r ≠ '.' :: u) → ∀ u, x ++ r ≠ '.' :: u := by
    intro hx u
    rcases h4 with rfl | ⟨e, s', d', rfl, he, _⟩
    · simpa using hx u rfl
    · intro h; simp at h; rcases he with rfl | rfl <;> simp at h
  have hxlast : (x ++ r).getLast? ≠ some '.' := append_last (exp_last h4) hr
  have noE : x = [] → ∀ c ∈ t, isE c = false := by
    rintro rfl c hc
    rw [ht] at hc
    simp only [List.append_nil, List.mem_append] at hc
    rcases hc with (hc | hc) | hc
    · exact noE_sign h1 c hc
    · exact noE_digits h2 c hc
    · rcases h3 with ⟨rfl, _⟩ | ⟨d', rfl, h5, _⟩
      · simp at hc
      · simp at hc
        rcases hc with rfl | hc
        · rfl
        · exact noE_digits h5 c hc
  have hnoexp : x = [] → NoExp r := by
    intro hx e u hru he
    cases u with
    | nil => exact absurd (.inr ⟨noE hx, e, [], hru, he, by simp, by simp⟩) hc
    | cons y u =>
      refine ⟨y, u, rfl, ?_⟩
      by_cases hy : y = 'x' ∨ y = 'm'
      · exact hy
      · exfalso
        simp only [not_or] at hy
        exact hc (.inr ⟨noE hx, e, y :: u, hru, he, by simp [hy.1], by simp [hy.2]⟩)
  have hmid : ∃ q3 q4, q2.skipChar '.' = .ok () q3 ∧ q3.skipMatches Char.isDigit = .ok () q4 ∧
      At q4 (pre0 ++ s ++ d ++ f) (x ++ r) := by
    rcases h3 with ⟨rfl, hd⟩ | ⟨d', rfl, h5, h6⟩
    · have hdot : ∀ u, x = [] → r ≠ '.' :: u := by
        intro u hx hu
        subst hx
        refine longest_int hl ?_ hu
        rw [ht]
        have r1 : s.foldl step .start = .start ∨ s.foldl step .start = .sgn := by
          rcases h1 with rfl | rfl | rfl
          · exact .inl rfl
          · exact .inr rfl
          · exact .inr rfl
        simp only [List.append_nil, List.foldl_append]
        rw [run_digits h2 _ hd]
        rcases r1 with r1 | r1 <;> rw [r1] <;> rfl
      obtain ⟨q3, x3, y3⟩ := At.skipDot (t := []) (r := x ++ r) (by simpa using y2) (by simp) (hxr_dot hdot) hxlast
      obtain ⟨q4, x4, y4⟩ := At.skip (t := []) (r := x ++ r) (f := Char.isDigit) (by simpa using y3) (by simp) hxr
      exact ⟨q3, q4, x3, x4, by simpa using y4⟩
    · have hnd : ∀ u, d' ++ (x ++ r) ≠ '.' :: u := by
        intro u hu
        cases d' with
        | cons y d' =>
          simp at hu
          have := h5 y (by simp)
          rw [hu.1] at this; simp [not_digit_dot] at this
        | nil =>
          refine hxr_dot ?_ u hu
          intro u hx hu'
          subst hx
          apply hc
          left
          exact ⟨by rw [hu']; rfl, .inl (by rw [ht]; simp)⟩
      obtain ⟨q3, x3, y3⟩ := At.skipDot (t := ['.']) (r := d' ++ (x ++ r)) (by simpa using y2) (by simp) hnd
        (append_last (digits_last h5) hxlast)
      obtain ⟨q4, x4, y4⟩ := At.skip (t := d') (r := x ++ r) (f := Char.isDigit) (by simpa using y3) h5 hxr
      exact ⟨q3, q4, x3, x4, by simpa using y4⟩
  obtain ⟨q3, q4, x3, x4, y4⟩ := hmid
  obtain ⟨q5, x5, y5⟩ := exponent_run y4 h4 hr hends hxdot hnoexp
  have hg : q5.giveFrom p0.cursor = .ok t q5 := by
    apply At.giveFrom (rest := r) (a := t) y0
    rw [ht]; simpa using y5
  refine ⟨q5, ?_⟩
  simp only [parseF64, Parser.skipWhitespace, x0, x1, x2, x3, x4, x5, hg, Res.bind]
  rw [if_pos]
  simp only [Bool.and_eq_true, rustFloat_iff]
  exact ⟨hl.1, hf⟩

/-- **C19 (exactly when)** Let `t` be the longest number at the place, in front of a text `r` that does not end with a
point. It is parsed if and only if its value is finite and there is no clash with `r`: a clash is a point behind
`1.` or behind an exponent, or an `e` (other than of `ex`, `em`) that is no exponent. -/
theorem f64_iff (h : At p pre rest) (e : rest.dropWhile isWhitespace = t ++ r) (hl : Longest (t ++ r) t)
    (hr : r.getLast? ≠ some '.') :
    (∃ t' q, parseF64 finite p = .ok t' q) ↔ finite t = true ∧ ¬ Clash t r := by
  constructor
  · rintro ⟨t', q, hp⟩
    obtain ⟨r', e1, e2, e3, _⟩ := f64_sound h hp
    have : t' = t := by
      rw [← e1, e] at e2
      exact longest_unique e2 hl
    subst this
    exact ⟨e3, fun hc => f64_clash h e hr hc q hp⟩
  · rintro ⟨hf, hc⟩
    obtain ⟨q, hq⟩ := f64_parsed h e hl hr hf hc
    exact ⟨t, q, hq⟩

/-- **C19 (violated)** The longest number in `1e-7.5`, in `1..5` and in `1e` is not recognised, nor is the number `1`
in front of a text that ends with a point. -/
theorem f64_violated (finite : List Char → Bool) :
    (∀ t q, parseF64 finite (.new "1e-7.5".toList) ≠ .ok t q) ∧ Longest "1e-7.5".toList "1e-7".toList ∧
    (∀ t q, parseF64 finite (.new "1..5".toList) ≠ .ok t q) ∧ Longest "1..5".toList "1.".toList ∧
    (∀ t q, parseF64 finite (.new "1e".toList) ≠ .ok t q) ∧ Longest "1e".toList "1".toList ∧
    (∀ t q, parseF64 finite (.new "1 2.".toList) ≠ .ok t q) ∧ Longest "1 2.".toList "1".toList := by
  have mono : ∀ p t q, parseF64 finite p = .ok t q → parseF64 (fun _ => true) p = .ok t q := by
    intro p t q h
    simp only [parseF64, bind_ok] at h ⊢
    obtain ⟨a1, p1, h1, a2, p2, h2, a3, p3, h3, a4, p4, h4, a5, p5, h5, a6, p6, h6, a7, p7, h7, h8⟩ := h
    refine ⟨a1, p1, h1, a2, p2, h2, a3, p3, h3, a4, p4, h4, a5, p5, h5, a6, p6, h6, a7, p7, h7, ?_⟩
    by_cases hr : rustFloat a7 = true <;> by_cases hf : finite a7 = true <;> simp [hr, hf] at h8 ⊢
    exact h8
  have num : ∀ t : List Char, rustFloat t = true → IsNumber t := fun t => (rustFloat_iff t).mp
  refine ⟨fun t q h => ?_, ?_, fun t q h => ?_, ?_, fun t q h => ?_, ?_, fun t q h => ?_, ?_⟩
  · have e : parseF64 (fun _ => true) (.new "1e-7.5".toList) = .err ⟨"1e-7.5".toList, 6⟩ := by decide +kernel
    rw [mono _ _ _ h] at e; cases e
  · exact longest_of (r := ".5".toList) (num _ rfl) (by intro c t h; cases h; rfl) (fun h => by simp [step, onDigit, onDot, onE, onSign, isE, isSign, Char.isDigit] at h) (by intro _ e y u h; cases h; decide)
  · have e : parseF64 (fun _ => true) (.new "1..5".toList) = .err ⟨"1..5".toList, 4⟩ := by decide +kernel
    rw [mono _ _ _ h] at e; cases e
  · exact longest_of (r := ".5".toList) (num _ rfl) (by intro c t h; cases h; rfl) (fun h => by simp [step, onDigit, onDot, onE, onSign, isE, isSign, Char.isDigit] at h) (by intro _ e y u h; cases h; decide)
  · have e : parseF64 (fun _ => true) (.new "1e".toList) = .err ⟨"1e".toList, 2⟩ := by decide +kernel
    rw [mono _ _ _ h] at e; cases e
  · exact longest_of (r := "e".toList) (num _ rfl) (by intro c t h; cases h; rfl) (by intro _ u h; cases h) (by intro _ e y u h; cases h)
  · have e : parseF64 (fun _ => true) (.new "1 2.".toList) = .err ⟨"1 2.".toList, 3⟩ := by decide +kernel
    rw [mono _ _ _ h] at e; cases e
  · exact longest_of (r := " 2.".toList) (num _ rfl) (by intro c t h; cases h; rfl) (by intro _ u h; cases h) (by intro _ e y u h; cases h; decide)

/-! ## Integers -/

/-- The value of a decimal numeral. -/
def decimal : List Char → Nat
  | [] => 0
  | c :: l => (c.toNat - '0'.toNat) * 10 ^ l.length + decimal l

theorem digitsValue_from (l : List Char) (n : Nat) :
    l.foldl (fun n c => 10 * n + (c.toNat - 48)) n = n * 10 ^ l.length + decimal l := by
  induction l generalizing n with
  | nil => simp [decimal]
  | cons c l ih =>
    rw [List.foldl_cons, ih, decimal, List.length_cons, Nat.pow_succ, Nat.add_mul]
    have : ('0' : Char).toNat = 48 := rfl
    rw [this, Nat.mul_comm 10 n, Nat.mul_assoc, Nat.mul_comm 10]
    omega

theorem digitsValue_eq (l : List Char) : digitsValue l = decimal l := by
  simp [digitsValue, digitsValue_from]

/-- The value of a signed numeral. -/
def signed (s d : List Char) : Int := if s = ['-'] then - (decimal d : Int) else decimal d

/-- A signed numeral at the front of `l`: sign, all digits, the rest. -/
def Numeral (l s d r : List Char) : Prop := l = s ++ d ++ r ∧ IsSign s ∧ Digits d ∧ d ≠ [] ∧ Ends Char.isDigit r

theorem rustInt_of {s d : List Char} (h : IsSign s) (hd : Digits d) (hne : d ≠ []) :
    rustInt (s ++ d) = if -(2 ^ 63 : Int) ≤ signed s d ∧ signed s d < 2 ^ 63 then some (signed s d) else none := by
  have ha : d.all Char.isDigit = true := List.all_eq_true.mpr hd
  have he : d.isEmpty = false := by simpa using hne
  have hs : splitSign (s ++ d) = (decide (s = ['-']), d) := by
    rcases h with rfl | rfl | rfl
    · obtain ⟨c, d', rfl⟩ := List.exists_cons_of_ne_nil hne
      have hc := not_sign_digit (hd c (by simp))
      simp only [isSign, Bool.or_eq_false_iff, beq_eq_false_iff_ne] at hc
      simp only [List.nil_append]
      unfold splitSign
      split
      · next h => simp at h; exact absurd h.1 hc.1
      · next h => simp at h; exact absurd h.1 hc.2
      · simp
    · rfl
    · rfl
  simp only [rustInt, hs, ha, he, digitsValue_eq, Bool.not_true, Bool.or_self, signed]
  by_cases hm : s = ['-'] <;> simp only [Bool.false_eq_true, if_false, decide_eq_true_eq, hm, if_true]

theorem rustInt_none {t : List Char} (h : ∀ s d, t = s ++ d → IsSign s → Digits d → d = []) : rustInt t = none := by
  have key : ∃ s, t = s ++ (splitSign t).2 ∧ IsSign s := by
    unfold splitSign
    split
    · exact ⟨['-'], rfl, .inr (.inr rfl)⟩
    · exact ⟨['+'], rfl, .inr (.inl rfl)⟩
    · exact ⟨[], rfl, .inl rfl⟩
  obtain ⟨s, e, hs⟩ := key
  simp only [rustInt]
  by_cases ha : (splitSign t).2.all Char.isDigit = true
  · have := h s _ e hs (List.all_eq_true.mp ha)
    simp [this]
  · simp [ha]

theorem i64_run (h : At p pre rest) : ∃ q, let l := rest.dropWhile isWhitespace
    let a := l.takeWhile isSign
    let d := (l.dropWhile isSign).takeWhile Char.isDigit
    let r := (l.dropWhile isSign).dropWhile Char.isDigit
    At q (pre ++ rest.takeWhile isWhitespace ++ a ++ d) r ∧
    parseI64 p = intResult (rustInt (a ++ d)) q := by
  obtain ⟨p0, x0, y0, _⟩ := h.skipMatches_at isWhitespace
  obtain ⟨q1, x1, y1, _⟩ := y0.skipMatches_at isSign
  obtain ⟨q2, x2, y2, _⟩ := y1.skipMatches_at Char.isDigit
  refine ⟨q2, y2, ?_⟩
  generalize rest.dropWhile isWhitespace = l at *
  have hg : q2.giveFrom p0.cursor = .ok (l.takeWhile isSign ++ (l.dropWhile isSign).takeWhile Char.isDigit) q2 := by
    apply At.giveFrom (rest := (l.dropWhile isSign).dropWhile Char.isDigit)
      (a := l.takeWhile isSign ++ (l.dropWhile isSign).takeWhile Char.isDigit) (pre := pre ++ rest.takeWhile isWhitespace)
    · simpa using y0
    · simpa using y2
  simp only [parseI64, Parser.skipWhitespace, x0, x1, x2, hg, Res.bind]

theorem numeral_parts {l s d r : List Char} (h : Numeral l s d r) : l.takeWhile isSign = s ∧
    (l.dropWhile isSign).takeWhile Char.isDigit = d ∧ (l.dropWhile isSign).dropWhile Char.isDigit = r := by
  obtain ⟨rfl, h1, h2, h3, h4⟩ := h
  have e1 : (d ++ r).takeWhile isSign = [] ∧ (d ++ r).dropWhile isSign = d ++ r := by
    have := ends_digits h2 h3 r
    cases hd : d ++ r with
    | nil => simp
    | cons c u => have := this c u hd; simp [List.takeWhile_cons, List.dropWhile_cons, this]
  have e2 : r.takeWhile Char.isDigit = [] ∧ r.dropWhile Char.isDigit = r := by
    cases r with
    | nil => simp
    | cons c u => have := h4 c u rfl; simp [List.takeWhile_cons, List.dropWhile_cons, this]
  rw [List.append_assoc, List.takeWhile_append_of_pos (sign_all h1), List.dropWhile_append_of_pos (sign_all h1), e1.1, e1.2,
    List.takeWhile_append_of_pos h2, List.dropWhile_append_of_pos h2, e2.1, e2.2]
  simp

/-- **C35 (64 bit)** If a signed numeral stands behind the white space, parsing gives its value and stands behind the
numeral when the value fits 64 bits, and is an error when it does not. If no numeral stands there the result is an error. -/
theorem i64_spec (h : At p pre rest) :
    (∀ s d r, Numeral (rest.dropWhile isWhitespace) s d r → ∃ q, At q (pre ++ rest.takeWhile isWhitespace ++ s ++ d) r ∧
      parseI64 p = if -(2 ^ 63 : Int) ≤ signed s d ∧ signed s d < 2 ^ 63 then .ok (signed s d) q else .err q) ∧
    ((∀ s d r, ¬ Numeral (rest.dropWhile isWhitespace) s d r) → ∃ q, parseI64 p = .err q) := by
  obtain ⟨q, h1, h2⟩ := i64_run h
  generalize hl : rest.dropWhile isWhitespace = l at *
  constructor
  · intro s d r hn
    obtain ⟨e1, e2, e3⟩ := numeral_parts hn
    rw [e1, e2, e3] at h1
    rw [e1, e2, rustInt_of hn.2.1 hn.2.2.1 hn.2.2.2.1] at h2
    refine ⟨q, h1, ?_⟩
    rw [h2]
    split <;> rfl
  · intro hn
    refine ⟨q, ?_⟩
    rw [h2, rustInt_none]
    · rfl
    · intro s d e hs hd
      by_cases hne : d = []
      · exact hne
      · exfalso
        apply hn s d ((l.dropWhile isSign).dropWhile Char.isDigit)
        refine ⟨?_, hs, hd, hne, ends_dropWhile _ _⟩
        rw [← e, List.append_assoc, List.takeWhile_append_dropWhile, List.takeWhile_append_dropWhile]

theorem signed_range_i32 {v : Int} (h1 : -(2 ^ 31 : Int) ≤ v) (h2 : v < 2 ^ 31) : asI32 v = v := by
  simp only [asI32]
  split <;> omega

theorem asI32_eq_iff (v : Int) : asI32 v = v ↔ -(2 ^ 31 : Int) ≤ v ∧ v < 2 ^ 31 := by
  constructor
  · intro h
    simp only [asI32] at h
    split at h <;> omega
  · rintro ⟨h1, h2⟩
    exact signed_range_i32 h1 h2

/-- **C35 (32 bit, partial)** For a numeral whose value fits 64 bits the 32 bit parser succeeds; what it gives is the
value of the numeral if and only if the value fits 32 bits. Missing: the error for values that do not fit. -/
theorem i32_partial {s d r : List Char} (h : At p pre rest) (hn : Numeral (rest.dropWhile isWhitespace) s d r)
    (h1 : -(2 ^ 63 : Int) ≤ signed s d) (h2 : signed s d < 2 ^ 63) :
    ∃ v q, parseI32 p = .ok v q ∧ At q (pre ++ rest.takeWhile isWhitespace ++ s ++ d) r ∧
      (v = signed s d ↔ -(2 ^ 31 : Int) ≤ signed s d ∧ signed s d < 2 ^ 31) := by
  obtain ⟨q, e1, e2⟩ := (i64_spec h).1 s d r hn
  rw [if_pos ⟨h1, h2⟩] at e2
  exact ⟨_, q, by rw [parseI32, e2]; rfl, e1, asI32_eq_iff _⟩

/-- **C35 (violated)** `4294967297` is read as the 32 bit integer 1. -/
theorem i32_violated : parseI32 (.new "4294967297".toList) = .ok 1 ⟨"4294967297".toList, 10⟩ := by decide +kernel

/-! ## Concrete cases -/

/-- `1.5.5-3e-7` is three numbers. -/
example : parseF64 (fun _ => true) (.new "1.5.5-3e-7".toList) = .ok "1.5".toList ⟨"1.5.5-3e-7".toList, 3⟩ ∧
    parseF64 (fun _ => true) ⟨"1.5.5-3e-7".toList, 3⟩ = .ok ".5".toList ⟨"1.5.5-3e-7".toList, 5⟩ ∧
    parseF64 (fun _ => true) ⟨"1.5.5-3e-7".toList, 5⟩ = .ok "-3e-7".toList ⟨"1.5.5-3e-7".toList, 10⟩ := by decide +kernel

/-- Units that begin with `e` are left. -/
example : parseF64 (fun _ => true) (.new " 2em".toList) = .ok "2".toList ⟨" 2em".toList, 2⟩ := by decide +kernel

/-- The hypotheses of `f64_iff` for `1.5.5`. -/
example : Longest ['1', '.', '5', '.', '5'] ['1', '.', '5'] ∧ ¬ Clash ['1', '.', '5'] ['.', '5'] :=
  ⟨longest_of (r := ['.', '5']) ((rustFloat_iff _).mp rfl) (by intro c t h; cases h; rfl) (fun h => by cases h)
    (by intro _ e y u h; cases h; decide), by
    rintro (⟨_, h | ⟨e, h, h'⟩⟩ | ⟨_, e, u, h, h', _⟩)
    · simp at h
    · simp at h; rcases h with rfl | rfl | rfl <;> simp [isE] at h'
    · cases h; simp [isE] at h'⟩

/-- A numeral with its value. -/
example : Numeral "-042px".toList "-".toList "042".toList "px".toList ∧ signed "-".toList "042".toList = -42 :=
  ⟨⟨rfl, .inr (.inr rfl), by intro c h; simp at h; rcases h with rfl | rfl | rfl <;> rfl, by decide,
    by intro c t h; cases h; rfl⟩, by decide⟩

example : parseI64 (.new " -042px".toList) = .ok (-42) ⟨" -042px".toList, 5⟩ := by decide +kernel
example : parseI64 (.new "99999999999999999999".toList) = .err ⟨"99999999999999999999".toList, 20⟩ := by decide +kernel

end Verif.Number
