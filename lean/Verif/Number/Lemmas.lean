import Verif.Number.Model
import Verif.Parse.Props

/-! # Numbers: recogniser and grammar -/

namespace Verif.Number

open Verif.Parse

def Digits (l : List Char) : Prop := ∀ c ∈ l, c.isDigit = true

/-- Grammar of a sign: nothing, `+` or `-`. -/
def IsSign (l : List Char) : Prop := l = [] ∨ l = ['+'] ∨ l = ['-']

/-- The number of the SVG 1.1 grammar: sign, integer part, fraction, exponent. There is a digit before or after
the point; `1.` is a number. -/
def IsNumber (t : List Char) : Prop := ∃ s d f x, t = s ++ d ++ f ++ x ∧ IsSign s ∧ Digits d ∧
  ((f = [] ∧ d ≠ []) ∨ ∃ d', f = '.' :: d' ∧ Digits d' ∧ (d ≠ [] ∨ d' ≠ [])) ∧
  (x = [] ∨ ∃ e s' d', x = e :: (s' ++ d') ∧ (e = 'e' ∨ e = 'E') ∧ IsSign s' ∧ Digits d' ∧ d' ≠ [])

theorem not_digit_dot : ('.' : Char).isDigit = false := by decide
theorem not_digit_e {c : Char} (h : isE c = true) : c.isDigit = false := by
  simp [isE] at h; rcases h with rfl | rfl <;> decide
theorem not_digit_sign {c : Char} (h : isSign c = true) : c.isDigit = false := by
  simp [isSign] at h; rcases h with rfl | rfl <;> decide
theorem not_dot_digit {c : Char} (h : c.isDigit = true) : c ≠ '.' := by rintro rfl; simp [not_digit_dot] at h
theorem not_sign_digit {c : Char} (h : c.isDigit = true) : isSign c = false := by
  cases hs : isSign c with
  | false => rfl
  | true => rw [not_digit_sign hs] at h; simp at h

theorem step_digit {c : Char} (h : c.isDigit = true) (s : St) : step s c = onDigit s := by simp [step, h]

theorem run_digits {l : List Char} (h : Digits l) (s : St) (hne : l ≠ []) : l.foldl step s = onDigit s := by
  induction l generalizing s with
  | nil => simp at hne
  | cons c l ih =>
    rw [List.foldl_cons, step_digit (h c (by simp))]
    by_cases hl : l = []
    · subst hl; rfl
    · rw [ih (fun d hd => h d (by simp [hd])) _ hl]
      cases s <;> rfl

theorem step_dot (s : St) : step s '.' = onDot s := by simp [step, not_digit_dot]

theorem step_e {c : Char} (h : isE c = true) (s : St) : step s c = onE s := by
  have : (c == '.') = false := by simp [isE] at h; rcases h with rfl | rfl <;> decide
  simp [step, not_digit_e h, this, h]

theorem step_sign {c : Char} (h : isSign c = true) (s : St) : step s c = onSign s := by
  have h1 : (c == '.') = false := by simp [isSign] at h; rcases h with rfl | rfl <;> decide
  have h2 : isE c = false := by simp [isSign] at h; rcases h with rfl | rfl <;> decide
  simp [step, not_digit_sign h, h1, h2, h]

theorem step_other {c : Char} (h1 : c.isDigit = false) (h2 : c ≠ '.') (h3 : isE c = false) (h4 : isSign c = false)
    (s : St) : step s c = .dead := by simp [step, h1, h2, h3, h4]

theorem run_dead (l : List Char) : l.foldl step .dead = .dead := by
  induction l with
  | nil => rfl
  | cons c l ih =>
    rw [List.foldl_cons]
    have : step .dead c = .dead := by simp [step, onDigit, onDot, onE, onSign]
    rw [this, ih]

/-- What has been read when the recogniser is in a state. -/
def Read (l : List Char) : St → Prop
  | .start => l = []
  | .sgn => IsSign l ∧ l ≠ []
  | .int => ∃ s d, l = s ++ d ∧ IsSign s ∧ Digits d ∧ d ≠ []
  | .dot => ∃ s, l = s ++ ['.'] ∧ IsSign s
  | .intdot => ∃ s d, l = s ++ d ++ ['.'] ∧ IsSign s ∧ Digits d ∧ d ≠ []
  | .frac => ∃ s d d', l = s ++ d ++ '.' :: d' ∧ IsSign s ∧ Digits d ∧ Digits d' ∧ d' ≠ []
  | .e => ∃ m c, l = m ++ [c] ∧ isE c = true ∧ IsNumber m ∧ ∀ x ∈ m, isE x = false
  | .esgn => ∃ m c s, l = m ++ c :: s ∧ isE c = true ∧ IsSign s ∧ s ≠ [] ∧ IsNumber m ∧ ∀ x ∈ m, isE x = false
  | .exp => ∃ m c s d, l = m ++ c :: (s ++ d) ∧ isE c = true ∧ IsSign s ∧ Digits d ∧ d ≠ [] ∧ IsNumber m ∧
      ∀ x ∈ m, isE x = false
  | .dead => True

theorem digits_snoc {d : List Char} {c : Char} (h : Digits d) (hc : c.isDigit = true) : Digits (d ++ [c]) := by
  intro x hx
  simp at hx
  rcases hx with hx | rfl
  · exact h x hx
  · exact hc

theorem isSign_of {c : Char} (h : isSign c = true) : IsSign [c] := by
  simp [isSign] at h; rcases h with rfl | rfl <;> simp [IsSign]

theorem noE_sign {s : List Char} (h : IsSign s) : ∀ x ∈ s, isE x = false := by
  rcases h with rfl | rfl | rfl <;> simp [isE]

theorem noE_digits {s : List Char} (h : Digits s) : ∀ x ∈ s, isE x = false := by
  intro x hx
  cases he : isE x with
  | false => rfl
  | true => have := not_digit_e he; rw [h x hx] at this; simp at this

theorem read_noE {l : List Char} {s : St} (h : Read l s) (hs : s = .int ∨ s = .intdot ∨ s = .frac) :
    IsNumber l ∧ ∀ x ∈ l, isE x = false := by
  rcases hs with rfl | rfl | rfl
  · obtain ⟨s, d, rfl, h1, h2, h3⟩ := h
    refine ⟨⟨s, d, [], [], by simp, h1, h2, .inl ⟨rfl, h3⟩, .inl rfl⟩, ?_⟩
    intro x hx
    rcases List.mem_append.mp hx with hx | hx
    · exact noE_sign h1 x hx
    · exact noE_digits h2 x hx
  · obtain ⟨s, d, rfl, h1, h2, h3⟩ := h
    refine ⟨⟨s, d, ['.'], [], by simp, h1, h2, .inr ⟨[], rfl, by simp [Digits], .inl h3⟩, .inl rfl⟩, ?_⟩
    intro x hx
    simp at hx
    rcases hx with hx | hx | rfl
    · exact noE_sign h1 x hx
    · exact noE_digits h2 x hx
    · decide
  · obtain ⟨s, d, d', rfl, h1, h2, h3, h4⟩ := h
    refine ⟨⟨s, d, '.' :: d', [], by simp, h1, h2, .inr ⟨d', rfl, h3, .inr h4⟩, .inl rfl⟩, ?_⟩
    intro x hx
    simp at hx
    rcases hx with hx | hx | rfl | hx
    · exact noE_sign h1 x hx
    · exact noE_digits h2 x hx
    · decide
    · exact noE_digits h3 x hx

theorem read_step {l : List Char} {s : St} (h : Read l s) (c : Char) : Read (l ++ [c]) (step s c) := by
  by_cases hd : c.isDigit = true
  · rw [step_digit hd]
    cases s with
    | start => simp [Read] at h; subst h; exact ⟨[], [c], by simp, .inl rfl, by simp [Digits, hd], by simp⟩
    | sgn => exact ⟨l, [c], rfl, h.1, by simp [Digits, hd], by simp⟩
    | int =>
      obtain ⟨s, d, rfl, h1, h2, h3⟩ := h
      exact ⟨s, d ++ [c], by simp, h1, digits_snoc h2 hd, by simp⟩
    | dot =>
      obtain ⟨s, rfl, h1⟩ := h
      exact ⟨s, [], [c], by simp, h1, by simp [Digits], by simp [Digits, hd], by simp⟩
    | intdot =>
      obtain ⟨s, d, rfl, h1, h2, h3⟩ := h
      exact ⟨s, d, [c], by simp, h1, h2, by simp [Digits, hd], by simp⟩
    | frac =>
      obtain ⟨s, d, d', rfl, h1, h2, h3, h4⟩ := h
      exact ⟨s, d, d' ++ [c], by simp, h1, h2, digits_snoc h3 hd, by simp⟩
    | e =>
      obtain ⟨m, x, rfl, h1, h2, h3⟩ := h
      exact ⟨m, x, [], [c], by simp, h1, .inl rfl, by simp [Digits, hd], by simp, h2, h3⟩
    | esgn =>
      obtain ⟨m, x, s, rfl, h1, h2, h3, h4, h5⟩ := h
      exact ⟨m, x, s, [c], by simp, h1, h2, by simp [Digits, hd], by simp, h4, h5⟩
    | exp =>
      obtain ⟨m, x, s, d, rfl, h1, h2, h3, h4, h5, h6⟩ := h
      exact ⟨m, x, s, d ++ [c], by simp, h1, h2, digits_snoc h3 hd, by simp, h5, h6⟩
    | dead => trivial
  · simp at hd
    by_cases hdot : c = '.'
    · subst hdot
      rw [step_dot]
      cases s with
      | start => simp [Read] at h; subst h; exact ⟨[], by simp, .inl rfl⟩
      | sgn => exact ⟨l, rfl, h.1⟩
      | int =>
        obtain ⟨s, d, rfl, h1, h2, h3⟩ := h
        exact ⟨s, d, by simp, h1, h2, h3⟩
      | _ => trivial
    · by_cases he : isE c = true
      · rw [step_e he]
        cases s with
        | int => exact ⟨l, c, rfl, he, read_noE h (.inl rfl)⟩
        | intdot => exact ⟨l, c, rfl, he, read_noE h (.inr (.inl rfl))⟩
        | frac => exact ⟨l, c, rfl, he, read_noE h (.inr (.inr rfl))⟩
        | _ => trivial
      · simp at he
        by_cases hs : isSign c = true
        · rw [step_sign hs]
          cases s with
          | start => simp [Read] at h; subst h; exact ⟨isSign_of hs, by simp⟩
          | e =>
            obtain ⟨m, x, rfl, h1, h2, h3⟩ := h
            exact ⟨m, x, [c], by simp, h1, isSign_of hs, by simp, h2, h3⟩
          | _ => trivial
        · simp at hs
          rw [step_other hd hdot he hs]
          trivial

theorem read_run (l : List Char) : Read l (l.foldl step .start) := by
  have key : ∀ (m : List Char) (pre : List Char) (s : St), Read pre s → Read (pre ++ m) (m.foldl step s) := by
    intro m
    induction m with
    | nil => intro pre s h; simpa using h
    | cons c m ih =>
      intro pre s h
      have := ih (pre ++ [c]) (step s c) (read_step h c)
      simpa using this
  have := key l [] .start rfl
  simpa using this

/-- The recogniser accepts exactly the numbers of the grammar. -/
theorem rustFloat_iff (t : List Char) : rustFloat t = true ↔ IsNumber t := by
  constructor
  · intro h
    have hr := read_run t
    simp only [rustFloat] at h
    cases hs : t.foldl step .start <;> rw [hs] at h hr <;> simp [accept] at h
    · exact (read_noE hr (.inl rfl)).1
    · exact (read_noE hr (.inr (.inl rfl))).1
    · exact (read_noE hr (.inr (.inr rfl))).1
    · obtain ⟨m, c, s, d, rfl, h1, h2, h3, h4, ⟨s0, d0, f0, x0, rfl, g1, g2, g3, g4⟩, h6⟩ := hr
      refine ⟨s0, d0, f0, c :: (s ++ d), ?_, g1, g2, g3, .inr ⟨c, s, d, rfl, by simpa [isE] using h1, h2, h3, h4⟩⟩
      rcases g4 with rfl | ⟨e, s', d', rfl, he, _⟩
      · simp
      · have := h6 e (by simp)
        rcases he with rfl | rfl <;> simp [isE] at this
  · rintro ⟨s, d, f, x, rfl, h1, h2, h3, h4⟩
    have r1 : s.foldl step .start = if s = [] then .start else .sgn := by
      rcases h1 with rfl | rfl | rfl <;> rfl
    have r2 : d.foldl step (if s = [] then St.start else .sgn) = if d = [] then (if s = [] then St.start else .sgn) else .int := by
      by_cases hd : d = []
      · simp [hd]
      · rw [run_digits h2 _ hd]
        simp only [hd, if_false]
        by_cases hs : s = [] <;> simp [hs, onDigit, onDot]
    have hx : ∀ st : St, (st = .int ∨ st = .intdot ∨ st = .frac) → accept (x.foldl step st) = true := by
      intro st hst
      rcases h4 with rfl | ⟨e, s', d', rfl, he, g1, g2, g3⟩
      · rcases hst with rfl | rfl | rfl <;> rfl
      · rw [List.foldl_cons, step_e (by rcases he with rfl | rfl <;> rfl), List.foldl_append]
        have : s'.foldl step .e = if s' = [] then .e else .esgn := by
          rcases g1 with rfl | rfl | rfl <;> rfl
        have e1 : onE st = .e := by rcases hst with rfl | rfl | rfl <;> rfl
        rw [e1, this, run_digits g2 _ g3]
        by_cases hs : s' = [] <;> simp [hs, accept, onDigit]
    simp only [rustFloat, List.foldl_append, r1, r2]
    apply hx
    rcases h3 with ⟨rfl, hd⟩ | ⟨d', rfl, g1, g2⟩
    · simp [hd]
    · rw [List.foldl_cons, step_dot]
      by_cases hd : d = []
      · have hd' : d' ≠ [] := by rcases g2 with h | h; exact absurd hd h; exact h
        rw [run_digits g1 _ hd']
        subst hd
        by_cases hs : s = [] <;> simp [hs, onDigit, onDot]
      · by_cases hd' : d' = []
        · subst hd'; simp [hd, onDot]
        · rw [run_digits g1 _ hd']
          simp [hd, onDigit, onDot]

end Verif.Number
